import Verif.Spec.DirKeys
import Verif.Props.DocMap
import Mathlib.Data.List.Induction

/-!
# C109: directory sinks with keys that are paths
-/
set_option linter.unusedSectionVars false
set_option linter.unusedSimpArgs false
namespace Vista
namespace DirKeys
variable {cwd P : PyPath}

theorem lastInFile_concat {V : Type} (puts : List (Str × V)) (e : Str × V) (k : Str) :
    lastInFile (puts ++ [e]) k = if names e.1 = names k then some e.2 else lastInFile puts k := by
  unfold lastInFile
  by_cases h : names e.1 = names k <;> simp [h]

theorem lastInFile_isSome {V : Type} (puts : List (Str × V)) (k : Str) :
    (lastInFile puts k).isSome = true ↔ ∃ k' ∈ puts.map (·.1), names k' = names k := by
  unfold lastInFile
  rw [Option.isSome_map, List.find?_isSome]
  constructor
  · rintro ⟨e, he, h⟩
    exact ⟨e.1, List.mem_map.2 ⟨e, List.mem_reverse.1 he, rfl⟩, by simpa using h⟩
  · rintro ⟨k', hk', h⟩
    obtain ⟨e, he, rfl⟩ := List.mem_map.1 hk'
    exact ⟨e, List.mem_reverse.2 he, by simpa using h⟩

theorem lastInFile_map {V W : Type} (f : V → W) (puts : List (Str × V)) (k : Str) :
    lastInFile (puts.map fun e => (e.1, f e.2)) k = (lastInFile puts k).map f := by
  induction puts using List.reverseRecOn with
  | nil => rfl
  | append_singleton puts e ih =>
    rw [List.map_append, List.map_cons, List.map_nil, lastInFile_concat, lastInFile_concat]
    by_cases h : names e.1 = names k <;> simp [h, ih]

theorem served_map {V W : Type} (f : V → W) (puts : List (Str × V)) (k : Str) :
    served (puts.map fun e => (e.1, f e.2)) k = (served puts k).map f := by
  unfold served
  rw [lastInFile_map, List.map_map]
  have : (((fun x : Str × W => x.1) ∘ fun e : Str × V => (e.1, f e.2))) = (fun x => x.1) := rfl
  rw [this]
  split <;> rfl

theorem served_isSome {V : Type} (puts : List (Str × V)) (k : Str) : (served puts k).isSome = true ↔ k ∈ puts.map (·.1) := by
  unfold served
  split
  · rename_i h
    exact ⟨fun _ => h, fun _ => (lastInFile_isSome _ _).2 ⟨k, h, rfl⟩⟩
  · rename_i h
    simp [h]

theorem parse_key {k : Str} (h : PathKey k) : PyPath.parse k = ⟨[], names k⟩ := by
  have : (PyPath.parse k).root = [] := by
    have hr := h.relative
    unfold PyPath.parse PyPath.rootOf
    cases k with
    | nil => rfl
    | cons c k =>
      simp only [List.head?_cons, ne_eq, Option.some.injEq] at hr
      split <;> simp_all
  unfold names
  rw [← this]

theorem div_key {k : Str} (h : PathKey k) : P.div (PyPath.parse k) = ⟨P.root, P.parts ++ names k⟩ := by
  simp [parse_key h, PyPath.div]

theorem resolve_append {ws : List Str} (h : ['.', '.'] ∉ ws) : PyPath.resolve cwd ⟨P.root, P.parts ++ ws⟩ = PyPath.resolve cwd P ++ ws := by
  induction ws using List.reverseRecOn with
  | nil => simp
  | append_singleton ws w ih =>
    simp only [List.mem_append, List.mem_singleton, not_or] at h
    have := resolve_snoc (cwd := cwd) (P := ⟨P.root, P.parts ++ ws⟩) w (fun e => h.2 e.symm)
    rw [← List.append_assoc, this, ih h.1, List.append_assoc]

theorem absolute_append (ws : List Str) :
    PyPath.absolute cwd ⟨P.root, P.parts ++ ws⟩ = ⟨(PyPath.absolute cwd P).root, (PyPath.absolute cwd P).parts ++ ws⟩ := by
  unfold PyPath.absolute
  by_cases hr : P.root = [] <;> simp [hr]

theorem mem_of_joinWith {c d : Char} {ws : List Str} {w : Str} (hw : w ∈ ws) (hd : d ∈ w) : d ∈ joinWith c ws := by
  induction ws with
  | nil => simp at hw
  | cons v ws ih =>
    cases ws with
    | nil =>
      rw [List.mem_singleton.1 hw] at hd
      simpa [joinWith] using hd
    | cons v' ws =>
      simp only [joinWith, List.mem_append, List.mem_cons]
      rcases List.mem_cons.1 hw with rfl | hw
      · exact .inl hd
      · exact .inr (.inr (ih hw))

theorem names_normal (k : Str) : ∀ w ∈ names k, w ≠ [] ∧ w ≠ ['.'] ∧ '/' ∉ w := by
  intro w hw
  simp only [names, PyPath.parse, List.mem_filter, decide_eq_true_eq] at hw
  exact ⟨hw.2.1, hw.2.2, splitOn_no_sep _ _ w hw.1⟩

theorem names_safe {k : Str} (h : PathKey k) : ∀ w ∈ names k, TextSafe w := by
  intro w hw
  simp only [names, PyPath.parse, List.mem_filter, decide_eq_true_eq] at hw
  have : ∀ c ∈ w, c ∈ k := fun c hc => by
    have := mem_of_joinWith (c := '/') hw.1 hc
    rwa [joinWith_splitOn] at this
  exact ⟨fun hc => h.safe.1 (this _ hc), fun hc => h.safe.2.1 (this _ hc), fun hc => h.safe.2.2 (this _ hc)⟩

theorem clash_symm {k k' : Str} (h : Clash k k') : Clash k' k := ⟨fun e => h.1 e.symm, h.2.symm⟩

theorem render_names (hroot : (PyPath.absolute cwd P).root = ['/'] ∨ (PyPath.absolute cwd P).root = ['/', '/'])
    (hsafe : ∀ w ∈ (PyPath.absolute cwd P).parts, TextSafe w) {k : Str} (hk : PathKey k) :
    Fieldable (PyPath.absolute cwd ⟨P.root, P.parts ++ names k⟩).render ∧ '\r' ∉ (PyPath.absolute cwd ⟨P.root, P.parts ++ names k⟩).render := by
  rw [absolute_append]
  obtain h0 | ⟨init, n, hn⟩ := nil_or_snoc (names k)
  · exact absurd h0 hk.nonempty
  have hns := names_safe hk
  have hnn : n ≠ [] := (names_normal k n (by rw [hn]; simp)).1
  have hlastn : ∀ c, n.getLast? = some c → isSpace c = false := fun c hc => hk.lastName n c (by rw [hn]; simp) hc
  rw [hn] at hns
  rw [hn, ← List.append_assoc]
  generalize (PyPath.absolute cwd P).root = r at *
  have hsafe' : ∀ w ∈ (PyPath.absolute cwd P).parts ++ init, TextSafe w := by
    intro w hw
    rcases List.mem_append.1 hw with hw | hw
    · exact hsafe w hw
    · exact hns w (by simp [hw])
  have hsn : TextSafe n := hns n (by simp)
  generalize (PyPath.absolute cwd P).parts ++ init = ws at *
  have hr0 : r ≠ [] := by rcases hroot with rfl | rfl <;> simp
  have hrender : PyPath.render ⟨r, ws ++ [n]⟩ = r ++ joinWith '/' (ws ++ [n]) := by simp [PyPath.render, hr0]
  have hchar : ∀ c, c ∈ PyPath.render ⟨r, ws ++ [n]⟩ → c ≠ '\t' ∧ c ≠ '\n' ∧ c ≠ '\r' := by
    intro c hc
    rw [hrender] at hc
    have hslash : c = '/' → c ≠ '\t' ∧ c ≠ '\n' ∧ c ≠ '\r' := by rintro rfl; decide
    have hin : ∀ w, TextSafe w → c ∈ w → c ≠ '\t' ∧ c ≠ '\n' ∧ c ≠ '\r' := by
      rintro w ⟨h1, h2, h3⟩ hc
      exact ⟨fun h => h1 (h ▸ hc), fun h => h2 (h ▸ hc), fun h => h3 (h ▸ hc)⟩
    rcases List.mem_append.1 hc with h | h
    · apply hslash
      rcases hroot with rfl | rfl <;> simpa using h
    · rcases mem_joinWith h with h | ⟨w, hw, h⟩
      · exact hslash h
      · rcases List.mem_append.1 hw with hw | hw
        · exact hin w (hsafe' w hw) h
        · rw [List.mem_singleton.1 hw] at h; exact hin n hsn h
  refine ⟨⟨fun h => (hchar _ h).1 rfl, fun h => (hchar _ h).2.1 rfl, ?_, ?_⟩, fun h => (hchar _ h).2.2 rfl⟩
  · intro c hc
    rw [hrender] at hc
    have : c = '/' := by
      rcases hroot with rfl | rfl <;> simpa using hc.symm
    rw [this]; decide
  · intro c hc
    rw [hrender] at hc
    have hlast : (joinWith '/' (ws ++ [n])).getLast? = n.getLast? := by
      by_cases hws : ws = []
      · subst hws; rfl
      · rw [joinWith_append hws (by simp), List.getLast?_append]
        have : ('/' :: joinWith '/' [n]).getLast? = n.getLast? := by
          simp only [joinWith]
          cases n with
          | nil => exact absurd rfl hnn
          | cons a n => simp [List.getLast?_cons_cons]
        rw [this]
        cases hkl : n.getLast? with
        | none => exact absurd (List.getLast?_eq_none_iff.1 hkl) hnn
        | some d => rfl
    rw [List.getLast?_append, hlast] at hc
    refine hlastn c ?_
    cases hkl : n.getLast? with
    | none => exact absurd (List.getLast?_eq_none_iff.1 hkl) hnn
    | some d => rw [hkl] at hc; exact hc

/-- The state of a directory session after some calls of `put`. -/
structure State (cwd P : PyPath) (fs : FS) (puts : List (Str × Bytes)) (s : DirSink) (fs' : FS) : Prop where
  tree : fs'.Tree
  path : s.path = P
  nodup : (s.idToFile.map (·.1)).Nodup
  map : ∀ k p, (k, p) ∈ s.idToFile ↔ k ∈ puts.map (·.1) ∧ p = ⟨P.root, P.parts ++ names k⟩
  dir : fs'.node (PyPath.resolve cwd P) = some .dir
  files : ∀ k b, lastInFile puts k = some b → fs'.node (PyPath.resolve cwd P ++ names k) = some (.file (.data b))
  onlyFiles : ∀ ws c, fs'.node (PyPath.resolve cwd P ++ ws) = some (.file c) → ∃ k ∈ puts.map (·.1), ws = names k
  onlyDirs : ∀ ws, fs'.node (PyPath.resolve cwd P ++ ws) = some .dir → ws = [] ∨ ∃ k ∈ puts.map (·.1), ws <+: names k ∧ ws ≠ names k
  outside : ∀ q, ¬ PyPath.resolve cwd P <+: q → fs'.node q = fs.node q
  noClash : NoClash (puts.map (·.1))

theorem State.same {fs fs' fs'' : FS} {puts : List (Str × Bytes)} {s : DirSink} (h : State cwd P fs puts s fs')
    (hn : ∀ q, fs''.node q = fs'.node q) (ht : fs''.Tree) : State cwd P fs puts s fs'' :=
  ⟨ht, h.path, h.nodup, h.map, by rw [hn]; exact h.dir, fun k b hb => by rw [hn]; exact h.files k b hb,
    fun ws c hc => h.onlyFiles ws c (by rw [← hn]; exact hc), fun ws hc => h.onlyDirs ws (by rw [← hn]; exact hc),
    fun q hq => by rw [hn]; exact h.outside q hq, h.noClash⟩

theorem parent_append {ws : List Str} (n : Str) : PyPath.parent ⟨P.root, P.parts ++ (ws ++ [n])⟩ = ⟨P.root, P.parts ++ ws⟩ := by
  rw [← List.append_assoc]; simp [PyPath.parent]

theorem put_step {fs fs' : FS} {done : List (Str × Bytes)} {s : DirSink} (hst : State cwd P fs done s fs') {k : Str} (hk : PathKey k) (b : Bytes) :
    ((∀ k' ∈ done.map (·.1), ¬ Clash k k') → ∃ s' fs'', s.put cwd k b fs' = (.ok s', fs'') ∧ State cwd P fs (done ++ [(k, b)]) s' fs'') ∧
    ((∃ k' ∈ done.map (·.1), Clash k k') → ∃ fs'', s.put cwd k b fs' = (.error .ioError, fs'') ∧ State cwd P fs done s fs'') := by
  obtain h0 | ⟨init, n, hn⟩ := nil_or_snoc (names k)
  · exact absurd h0 hk.nonempty
  have hdd := hk.dotdot
  have hddi : ['.', '.'] ∉ init := fun h => hdd (by rw [hn]; simp [h])
  have hpar : PyPath.resolve cwd (PyPath.parent ⟨P.root, P.parts ++ names k⟩) = PyPath.resolve cwd P ++ init := by
    rw [hn, parent_append, resolve_append hddi]
  have hres : PyPath.resolve cwd ⟨P.root, P.parts ++ names k⟩ = PyPath.resolve cwd P ++ names k := resolve_append hdd
  have hin : init <+: names k := by rw [hn]; exact List.prefix_append _ _
  have hinne : ∀ ws, ws <+: init → ws ≠ names k := by
    intro ws h he
    have := h.length_le
    rw [he] at this
    rw [hn] at this; simp at this; omega
  have hstrict : ∀ ws, ws <+: names k → ws ≠ names k → ws <+: init := by
    intro ws h hne
    rw [hn] at h hne
    rcases List.prefix_concat_iff.1 h with h | h
    · exact absurd h hne
    · exact h
  generalize hD : PyPath.resolve cwd P = D at *
  have hdirD : fs'.node D = some .dir := hD ▸ hst.dir
  have habove : ∀ q, q <+: D → fs'.node q = some .dir := by
    intro q hq
    by_cases h : q = D
    · rw [h]; exact hdirD
    · exact hst.tree.dir_of_prefix hq h (by rw [hdirD]; simp)
  have hsplit : ∀ q ws, q <+: D ++ ws → q <+: D ∨ ∃ vs, q = D ++ vs ∧ vs <+: ws := by
    intro q ws h
    rcases List.prefix_or_prefix_of_prefix h (List.prefix_append D ws) with h' | ⟨vs, rfl⟩
    · exact .inl h'
    · exact .inr ⟨vs, rfl, (List.prefix_append_right_inj D).1 h⟩
  constructor
  · intro hno
    have hnb : ¬ fs'.Blocked (D ++ init) := by
      rintro ⟨q, c, hq, hc⟩
      rcases hsplit q init hq with h | ⟨vs, rfl, h⟩
      · rw [habove q h] at hc; simp at hc
      · obtain ⟨k', hk', rfl⟩ := hst.onlyFiles vs c (by rw [hD]; exact hc)
        exact hno k' hk' ⟨(hinne _ h).symm, .inr (h.trans hin)⟩
    obtain ⟨fs1, a1, a2, a3⟩ := (mkdirs_spec hst.tree (D ++ init)).1 hnb
    have hfresh : fs1.node (D ++ names k) ≠ some .dir := by
      have : ¬ D ++ names k <+: D ++ init := fun h => hinne _ ((List.prefix_append_right_inj D).1 h) rfl
      rw [a2.2 _ this]
      intro hc
      rcases hst.onlyDirs (names k) (by rw [hD]; exact hc) with h | ⟨k', hk', h1, h2⟩
      · exact hk.nonempty h
      · exact hno k' hk' ⟨h2, .inl h1⟩
    have hdrop : (D ++ names k).dropLast = D ++ init := by rw [hn, ← List.append_assoc, List.dropLast_concat]
    obtain ⟨fs2, b1, b2, b3⟩ := (writeFile_spec a3 (D ++ names k) (.data b)).1 (by rw [hn]; simp)
      (by rw [hdrop]; exact a2.1 _ (List.prefix_refl _)) hfresh
    have hput : s.put cwd k b fs' = (.ok { s with idToFile := dictSet k ⟨P.root, P.parts ++ names k⟩ s.idToFile }, fs2) := by
      simp [DirSink.put, hst.path, div_key hk, writeBytesTo, hpar, hres, a1, b1]
    refine ⟨_, fs2, hput, b3, hst.path, nodup_dictSet _ _ hst.nodup, ?_, ?_, ?_, ?_, ?_, ?_, ?_⟩
    · intro k' p
      rw [← dictGet_iff (nodup_dictSet _ _ hst.nodup), dictGet_dictSet]
      by_cases hkk : k' = k
      · subst hkk
        simp [eq_comm]
      · simp only [hkk, if_false, dictGet_iff hst.nodup, hst.map, List.map_append, List.map_cons, List.map_nil, List.mem_append,
          List.mem_singleton, or_false]
    · rw [hD, b2.2 D (by intro h; have := congrArg List.length h; simp [hn] at this)]
      exact a2.1 _ (List.prefix_append _ _)
    · intro k' b' hb'
      rw [hD]
      rw [lastInFile_concat] at hb'
      by_cases hkk : names k = names k'
      · simp only [hkk, if_true, Option.some.injEq] at hb'
        rw [← hb', ← hkk]; exact b2.1
      · simp only [hkk, if_false] at hb'
        obtain ⟨k'', hk'', he⟩ := (lastInFile_isSome done k').1 (by rw [hb']; rfl)
        rw [b2.2 _ (by simpa [eq_comm] using hkk), a2.2]
        · rw [← hD]; exact hst.files k' b' hb'
        · intro h
          have h := (List.prefix_append_right_inj D).1 h
          exact hno k'' hk'' ⟨by rw [he]; exact hkk, .inr (by rw [he]; exact h.trans hin)⟩
    · intro ws c hc
      rw [hD] at hc
      by_cases hw : ws = names k
      · exact ⟨k, by simp, hw⟩
      · rw [b2.2 _ (by simpa using hw)] at hc
        by_cases hp : D ++ ws <+: D ++ init
        · rw [a2.1 _ hp] at hc; simp at hc
        · rw [a2.2 _ hp] at hc
          obtain ⟨k', hk', h⟩ := hst.onlyFiles ws c (by rw [hD]; exact hc)
          exact ⟨k', by rw [List.map_append]; exact List.mem_append_left _ hk', h⟩
    · intro ws hc
      rw [hD] at hc
      by_cases hw : ws = names k
      · rw [hw, b2.1] at hc; simp at hc
      · rw [b2.2 _ (by simpa using hw)] at hc
        by_cases hp : D ++ ws <+: D ++ init
        · exact .inr ⟨k, by simp, ((List.prefix_append_right_inj D).1 hp).trans hin, hw⟩
        · rw [a2.2 _ hp] at hc
          rcases hst.onlyDirs ws (by rw [hD]; exact hc) with h | ⟨k', hk', h⟩
          · exact .inl h
          · exact .inr ⟨k', by rw [List.map_append]; exact List.mem_append_left _ hk', h⟩
    · intro q hq
      rw [hD] at hq
      rw [b2.2 q (fun h => hq (h ▸ List.prefix_append _ _)), ← hst.outside q (by rw [hD]; exact hq)]
      by_cases hp : q <+: D ++ init
      · rw [a2.1 q hp]
        rcases hsplit q init hp with h | ⟨vs, rfl, -⟩
        · exact (habove q h).symm
        · exact absurd (List.prefix_append _ _) hq
      · exact a2.2 q hp
    · intro k1 h1 k2 h2
      simp only [List.map_append, List.map_cons, List.map_nil, List.mem_append, List.mem_singleton] at h1 h2
      rcases h1 with h1 | rfl <;> rcases h2 with h2 | rfl
      · exact hst.noClash k1 h1 k2 h2
      · exact fun h => hno k1 h1 (clash_symm h)
      · exact hno k2 h2
      · exact fun h => h.1 rfl
  · rintro ⟨k', hk', hne, hpre⟩
    obtain ⟨b', hb'⟩ := Option.isSome_iff_exists.1 ((lastInFile_isSome done k').2 ⟨k', hk', rfl⟩)
    have hfile := hst.files k' b' hb'
    rw [hD] at hfile
    rcases hpre with hpre | hpre
    · -- the file of the key is a directory
      obtain ⟨r, hr⟩ := hpre
      have hdirk : fs'.node (D ++ names k) = some .dir := by
        refine hst.tree.dir_of_prefix (q := D ++ names k') ⟨r, by rw [← hr, List.append_assoc]⟩ ?_ (by rw [hfile]; simp)
        intro h; exact hne (List.append_cancel_left h)
      have hdiri : fs'.node (D ++ init) = some .dir := by
        refine hst.tree.dir_of_prefix (q := D ++ names k) ((List.prefix_append_right_inj D).2 hin) ?_ (by rw [hdirk]; simp)
        intro h; exact hinne init (List.prefix_refl _) (List.append_cancel_left h)
      obtain ⟨fs1, a1, a2, a3⟩ := mkdirs_existing hst.tree hdiri
      have hw := (writeFile_spec a3 (D ++ names k) (.data b)).2 (fun h => h.2.2 (by rw [a2]; exact hdirk))
      refine ⟨fs1, ?_, hst.same a2 a3⟩
      simp [DirSink.put, hst.path, div_key hk, writeBytesTo, hpar, hres, a1, hw]
    · -- a file is in the way
      have hm := (mkdirs_spec hst.tree (D ++ init)).2
        ⟨D ++ names k', .data b', (List.prefix_append_right_inj D).2 (hstrict _ hpre (Ne.symm hne)), hfile⟩
      refine ⟨fs', ?_, hst⟩
      simp [DirSink.put, hst.path, div_key hk, writeBytesTo, hpar, hm]

theorem puts_spec (fs : FS) (rest : List (Str × Bytes)) (hkeys : ∀ e ∈ rest, PathKey e.1) (done : List (Str × Bytes)) (s : DirSink) (fs' : FS)
    (hst : State cwd P fs done s fs') :
    ∃ good bad s' e fs'', rest = good ++ bad ∧ DirSink.puts cwd s rest fs' = (.ok (s', e), fs'') ∧ State cwd P fs (done ++ good) s' fs'' ∧
      ((bad = [] ∧ e = none) ∨
        ∃ k b more, bad = (k, b) :: more ∧ (∃ k' ∈ (done ++ good).map (·.1), Clash k k') ∧ e = some .ioError) := by
  induction rest generalizing done s fs' with
  | nil => exact ⟨[], [], s, none, fs', rfl, rfl, by simpa using hst, .inl ⟨rfl, rfl⟩⟩
  | cons e rest ih =>
    obtain ⟨k, b⟩ := e
    have hk : PathKey k := hkeys (k, b) (by simp)
    obtain ⟨h1, h2⟩ := put_step hst hk b
    by_cases hc : ∃ k' ∈ done.map (·.1), Clash k k'
    · obtain ⟨fs'', a1, a2⟩ := h2 hc
      refine ⟨[], (k, b) :: rest, s, some .ioError, fs'', rfl, ?_, by simpa using a2, .inr ⟨k, b, rest, rfl, by simpa using hc, rfl⟩⟩
      unfold DirSink.puts
      rw [DirSink.putsAt, a1]
    · obtain ⟨s1, fs1, a1, a2⟩ := h1 fun k' hk' h => hc ⟨k', hk', h⟩
      obtain ⟨good, bad, s', e, fs'', b1, b2, b3, b4⟩ := ih (fun e he => hkeys e (by simp [he])) _ _ _ a2
      refine ⟨(k, b) :: good, bad, s', e, fs'', by rw [b1]; rfl, ?_, by simpa using b3, by simpa using b4⟩
      unfold DirSink.puts at b2 ⊢
      rw [DirSink.putsAt, a1]
      exact b2

theorem filesOf_names (hcwd : cwd.Normal) (hroot : cwd.root ≠ []) (hP : P.Normal) {fs : FS} {k : Str} (hk : PathKey k) {b : Bytes}
    (h : fs.node (PyPath.resolve cwd P ++ names k) = some (.file (.data b))) :
    filesOf cwd fs (PyPath.absolute cwd ⟨P.root, P.parts ++ names k⟩).render = .ok b := by
  have hn : (PyPath.absolute cwd ⟨P.root, P.parts ++ names k⟩).Normal := by
    refine absolute_normal hcwd ⟨hP.root, fun w hw => ?_⟩
    rcases List.mem_append.1 hw with hw | hw
    · exact hP.parts w hw
    · exact names_normal k w hw
  unfold filesOf
  rw [PyPath.parse_render hn, resolve_absolute hroot, resolve_append hk.dotdot]
  simp [readData, readFile, h]

/-- Leaving a sink, and reading the index. -/
theorem leave_spec (hcwd : cwd.Normal) (hroot : cwd.root ≠ []) (hP : P.Normal)
    (hsafe : ∀ w ∈ (PyPath.absolute cwd P).parts, TextSafe w) {fs3 : FS} {s3 : DirSink} (ht : fs3.Tree) (hpath : s3.path = P)
    (hnd : (s3.idToFile.map (·.1)).Nodup) (keys : List Str) (hgood : ∀ k ∈ keys, PathKey k)
    (hmap : ∀ k p, (k, p) ∈ s3.idToFile ↔ k ∈ keys ∧ p = ⟨P.root, P.parts ++ names k⟩)
    (hdir : fs3.node (PyPath.resolve cwd P) = some .dir) (hfree : fs3.node (PyPath.resolve cwd P ++ ["_index".toList]) ≠ some .dir)
    (F : Str → Option Bytes) (hF : ∀ k ∈ keys, ∃ b, F k = some b ∧ fs3.node (PyPath.resolve cwd P ++ names k) = some (.file (.data b))) :
    ∃ fs4, s3.exit cwd fs3 = (.ok (), fs4) ∧ fs4.Tree ∧ (∀ q, q ≠ PyPath.resolve cwd P ++ ["_index".toList] → fs4.node q = fs3.node q) ∧
      (∃ c, fs4.node (PyPath.resolve cwd P ++ ["_index".toList]) = some (.file c)) ∧
      ∃ m, docMapEntries cwd (P.div (PyPath.parse "_index".toList)) fs4 = (.ok m, fs4) ∧ (m.map (·.1)).Nodup ∧
        (∀ k, k ∈ m.map (·.1) ↔ k ∈ keys) ∧
        ∀ k p, (k, p) ∈ m → ∃ b, F k = some b ∧ filesOf cwd fs4 p = .ok b := by
  have hni : ∀ k ∈ keys, names k ≠ ["_index".toList] := fun k hk h => (hgood k hk).index (by rw [h]; rfl)
  obtain ⟨fs4, d1, d2, d3⟩ := writeBytesTo_spec (P := P) ht index_key.dotdot hdir hfree (encodeUtf8 (docMapText cwd s3.idToFile))
  have hexit : s3.exit cwd fs3 = (.ok (), fs4) := by
    rw [DirSink.exit, writeTextTo, hpath, div_fileKey index_key]
    exact d1
  refine ⟨fs4, hexit, d3, d2.2, ⟨_, d2.1⟩, ?_⟩
  -- reading the index
  have hroot' : (PyPath.absolute cwd P).root = ['/'] ∨ (PyPath.absolute cwd P).root = ['/', '/'] := by
    have := (absolute_normal hcwd hP).root
    rcases this with h | h | h
    · exfalso
      unfold PyPath.absolute at h
      split at h
      · rename_i h'; exact h' h
      · exact hroot h
    · exact .inl h
    · exact .inr h
  have hentry : ∀ e ∈ s3.idToFile, PathKey e.1 ∧ e.1 ∈ keys ∧ e.2 = ⟨P.root, P.parts ++ names e.1⟩ := by
    rintro ⟨k, p⟩ he
    obtain ⟨hk, hp⟩ := (hmap k p).1 he
    exact ⟨hgood k hk, hk, hp⟩
  have hnorm : ∀ k, PathKey k → (PyPath.absolute cwd ⟨P.root, P.parts ++ names k⟩).Normal := by
    intro k hk
    refine absolute_normal hcwd ⟨hP.root, fun w hw => ?_⟩
    rcases List.mem_append.1 hw with hw | hw
    · exact hP.parts w hw
    · exact names_normal k w hw
  have hcr : '\r' ∉ docMapText cwd s3.idToFile := by
    intro h
    unfold docMapText at h
    obtain ⟨l, hl, hc⟩ := List.mem_flatten.1 h
    obtain ⟨id, -, rfl⟩ := List.mem_map.1 hl
    unfold docMapLine at hc
    split at hc
    · rename_i p hp
      obtain ⟨hk, -, hp2⟩ := hentry _ ((dictGet_iff hnd _ _).1 hp)
      simp only at hk hp2
      rw [hp2] at hc
      simp only [List.mem_append, List.mem_cons, List.not_mem_nil, or_false] at hc
      rcases hc with (hc | hc | hc) | hc
      · exact hk.safe.2.2 hc
      · exact absurd hc (by decide)
      · exact (render_names hroot' hsafe hk).2 hc
      · exact absurd hc (by decide)
    · simp at hc
  have hsrc : fileSource (PyPath.resolve cwd P ++ ["_index".toList]) fs4 = (.ok (docMapText cwd s3.idToFile), fs4) := by
    simp only [fileSource, readData, readFile, d2.1, Prog.bind_apply, Prog.pure_apply, Prog.ofRes_apply, translatedText_encode hcr]
  obtain ⟨m, e1, e2, e3⟩ := docMap_roundtrip cwd s3.idToFile hnd
    (fun e he => ⟨(hentry e he).1.safe.1, (hentry e he).1.safe.2.1, (hentry e he).1.head, (hentry e he).1.last⟩)
    (fun e he => by
      obtain ⟨hk, -, hp⟩ := hentry e he
      rw [hp]; exact ⟨(render_names hroot' hsafe hk).1, hnorm _ hk⟩) _ fs4 hsrc
  have hkeys' : ∀ k, k ∈ m.map (·.1) ↔ k ∈ keys := by
    intro k
    constructor
    · intro h
      obtain ⟨⟨k', q⟩, hq, rfl⟩ := List.mem_map.1 h
      obtain ⟨p, hp, -⟩ := (e2 _ _).1 hq
      exact (hentry _ hp).2.1
    · intro h
      exact List.mem_map.2 ⟨_, (e2 k _).2 ⟨_, (hmap k _).2 ⟨h, rfl⟩, rfl⟩, rfl⟩
  refine ⟨m.map fun e => (e.1, e.2.render), ?_, ?_, ?_, ?_⟩
  · rw [docMapEntries, div_fileKey index_key, resolve_snoc _ index_key.dotdot]
    simp only [Prog.bind_apply, e1, Prog.pure_apply]
  · simp only [List.map_map]
    exact (e3.imp fun h => h.1)
  · intro k
    rw [← hkeys' k]
    simp only [List.map_map]; rfl
  · intro k p hp
    obtain ⟨⟨k', q⟩, hq, heq⟩ := List.mem_map.1 hp
    simp only [Prod.mk.injEq] at heq
    obtain ⟨rfl, rfl⟩ := heq
    obtain ⟨p', hp', rfl⟩ := (e2 _ _).1 hq
    obtain ⟨hk, hmem, hp''⟩ := hentry _ hp'
    simp only at hk hmem hp''
    obtain ⟨b, hb, hn⟩ := hF k' hmem
    refine ⟨b, hb, ?_⟩
    rw [hp'']
    refine filesOf_names hcwd hroot hP hk ?_
    rw [d2.2 _ (by intro h; exact hni k' hmem (List.append_cancel_left h))]
    exact hn

/-- Entering a sink. -/
theorem enter_state (fs : FS) (ht : fs.Tree) (hname : ∃ n, P.parts.getLast? = some n ∧ n ≠ ['.', '.']) (hempty : fs.EmptyDir (PyPath.resolve cwd P)) :
    ∃ fs2, (DirSink.new P).enter cwd fs = (.ok (DirSink.new P), fs2) ∧ State cwd P fs [] (DirSink.new P) fs2 := by
  obtain ⟨fs2, henter, hst0⟩ := dirSink_enter fs ht hname hempty
  have hst : State cwd P fs [] (DirSink.new P) fs2 := by
    have hview : ∀ q, fs2.node q = fs.node q := fun q => hst0.others q (by simp)
    refine ⟨hst0.tree, rfl, by simp [DirSink.new], by simp [DirSink.new], by rw [hview]; exact hempty.1, by simp [lastInFile], ?_, ?_,
      fun q _ => hview q, by simp [NoClash]⟩
    · intro ws c hc
      rw [hview] at hc
      cases ws with
      | nil => rw [List.append_nil, hempty.1] at hc; simp at hc
      | cons w ws => rw [ht.none_of_prefix (p := PyPath.resolve cwd P ++ [w]) ⟨ws, by simp⟩ (hempty.2 w)] at hc; simp at hc
    · intro ws hc
      rw [hview] at hc
      cases ws with
      | nil => exact .inl rfl
      | cons w ws => rw [ht.none_of_prefix (p := PyPath.resolve cwd P ++ [w]) ⟨ws, by simp⟩ (hempty.2 w)] at hc; simp at hc
  exact ⟨fs2, henter, hst⟩

theorem session_spec (hcwd : cwd.Normal) (hroot : cwd.root ≠ []) (hP : P.Normal)
    (hsafe : ∀ w ∈ (PyPath.absolute cwd P).parts, TextSafe w) (fs : FS) (ht : fs.Tree) (hname : ∃ n, P.parts.getLast? = some n ∧ n ≠ ['.', '.'])
    (hempty : fs.EmptyDir (PyPath.resolve cwd P)) (puts : List (Str × Bytes)) (hkeys : ∀ e ∈ puts, PathKey e.1) :
    ∃ good bad fs', puts = good ++ bad ∧ NoClash (good.map (·.1)) ∧
      ((bad = [] ∧ (DirSink.new P).session cwd puts fs = (.ok (), fs')) ∨
        ∃ k b more, bad = (k, b) :: more ∧ (∃ k' ∈ good.map (·.1), Clash k k') ∧
          (DirSink.new P).session cwd puts fs = (.error .ioError, fs')) ∧
      fs'.Tree ∧ (∀ q, ¬ PyPath.resolve cwd P <+: q → fs'.node q = fs.node q) ∧
      (∀ k b, served good k = some b → fs'.node (PyPath.resolve cwd P ++ names k) = some (.file (.data b))) ∧
      (∃ c, fs'.node (PyPath.resolve cwd P ++ ["_index".toList]) = some (.file c)) ∧
      ∃ m, docMapEntries cwd (P.div (PyPath.parse "_index".toList)) fs' = (.ok m, fs') ∧ (m.map (·.1)).Nodup ∧
        (∀ k, k ∈ m.map (·.1) ↔ k ∈ good.map (·.1)) ∧
        ∀ k p, (k, p) ∈ m → ∃ b, served good k = some b ∧ filesOf cwd fs' p = .ok b := by
  obtain ⟨fs2, henter, hst⟩ := enter_state fs ht hname hempty
  obtain ⟨good, bad, s3, e, fs3, c0, c1, c2, c3⟩ := puts_spec fs puts hkeys [] _ _ hst
  simp only [List.nil_append] at c2 c3
  have hgood : ∀ k ∈ good.map (·.1), PathKey k := by
    intro k hk
    obtain ⟨e, he, rfl⟩ := List.mem_map.1 hk
    exact hkeys e (by rw [c0]; exact List.mem_append_left _ he)
  have hfree : fs3.node (PyPath.resolve cwd P ++ ["_index".toList]) ≠ some .dir := by
    intro hc
    rcases c2.onlyDirs _ hc with h | ⟨k, hk, ⟨r, hr⟩, -⟩
    · simp at h
    · exact (hgood k hk).index (by rw [← hr]; rfl)
  have hni : ∀ k ∈ good.map (·.1), names k ≠ ["_index".toList] := fun k hk h => (hgood k hk).index (by rw [h]; rfl)
  have hfiles : ∀ k b, served good k = some b → fs3.node (PyPath.resolve cwd P ++ names k) = some (.file (.data b)) := by
    intro k b hb
    have hk : k ∈ good.map (·.1) := (served_isSome good k).1 (by rw [hb]; rfl)
    rw [served, if_pos hk] at hb
    exact c2.files k b hb
  obtain ⟨fs4, hexit, d3, d2, d4, m, e1, e2, e3, e4⟩ := leave_spec hcwd hroot hP hsafe c2.tree c2.path c2.nodup (good.map (·.1)) hgood c2.map
    c2.dir hfree (served good) (fun k hk => by
      obtain ⟨b, hb⟩ := Option.isSome_iff_exists.1 ((served_isSome good k).2 hk)
      exact ⟨b, hb, hfiles k b hb⟩)
  refine ⟨good, bad, fs4, c0, c2.noClash, ?_, d3, ?_, ?_, d4, m, e1, e2, e3, e4⟩
  · rcases c3 with ⟨rfl, rfl⟩ | ⟨k, b, more, rfl, hcl, rfl⟩
    · exact .inl ⟨rfl, by simp [DirSink.session, henter, c1, hexit]⟩
    · exact .inr ⟨k, b, more, rfl, hcl, by simp [DirSink.session, henter, c1, hexit]⟩
  · intro q hq
    rw [d2 q (fun h => hq (h ▸ List.prefix_append _ _)), c2.outside q hq]
  · intro k b hb
    rw [d2 _ (by intro h; exact hni k ((served_isSome good k).1 (by rw [hb]; rfl)) (List.append_cancel_left h))]
    exact hfiles k b hb

/-- A session on a directory sink for bytes, in an empty directory, for any keys that are relative paths without `..`: the calls of `put`
succeed up to the first whose file would lie under the file of an earlier key, or be a directory above it; that one raises `OSError`, out
of the session too. In both cases nothing outside the directory is changed, the value of a key lies in the file below the directory that
the key names, and the source read from the index serves exactly the keys put so far, each with the last value put for its file. -/
theorem C109_bytes (hcwd : cwd.Normal) (hroot : cwd.root ≠ []) (hP : P.Normal) (hsafe : ∀ w ∈ (PyPath.absolute cwd P).parts, TextSafe w)
    (fs : FS) (ht : fs.Tree) (hname : ∃ n, P.parts.getLast? = some n ∧ n ≠ ['.', '.']) (hempty : fs.EmptyDir (PyPath.resolve cwd P))
    (puts : List (Str × Bytes)) (hkeys : ∀ e ∈ puts, PathKey e.1) :
    ∃ good bad fs', puts = good ++ bad ∧ NoClash (good.map (·.1)) ∧
      ((bad = [] ∧ (DirSink.new P).session cwd puts fs = (.ok (), fs')) ∨
        ∃ k b more, bad = (k, b) :: more ∧ (∃ k' ∈ good.map (·.1), Clash k k') ∧
          (DirSink.new P).session cwd puts fs = (.error .ioError, fs')) ∧
      fs'.Tree ∧ (∀ q, ¬ PyPath.resolve cwd P <+: q → fs'.node q = fs.node q) ∧
      (∀ k b, served good k = some b → fs'.node (PyPath.resolve cwd P ++ names k) = some (.file (.data b))) ∧
      ∃ m, docMapEntries cwd (P.div (PyPath.parse "_index".toList)) fs' = (.ok m, fs') ∧
        Zip.Serves (docMapSource readBytesFile cwd m fs') (fun _ => True) (served good) := by
  obtain ⟨good, bad, fs', h0, hn, h1, h2, h3, hf, -, m, h4, h5, h6, h7⟩ := session_spec hcwd hroot hP hsafe fs ht hname hempty puts hkeys
  refine ⟨good, bad, fs', h0, hn, h1, h2, h3, hf, m, h4, ?_⟩
  refine ⟨⟨m.map (·.1), rfl, h5, fun k => by rw [h6, served_isSome]⟩, ?_, ?_⟩
  · intro k v hv
    have hk : k ∈ m.map (·.1) := (h6 k).2 ((served_isSome good k).1 (by rw [hv]; rfl))
    obtain ⟨⟨k', p⟩, hp, rfl⟩ := List.mem_map.1 hk
    obtain ⟨b, hb, hf⟩ := h7 _ _ hp
    simp only at hv hb
    rw [hv, Option.some.injEq] at hb
    have hget := (dictGet_iff h5 _ _).2 hp
    simp only at hget ⊢
    simp [docMapSource, pathMapping, hget, readBytesFile, hf, hb, bind, Except.bind]
  · intro k _ hk
    have : dictGet m k = none := by
      rw [dictGet_none_iff, h6, ← served_isSome, hk]; simp
    simp [docMapSource, pathMapping, this]

/-- The same for text; values are read back with their line ends translated. -/
theorem C109_char (hcwd : cwd.Normal) (hroot : cwd.root ≠ []) (hP : P.Normal) (hsafe : ∀ w ∈ (PyPath.absolute cwd P).parts, TextSafe w)
    (fs : FS) (ht : fs.Tree) (hname : ∃ n, P.parts.getLast? = some n ∧ n ≠ ['.', '.']) (hempty : fs.EmptyDir (PyPath.resolve cwd P))
    (puts : List (Str × Str)) (hkeys : ∀ e ∈ puts, PathKey e.1) :
    ∃ good bad fs', puts = good ++ bad ∧ NoClash (good.map (·.1)) ∧
      ((bad = [] ∧ (DirSink.new P).session cwd (puts.map fun e => (e.1, encodeUtf8 e.2)) fs = (.ok (), fs')) ∨
        ∃ k v more, bad = (k, v) :: more ∧ (∃ k' ∈ good.map (·.1), Clash k k') ∧
          (DirSink.new P).session cwd (puts.map fun e => (e.1, encodeUtf8 e.2)) fs = (.error .ioError, fs')) ∧
      fs'.Tree ∧ (∀ q, ¬ PyPath.resolve cwd P <+: q → fs'.node q = fs.node q) ∧
      (∀ k v, served good k = some v → fs'.node (PyPath.resolve cwd P ++ names k) = some (.file (.data (encodeUtf8 v)))) ∧
      ∃ m, docMapEntries cwd (P.div (PyPath.parse "_index".toList)) fs' = (.ok m, fs') ∧
        Zip.Serves (docMapSource readTextFile cwd m fs') (fun _ => True) (fun k => (served good k).map universalNewlines) := by
  obtain ⟨good', bad', fs', h0, hn, h1, h2, h3, hf, -, m, h4, h5, h6, h7⟩ := session_spec hcwd hroot hP hsafe fs ht hname hempty
    (puts.map fun e => (e.1, encodeUtf8 e.2)) (by intro e he; obtain ⟨e', he', rfl⟩ := List.mem_map.1 he; exact hkeys e' he')
  obtain ⟨good, bad, rfl, rfl, rfl⟩ := List.map_eq_append_iff.1 h0
  have hk' : (good.map fun e => (e.1, encodeUtf8 e.2)).map (·.1) = good.map (·.1) := by rw [List.map_map]; rfl
  rw [hk'] at hn h1
  refine ⟨good, bad, fs', rfl, hn, ?_, h2, h3, ?_, m, h4, ?_⟩
  · rcases h1 with ⟨hb, h⟩ | ⟨k, b, more, hb, hcl, h⟩
    · exact .inl ⟨List.map_eq_nil_iff.1 hb, h⟩
    · obtain ⟨⟨k', v⟩, more', rfl, hkv, -⟩ := List.map_eq_cons_iff.1 hb
      simp only [Prod.mk.injEq] at hkv
      exact .inr ⟨k', v, more', rfl, hkv.1 ▸ hcl, h⟩
  · intro k v hv
    exact hf k _ (by rw [served_map, hv]; rfl)
  · have h6' : ∀ k, k ∈ m.map (·.1) ↔ (served good k).isSome = true := by
      intro k
      rw [h6, served_isSome, hk']
    refine ⟨⟨m.map (·.1), rfl, h5, fun k => by rw [h6', Option.isSome_map]⟩, ?_, ?_⟩
    · intro k v hv
      obtain ⟨w, hw, rfl⟩ := Option.map_eq_some_iff.1 hv
      have hk : k ∈ m.map (·.1) := (h6' k).2 (by rw [hw]; rfl)
      obtain ⟨⟨k', p⟩, hp, rfl⟩ := List.mem_map.1 hk
      obtain ⟨b, hb, hf⟩ := h7 _ _ hp
      rw [served_map] at hb
      simp only at hw hb
      rw [hw, Option.map_some, Option.some.injEq] at hb
      have hget := (dictGet_iff h5 _ _).2 hp
      simp only at hget ⊢
      simp [docMapSource, pathMapping, hget, readTextFile, hf, ← hb, bind, Except.bind, decodeUtf8_encode]
    · intro k _ hk
      have : dictGet m k = none := by
        rw [dictGet_none_iff, h6']; simp only [Option.map_eq_none_iff] at hk; rw [hk]; simp
      simp [docMapSource, pathMapping, this]

/-- A session succeeds if and only if no two of its keys clash. -/
theorem C109_ok_iff (hcwd : cwd.Normal) (hroot : cwd.root ≠ []) (hP : P.Normal) (hsafe : ∀ w ∈ (PyPath.absolute cwd P).parts, TextSafe w)
    (fs : FS) (ht : fs.Tree) (hname : ∃ n, P.parts.getLast? = some n ∧ n ≠ ['.', '.']) (hempty : fs.EmptyDir (PyPath.resolve cwd P))
    (puts : List (Str × Bytes)) (hkeys : ∀ e ∈ puts, PathKey e.1) :
    (((DirSink.new P).session cwd puts fs).1 = .ok () ↔ NoClash (puts.map (·.1))) ∧
    (((DirSink.new P).session cwd puts fs).1 = .error .ioError ↔ ¬ NoClash (puts.map (·.1))) := by
  obtain ⟨good, bad, fs', h0, hn, h1, -⟩ := C109_bytes hcwd hroot hP hsafe fs ht hname hempty puts hkeys
  rcases h1 with ⟨rfl, h⟩ | ⟨k, b, more, rfl, ⟨k', hk', hcl⟩, h⟩
  · rw [List.append_nil] at h0
    subst h0
    rw [h]
    exact ⟨⟨fun _ => hn, fun _ => rfl⟩, ⟨(fun h => by cases h), fun h => absurd hn h⟩⟩
  · rw [h]
    have hc : ¬ NoClash (puts.map (·.1)) := by
      intro hno
      refine hno k ?_ k' ?_ hcl
      · rw [h0]; simp
      · rw [h0, List.map_append]; exact List.mem_append_left _ hk'
    exact ⟨⟨(fun h => by cases h), fun h => absurd h hc⟩, ⟨fun _ => hc, fun _ => rfl⟩⟩

/-- After a session, whether it failed or not, there is no further one, through this sink or another for the directory: entering raises
`OSError` and changes nothing. -/
theorem C109_once (hcwd : cwd.Normal) (hroot : cwd.root ≠ []) (hP : P.Normal) (hsafe : ∀ w ∈ (PyPath.absolute cwd P).parts, TextSafe w)
    (fs : FS) (ht : fs.Tree) (hname : ∃ n, P.parts.getLast? = some n ∧ n ≠ ['.', '.']) (hempty : fs.EmptyDir (PyPath.resolve cwd P))
    (puts : List (Str × Bytes)) (hkeys : ∀ e ∈ puts, PathKey e.1) (s : DirSink) (hs : s.path = P) (again : List (Str × Bytes)) :
    let fs' := ((DirSink.new P).session cwd puts fs).2
    s.session cwd again fs' = (.error .ioError, fs') := by
  obtain ⟨good, bad, fs', -, -, h1, h2, -, -, ⟨c, hc⟩, -⟩ := session_spec hcwd hroot hP hsafe fs ht hname hempty puts hkeys
  have hfs : ((DirSink.new P).session cwd puts fs).2 = fs' := by
    rcases h1 with ⟨-, h⟩ | ⟨_, _, _, -, -, h⟩ <;> rw [h]
  simp only [hfs]
  have : DirSink.rmdirPath cwd P fs' = (.error .ioError, fs') := by
    unfold DirSink.rmdirPath
    split
    · rfl
    · refine (rmdir_spec h2 _).2 fun h' => ?_
      rw [h'.2.2] at hc; simp at hc
  simp [DirSink.session, DirSink.enter, hs, this]

/-! ## Examples and counterexamples -/

namespace DirKeysExample
open DocMapExample

def a_b : Str := "a/b".toList
def puts : List (Str × Str) := [(a_b, "1".toList), ("a//./c".toList, "2".toList), ("a/./b".toList, "3".toList), ("d".toList, "4".toList)]

theorem pathKey_of (k : Str) (h : k.head? ≠ some '/' ∧ names k ≠ [] ∧ ['.', '.'] ∉ names k ∧ ('\t' ∉ k ∧ '\n' ∉ k ∧ '\r' ∉ k) ∧
    (k.head?.all fun c => !isSpace c) = true ∧ (k.getLast?.all fun c => !isSpace c) = true ∧
    ((names k).getLast?.all fun n => n.getLast?.all fun c => !isSpace c) = true ∧ (names k).head? ≠ some "_index".toList) : PathKey k := by
  obtain ⟨h1, h2, h3, h4, h5, h6, h7, h8⟩ := h
  refine ⟨h1, h2, h3, h4, ?_, ?_, ?_, h8⟩
  · intro c hc; simpa [hc] using h5
  · intro c hc; simpa [hc] using h6
  · intro n c hn hc; simpa [hn, hc] using h7

/-- Keys that meet the hypotheses: three of them in one directory, two of these the same file. -/
theorem keys : ∀ e ∈ puts, PathKey e.1 := by
  intro e he
  simp only [puts, List.mem_cons, List.not_mem_nil, or_false] at he
  rcases he with rfl | rfl | rfl | rfl <;> exact pathKey_of _ (by decide +kernel)

example : lookup puts a_b = some "3".toList ∧ lookup puts "a//./c".toList = some "2".toList ∧ lookup puts "a/./b".toList = some "3".toList ∧
    lookup puts "d".toList = some "4".toList ∧ lookup puts "a/c".toList = none := by decide +kernel
example : served puts a_b = some "3".toList ∧ served puts "a/c".toList = none := by decide +kernel

def run (calls : List (Str × Str)) : Res Unit × FS := (DirSink.new dir).session home (calls.map fun e => (e.1, encodeUtf8 e.2)) fs

/-- Keys that clash: the second `put` raises, and the first value can be read. -/
example : isIOError (run [("a".toList, "1".toList), (a_b, "2".toList)]) = true ∧
    lookup [("a".toList, "1".toList), (a_b, "2".toList)] "a".toList = some "1".toList ∧
    isIOError (run [(a_b, "1".toList), ("a".toList, "2".toList)]) = true := by decide +kernel

/-- A second session after each of these fails. -/
example : isIOError ((DirSink.new dir).session home [] (run puts).2) = true ∧
    isIOError ((DirSink.new dir).session home [] (run [("a".toList, "1".toList), (a_b, "2".toList)]).2) = true ∧
    isIOError (run puts) = false := by decide +kernel

def dataAt (fs : FS) (p : Loc) : Option Str :=
  match fs.node p with
  | some (.file (.data b)) => (match decodeUtf8 b with | .ok s => some s | .error _ => none)
  | _ => none

def fs' : FS := (["home".toList, "e".toList], .file (.data (encodeUtf8 "mine".toList))) :: fs

/-- A key with `..`, or an absolute one, overwrites a file that is not in the directory. -/
theorem _root_.Vista.DirKeys.C109_escape_counterexample :
    dataAt fs' ["home".toList, "e".toList] = some "mine".toList ∧
    (∀ k, k = "../e".toList ∨ k = "/home/e".toList →
      dataAt ((DirSink.new dir).session home [(k, encodeUtf8 "x".toList)] fs').2 ["home".toList, "e".toList] = some "x".toList ∧
      isIOError ((DirSink.new dir).session home [(k, encodeUtf8 "x".toList)] fs') = false) := by
  refine ⟨by decide +kernel, ?_⟩
  rintro k (rfl | rfl) <;> decide +kernel

/-- A key in a directory of the name `_index`: the index cannot be written. -/
theorem _root_.Vista.DirKeys.C109_index_counterexample :
    isIOError (run [("_index/a".toList, "1".toList)]) = true ∧ lookup [("_index/a".toList, "1".toList)] "_index/a".toList = none := by decide +kernel

end DirKeysExample

end DirKeys
end Vista
