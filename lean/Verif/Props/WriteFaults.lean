import Verif.Spec.WriteFaults
import Verif.Props.DirKeys

/-!
# C112: directory sinks when the operating system fails
-/
set_option linter.unusedSectionVars false
set_option linter.unusedSimpArgs false
namespace Vista
namespace WriteFaults
open DirKeys (names PathKey Clash NoClash lastInFile lastInFile_concat lastInFile_isSome div_key resolve_append parent_append)
variable {cwd P : PyPath}

/-- The file system during a session in which the calls have the keys `K`. -/
structure St (cwd P : PyPath) (fs : FS) (K : List Str) (done : List (Str × Bytes)) (fs' : FS) : Prop where
  tree : fs'.Tree
  dir : fs'.node (PyPath.resolve cwd P) = some .dir
  files : ∀ k b, lastInFile done k = some b → fs'.node (PyPath.resolve cwd P ++ names k) = some (.file (.data b))
  onlyFiles : ∀ ws c, fs'.node (PyPath.resolve cwd P ++ ws) = some (.file c) → ∃ k ∈ K, ws = names k
  onlyDirs : ∀ ws, fs'.node (PyPath.resolve cwd P ++ ws) = some .dir → ws = [] ∨ ∃ k ∈ K, ws <+: names k ∧ ws ≠ names k
  outside : ∀ q, ¬ PyPath.resolve cwd P <+: q → fs'.node q = fs.node q

theorem prefix_init {init : List Str} {n : Str} {k : Str} (hn : names k = init ++ [n]) {ws : List Str} (h : ws <+: init) :
    ws <+: names k ∧ ws ≠ names k := by
  constructor
  · rw [hn]; exact h.trans (List.prefix_append _ _)
  · intro he
    have := h.length_le
    rw [he, hn] at this; simp at this; omega

/-- Making some of the directories above the file of a key. -/
theorem dirs_step {fs fs' : FS} {K : List Str} {done : List (Str × Bytes)} (hst : St cwd P fs K done fs') (hno : NoClash K)
    (hdone : ∀ e ∈ done, e.1 ∈ K) {k : Str} (hk : k ∈ K)
    {init : List Str} {n : Str} (hn : names k = init ++ [n]) (q : Loc) (hq : q <+: PyPath.resolve cwd P ++ init) :
    ∃ fs'', mkdirs q fs' = (.ok (), fs'') ∧ fs'.WithDirs q fs'' ∧ St cwd P fs K done fs'' := by
  have hin : ∀ ws, ws <+: init → ∀ k' ∈ K, ws ≠ names k' := by
    intro ws h k' hk' he
    obtain ⟨h1, h2⟩ := prefix_init hn h
    exact hno k' hk' k hk ⟨he ▸ h2, .inl (he ▸ h1)⟩
  generalize hD : PyPath.resolve cwd P = D at *
  have hdirD : fs'.node D = some .dir := hD ▸ hst.dir
  have habove : ∀ q, q <+: D → fs'.node q = some .dir := by
    intro q hq
    by_cases h : q = D
    · rw [h]; exact hdirD
    · exact hst.tree.dir_of_prefix hq h (by rw [hdirD]; simp)
  have hsplit : ∀ r, r <+: q → r <+: D ∨ ∃ vs, r = D ++ vs ∧ vs <+: init := by
    intro r h
    rcases List.prefix_or_prefix_of_prefix (h.trans hq) (List.prefix_append D init) with h' | ⟨vs, rfl⟩
    · exact .inl h'
    · exact .inr ⟨vs, rfl, (List.prefix_append_right_inj D).1 (h.trans hq)⟩
  have hnb : ¬ fs'.Blocked q := by
    rintro ⟨r, c, hr, hc⟩
    rcases hsplit r hr with h | ⟨vs, rfl, h⟩
    · rw [habove r h] at hc; simp at hc
    · obtain ⟨k', hk', rfl⟩ := hst.onlyFiles vs c (by rw [hD]; exact hc)
      exact hin _ h k' hk' rfl
  obtain ⟨fs1, a1, a2, a3⟩ := (mkdirs_spec hst.tree q).1 hnb
  refine ⟨fs1, a1, a2, a3, ?_, ?_, ?_, ?_, ?_⟩
  · rw [hD]
    by_cases h : D <+: q
    · exact a2.1 _ h
    · rw [a2.2 _ h]; exact hdirD
  · intro k' b' hb'
    rw [hD]
    obtain ⟨k'', hk'', he⟩ := (lastInFile_isSome done k').1 (by rw [hb']; rfl)
    rw [a2.2]
    · rw [← hD]; exact hst.files k' b' hb'
    · intro h
      rcases hsplit _ h with h' | ⟨vs, hv, h'⟩
      · have := h'.length_le
        have h0 : names k' = [] := by
          cases hx : names k' with
          | nil => rfl
          | cons a l => rw [hx] at this; simp at this; omega
        obtain ⟨e, he1, he2⟩ := List.mem_map.1 hk''
        exact hin [] (List.nil_prefix) k'' (he2 ▸ hdone e he1) (by rw [he, h0])
      · obtain ⟨e, he1, he2⟩ := List.mem_map.1 hk''
        exact hin vs h' k'' (he2 ▸ hdone e he1) (by rw [he]; exact (List.append_cancel_left hv).symm)
  · intro ws c hc
    rw [hD] at hc
    by_cases hp : D ++ ws <+: q
    · rw [a2.1 _ hp] at hc; simp at hc
    · rw [a2.2 _ hp] at hc
      exact hst.onlyFiles ws c (by rw [hD]; exact hc)
  · intro ws hc
    rw [hD] at hc
    by_cases hp : D ++ ws <+: q
    · have := (List.prefix_append_right_inj D).1 (hp.trans hq)
      exact .inr ⟨k, hk, prefix_init hn this⟩
    · rw [a2.2 _ hp] at hc
      exact hst.onlyDirs ws (by rw [hD]; exact hc)
  · intro r hr
    rw [hD] at hr
    rw [← hst.outside r (by rw [hD]; exact hr)]
    by_cases hp : r <+: q
    · rw [a2.1 r hp]
      rcases hsplit r hp with h | ⟨vs, rfl, -⟩
      · exact (habove r h).symm
      · exact absurd (List.prefix_append _ _) hr
    · exact a2.2 r hp

/-- Writing a file. -/
theorem write_step {fs fs' : FS} {K : List Str} {done : List (Str × Bytes)} (hst : St cwd P fs K done fs') (hno : NoClash K)
    (hdone : ∀ e ∈ done, e.1 ∈ K) {k : Str} (hk : k ∈ K) (hpk : PathKey k) (b : Bytes) :
    ∃ fs'', writeBytesTo cwd (P.div (PyPath.parse k)) b fs' = (.ok (), fs'') ∧ St cwd P fs K (done ++ [(k, b)]) fs'' := by
  obtain h0 | ⟨init, n, hn⟩ := nil_or_snoc (names k)
  · exact absurd h0 hpk.nonempty
  have hddi : ['.', '.'] ∉ init := fun h => hpk.dotdot (by rw [hn]; simp [h])
  have hpar : PyPath.resolve cwd (PyPath.parent ⟨P.root, P.parts ++ names k⟩) = PyPath.resolve cwd P ++ init := by
    rw [hn, parent_append, resolve_append hddi]
  have hres : PyPath.resolve cwd ⟨P.root, P.parts ++ names k⟩ = PyPath.resolve cwd P ++ names k := resolve_append hpk.dotdot
  obtain ⟨fs1, a1, a2, h1⟩ := dirs_step hst hno hdone hk hn _ (List.prefix_refl _)
  generalize hD : PyPath.resolve cwd P = D at *
  have hfresh : fs1.node (D ++ names k) ≠ some .dir := by
    intro hc
    rcases h1.onlyDirs (names k) (by rw [hD]; exact hc) with h | ⟨k', hk', e1, e2⟩
    · exact hpk.nonempty h
    · exact hno k hk k' hk' ⟨e2, .inl e1⟩
  have hdrop : (D ++ names k).dropLast = D ++ init := by rw [hn, ← List.append_assoc, List.dropLast_concat]
  obtain ⟨fs2, b1, b2, b3⟩ := (writeFile_spec h1.tree (D ++ names k) (.data b)).1 (by rw [hn]; simp)
    (by rw [hdrop]; exact a2.1 _ (List.prefix_refl _)) hfresh
  refine ⟨fs2, by simp [div_key hpk, writeBytesTo, hpar, hres, a1, b1], b3, ?_, ?_, ?_, ?_, ?_⟩
  · rw [hD, b2.2 D (by intro h; have := congrArg List.length h; simp [hn] at this), ← hD]
    exact h1.dir
  · intro k' b' hb'
    rw [hD]
    rw [lastInFile_concat] at hb'
    by_cases hkk : names k = names k'
    · simp only [hkk, if_true, Option.some.injEq] at hb'
      rw [← hb', ← hkk]; exact b2.1
    · simp only [hkk, if_false] at hb'
      rw [b2.2 _ (by simpa [eq_comm] using hkk), ← hD]
      exact h1.files k' b' hb'
  · intro ws c hc
    rw [hD] at hc
    by_cases hw : ws = names k
    · exact ⟨k, hk, hw⟩
    · rw [b2.2 _ (by simpa using hw)] at hc
      exact h1.onlyFiles ws c (by rw [hD]; exact hc)
  · intro ws hc
    rw [hD] at hc
    by_cases hw : ws = names k
    · rw [hw, b2.1] at hc; simp at hc
    · rw [b2.2 _ (by simpa using hw)] at hc
      exact h1.onlyDirs ws (by rw [hD]; exact hc)
  · intro q hq
    rw [hD] at hq
    rw [b2.2 q (fun h => hq (h ▸ List.prefix_append _ _))]
    exact h1.outside q (by rw [hD]; exact hq)

/-! ## Sessions -/

/-- What is put in the file, if anything. -/
def leaves (c : Call) : Option Bytes :=
  match c.fault with
  | .none => some c.value
  | .write n => some (c.value.extract 0 n)
  | _ => none

theorem leaves_iff {c : Call} {x : Bytes} : Leaves c x ↔ leaves c = some x := by
  obtain ⟨k, b, f⟩ := c
  constructor
  · rintro (_ | _) <;> rfl
  · cases f with
    | none => intro h; simp only [leaves, Option.some.injEq] at h; subst h; exact .all k b
    | write n => intro h; simp only [leaves, Option.some.injEq] at h; subst h; exact .part k b n
    | mkdir n => intro h; simp [leaves] at h
    | «open» => intro h; simp [leaves] at h

/-- Everything put in files. -/
def writes (calls : List Call) : List (Str × Bytes) := calls.filterMap fun c => (leaves c).map fun x => (c.key, x)

/-- The call does not fail. -/
def fine (c : Call) : Bool := match c.fault with | .none => true | _ => false

/-- The keys of calls that do not fail. -/
def kept (calls : List Call) : List Str := (calls.filter fine).map (·.key)

/-- The outcome. -/
def outcome (c : Call) : Res Unit := if fine c then .ok () else .error .ioError

theorem fine_iff {c : Call} : fine c = true ↔ c.fault = .none := by
  unfold fine
  cases c.fault <;> simp

theorem outcome_spec (c : Call) : Outcome c (outcome c) := by
  unfold outcome
  by_cases h : fine c = true
  · rw [if_pos h]; exact .fine c (fine_iff.1 h)
  · rw [if_neg h]; exact .fails c fun h' => h (fine_iff.2 h')

theorem writes_concat (calls : List Call) (c : Call) :
    writes (calls ++ [c]) = writes calls ++ ((leaves c).map fun x => (c.key, x)).toList := by
  unfold writes
  cases h : leaves c <;> simp [h]

theorem kept_concat (calls : List Call) (c : Call) : kept (calls ++ [c]) = if fine c then kept calls ++ [c.key] else kept calls := by
  unfold kept
  by_cases h : fine c = true <;> simp [h]

/-- The state of a session. -/
structure Inv (cwd P : PyPath) (fs : FS) (K : List Str) (calls : List Call) (s : DirSink) (fs' : FS) : Prop where
  st : St cwd P fs K (writes calls) fs'
  path : s.path = P
  nodup : (s.idToFile.map (·.1)).Nodup
  map : ∀ k p, (k, p) ∈ s.idToFile ↔ k ∈ kept calls ∧ p = ⟨P.root, P.parts ++ names k⟩

theorem writes_mem {calls : List Call} {K : List Str} (h : ∀ c ∈ calls, c.key ∈ K) : ∀ e ∈ writes calls, e.1 ∈ K := by
  intro e he
  obtain ⟨c, hc, h'⟩ := List.mem_filterMap.1 he
  obtain ⟨x, -, rfl⟩ := Option.map_eq_some_iff.1 h'
  exact h c hc

theorem put_step {fs fs' : FS} {K : List Str} {calls : List Call} {s : DirSink} (hst : Inv cwd P fs K calls s fs') (hno : NoClash K)
    (hcalls : ∀ c ∈ calls, c.key ∈ K) (c : Call) (hc : c.key ∈ K) (hpk : PathKey c.key) :
    ∃ s' fs'', put cwd s c fs' = ((s', outcome c), fs'') ∧ Inv cwd P fs K (calls ++ [c]) s' fs'' := by
  obtain ⟨k, b, f⟩ := c
  simp only at hc hpk
  have hdone := writes_mem hcalls
  have hpath := hst.path
  obtain h0 | ⟨init, n, hn⟩ := nil_or_snoc (names k)
  · exact absurd h0 hpk.nonempty
  have hddi : ['.', '.'] ∉ init := fun h => hpk.dotdot (by rw [hn]; simp [h])
  have hpar : PyPath.resolve cwd (PyPath.parent (P.div (PyPath.parse k))) = PyPath.resolve cwd P ++ init := by
    rw [div_key hpk, hn, parent_append, resolve_append hddi]
  have hfail : ∀ fs'', St cwd P fs K (writes (calls ++ [⟨k, b, f⟩])) fs'' → fine ⟨k, b, f⟩ = false →
      Inv cwd P fs K (calls ++ [⟨k, b, f⟩]) s fs'' := by
    intro fs'' h hf
    refine ⟨h, hpath, hst.nodup, fun k' p => ?_⟩
    rw [kept_concat, hf]
    exact hst.map k' p
  cases f with
  | none =>
    obtain ⟨fs'', h1, h2⟩ := write_step hst.st hno hdone hc hpk b
    refine ⟨{ s with idToFile := dictSet k (P.div (PyPath.parse k)) s.idToFile }, fs'', ?_, ?_, hpath, nodup_dictSet _ _ hst.nodup, ?_⟩
    · simp [put, writeFaulty, hpath, h1, outcome, fine]
    · rw [writes_concat]; exact h2
    · intro k' p
      rw [kept_concat, ← dictGet_iff (nodup_dictSet _ _ hst.nodup), dictGet_dictSet, div_key hpk]
      by_cases hkk : k' = k
      · subst hkk; simp [fine, eq_comm]
      · simp [fine, hkk, dictGet_iff hst.nodup, hst.map]
  | mkdir m =>
    obtain ⟨fs'', h1, -, h2⟩ := dirs_step hst.st hno hdone hc hn ((PyPath.resolve cwd P ++ init).take m) (List.take_prefix _ _)
    refine ⟨s, fs'', ?_, hfail fs'' ?_ rfl⟩
    · simp [put, writeFaulty, hpath, hpar, h1, outcome, fine]
    · rw [writes_concat]; simpa [leaves] using h2
  | «open» =>
    obtain ⟨fs'', h1, -, h2⟩ := dirs_step hst.st hno hdone hc hn (PyPath.resolve cwd P ++ init) (List.prefix_refl _)
    refine ⟨s, fs'', ?_, hfail fs'' ?_ rfl⟩
    · simp [put, writeFaulty, hpath, hpar, h1, outcome, fine]
    · rw [writes_concat]; simpa [leaves] using h2
  | write m =>
    obtain ⟨fs'', h1, h2⟩ := write_step hst.st hno hdone hc hpk (b.extract 0 m)
    refine ⟨s, fs'', ?_, hfail fs'' ?_ rfl⟩
    · simp [put, writeFaulty, hpath, h1, outcome, fine]
    · rw [writes_concat]; exact h2

theorem puts_spec {fs : FS} {K : List Str} (hno : NoClash K) (rest : List Call) : ∀ (calls : List Call) (s : DirSink) (fs' : FS),
    Inv cwd P fs K calls s fs' → (∀ c ∈ calls, c.key ∈ K) → (∀ c ∈ rest, c.key ∈ K ∧ PathKey c.key) →
    ∃ s' fs'', puts cwd s rest fs' = ((s', rest.map outcome), fs'') ∧ Inv cwd P fs K (calls ++ rest) s' fs'' := by
  induction rest with
  | nil => intro calls s fs' h _ _; exact ⟨s, fs', rfl, by simpa using h⟩
  | cons c rest ih =>
    intro calls s fs' h hcalls hrest
    obtain ⟨hc, hpk⟩ := hrest c (by simp)
    obtain ⟨s1, fs1, h1, h2⟩ := put_step h hno hcalls c hc hpk
    obtain ⟨s2, fs2, h3, h4⟩ := ih _ s1 fs1 h2 (by
      intro d hd
      rcases List.mem_append.1 hd with hd | hd
      · exact hcalls d hd
      · rw [List.mem_singleton.1 hd]; exact hc) (fun d hd => hrest d (by simp [hd]))
    refine ⟨s2, fs2, ?_, by simpa using h4⟩
    simp only [puts, h1, h3, List.map_cons]

/-- What is served. -/
def served (calls : List Call) (k : Str) : Option Bytes := if k ∈ kept calls then lastInFile (writes calls) k else none

theorem mem_kept {calls : List Call} {k : Str} : k ∈ kept calls ↔ ∃ c ∈ calls, c.key = k ∧ c.fault = .none := by
  unfold kept
  simp only [List.mem_map, List.mem_filter, fine_iff]
  exact ⟨fun ⟨c, ⟨h1, h2⟩, h3⟩ => ⟨c, h1, h3, h2⟩, fun ⟨c, h1, h2, h3⟩ => ⟨c, ⟨h1, h3⟩, h2⟩⟩

theorem served_kept (calls : List Call) : Kept calls (served calls) := by
  constructor
  · intro k h
    unfold served
    rw [if_neg]
    intro hk
    obtain ⟨c, h1, h2, h3⟩ := mem_kept.1 hk
    exact h c h1 h2 h3
  · intro k good before last after x hmem hkey hfine he hn hl hafter
    unfold served
    rw [if_pos (mem_kept.2 ⟨good, hmem, hkey, hfine⟩)]
    have hap : ∀ a b : List Call, writes (a ++ b) = writes a ++ writes b := fun a b => by simp [writes]
    have hskip : ∀ (after : List Call), (∀ c ∈ after, names c.key = names k → ∀ y, ¬ Leaves c y) → ∀ d : List (Str × Bytes),
        lastInFile (d ++ writes after) k = lastInFile d k := by
      intro after
      induction after using List.reverseRecOn with
      | nil => intro _ d; simp [writes]
      | append_singleton after c ih =>
        intro h d
        have := ih (fun c hc => h c (by simp [hc])) d
        rw [writes_concat, ← List.append_assoc]
        cases hx : leaves c with
        | none => simpa using this
        | some y =>
          have hne : names c.key ≠ names k := fun hn => h c (by simp) hn y (leaves_iff.2 hx)
          simp only [Option.map_some, Option.toList_some]
          rw [lastInFile_concat, if_neg hne, this]
    have hw : writes calls = (writes before ++ [(last.key, x)]) ++ writes after := by
      rw [he, show before ++ last :: after = (before ++ [last]) ++ after by simp, hap, writes_concat, leaves_iff.1 hl]
      rfl
    rw [hw, hskip after hafter, lastInFile_concat, if_pos hn]

theorem leaves_fine {c : Call} (h : c.fault = .none) : leaves c = some c.value := by simp [leaves, h]

theorem session_spec (hcwd : cwd.Normal) (hroot : cwd.root ≠ []) (hP : P.Normal) (hsafe : ∀ w ∈ (PyPath.absolute cwd P).parts, TextSafe w)
    (fs : FS) (ht : fs.Tree) (hname : ∃ n, P.parts.getLast? = some n ∧ n ≠ ['.', '.']) (hempty : fs.EmptyDir (PyPath.resolve cwd P))
    (calls : List Call) (hkeys : ∀ c ∈ calls, PathKey c.key) (hno : NoClash (calls.map (·.key))) :
    ∃ fs', session cwd (DirSink.new P) calls fs = (.ok (calls.map outcome), fs') ∧
      fs'.Tree ∧ (∀ q, ¬ PyPath.resolve cwd P <+: q → fs'.node q = fs.node q) ∧
      ∃ m, docMapEntries cwd (P.div (PyPath.parse "_index".toList)) fs' = (.ok m, fs') ∧ (m.map (·.1)).Nodup ∧
        (∀ k, k ∈ m.map (·.1) ↔ (served calls k).isSome = true) ∧
        ∀ k p, (k, p) ∈ m → ∃ b, served calls k = some b ∧ filesOf cwd fs' p = .ok b := by
  obtain ⟨fs1, henter, hst0⟩ := DirKeys.enter_state fs ht hname hempty
  have hinv0 : Inv cwd P fs (calls.map (·.key)) [] (DirSink.new P) fs1 := by
    refine ⟨⟨hst0.tree, hst0.dir, by simp [writes, lastInFile], ?_, ?_, hst0.outside⟩, rfl, by simp [DirSink.new], by simp [DirSink.new, kept]⟩
    · intro ws c hc
      obtain ⟨k, hk, -⟩ := hst0.onlyFiles ws c hc
      simp at hk
    · intro ws hc
      rcases hst0.onlyDirs ws hc with h | ⟨k, hk, -⟩
      · exact .inl h
      · simp at hk
  obtain ⟨s2, fs2, hputs, hinv⟩ := puts_spec hno calls [] (DirSink.new P) fs1 hinv0 (by simp)
    (fun c hc => ⟨List.mem_map.2 ⟨c, hc, rfl⟩, hkeys c hc⟩)
  rw [List.nil_append] at hinv
  have hall : ∀ k ∈ calls.map (·.key), PathKey k := by
    intro k hk
    obtain ⟨c, hc, rfl⟩ := List.mem_map.1 hk
    exact hkeys c hc
  have hsub : ∀ k ∈ kept calls, k ∈ calls.map (·.key) := by
    intro k hk
    obtain ⟨c, hc, rfl, -⟩ := mem_kept.1 hk
    exact List.mem_map.2 ⟨c, hc, rfl⟩
  have hlast : ∀ k ∈ kept calls, ∃ b, lastInFile (writes calls) k = some b := by
    intro k hk
    obtain ⟨c, hc, rfl, hf⟩ := mem_kept.1 hk
    refine Option.isSome_iff_exists.1 ((lastInFile_isSome _ _).2 ⟨c.key, List.mem_map.2 ⟨(c.key, c.value), ?_, rfl⟩, rfl⟩)
    exact List.mem_filterMap.2 ⟨c, hc, by simp [leaves_fine hf]⟩
  have hsome : ∀ k, (served calls k).isSome = true ↔ k ∈ kept calls := by
    intro k
    unfold served
    by_cases hk : k ∈ kept calls
    · obtain ⟨b, hb⟩ := hlast k hk
      simp [hk, hb]
    · simp [hk]
  have hfree : fs2.node (PyPath.resolve cwd P ++ ["_index".toList]) ≠ some .dir := by
    intro hc
    rcases hinv.st.onlyDirs _ hc with h | ⟨k, hk, ⟨r, hr⟩, -⟩
    · simp at h
    · exact (hall k hk).index (by rw [← hr]; rfl)
  obtain ⟨fs3, hexit, d1, d2, -, m, e1, e2, e3, e4⟩ := DirKeys.leave_spec hcwd hroot hP hsafe hinv.st.tree hinv.path hinv.nodup (kept calls)
    (fun k hk => hall k (hsub k hk)) hinv.map hinv.st.dir hfree (lastInFile (writes calls)) (fun k hk => by
      obtain ⟨b, hb⟩ := hlast k hk
      exact ⟨b, hb, hinv.st.files k b hb⟩)
  refine ⟨fs3, ?_, d1, ?_, m, e1, e2, fun k => (e3 k).trans (hsome k).symm, fun k p hkp => ?_⟩
  · simp [session, henter, hputs, hexit]
  · intro q hq
    rw [d2 q (fun h => hq (h ▸ List.prefix_append _ _)), hinv.st.outside q hq]
  · obtain ⟨b, hb, hf⟩ := e4 k p hkp
    refine ⟨b, ?_, hf⟩
    rw [served, if_pos ((e3 k).1 (List.mem_map.2 ⟨_, hkp, rfl⟩)), hb]

theorem serves {V : Type} {read : Files → Str → Res V} {readB : Bytes → Res V} (hread : ∀ files p b, files p = .ok b → read files p = readB b)
    {m : List (Str × Str)} {fs' : FS} {F : Str → Option Bytes} (h1 : (m.map (·.1)).Nodup) (h2 : ∀ k, k ∈ m.map (·.1) ↔ (F k).isSome = true)
    (h3 : ∀ k p, (k, p) ∈ m → ∃ b, F k = some b ∧ filesOf cwd fs' p = .ok b) :
    ServesFiles (docMapSource read cwd m fs') readB F := by
  refine ⟨⟨m.map (·.1), rfl, h1, h2⟩, fun k b hb => ?_, fun k hk => ?_⟩
  · obtain ⟨⟨k', p⟩, hp, rfl⟩ := List.mem_map.1 ((h2 k).2 (by rw [hb]; rfl))
    obtain ⟨b', hb', hf⟩ := h3 _ _ hp
    rw [hb, Option.some.injEq] at hb'
    subst hb'
    have hget := (dictGet_iff h1 _ _).2 hp
    have hr := hread _ _ _ hf
    simp only at hget hr ⊢
    refine ⟨by simp [docMapSource, pathMapping, hget, hr], fun D d v hv => ?_, fun D d e he => ?_⟩
    · simp [docMapSource, pathMapping, hget, hr, hv, bind, Except.bind]
    · simp [docMapSource, pathMapping, hget, hr, he, bind, Except.bind]
  · have : dictGet m k = none := by
      rw [dictGet_none_iff, h2, hk]; simp
    simp [docMapSource, pathMapping, this]

/-- A session on a directory sink for bytes in which any of the calls of `put` fails, for whatever reason and at whatever point, and the
program catches the `OSError`: what is served in the end are the files of the keys of calls that did not fail.  Each has what the last
call for the file that put something in it left there: the value, or, if the writing failed, its first bytes. -/
theorem C112_bytes (hcwd : cwd.Normal) (hroot : cwd.root ≠ []) (hP : P.Normal) (hsafe : ∀ w ∈ (PyPath.absolute cwd P).parts, TextSafe w)
    (fs : FS) (ht : fs.Tree) (hname : ∃ n, P.parts.getLast? = some n ∧ n ≠ ['.', '.']) (hempty : fs.EmptyDir (PyPath.resolve cwd P))
    (calls : List Call) (hkeys : ∀ c ∈ calls, PathKey c.key) (hno : NoClash (calls.map (·.key))) :
    ∃ outcomes fs', session cwd (DirSink.new P) calls fs = (.ok outcomes, fs') ∧ List.Forall₂ Outcome calls outcomes ∧
      fs'.Tree ∧ (∀ q, ¬ PyPath.resolve cwd P <+: q → fs'.node q = fs.node q) ∧
      ∃ M m, Kept calls M ∧ docMapEntries cwd (P.div (PyPath.parse "_index".toList)) fs' = (.ok m, fs') ∧
        ServesFiles (docMapSource readBytesFile cwd m fs') .ok M := by
  obtain ⟨fs', h1, h2, h3, m, h4, h5, h6, h7⟩ := session_spec hcwd hroot hP hsafe fs ht hname hempty calls hkeys hno
  refine ⟨calls.map outcome, fs', h1, ?_, h2, h3, served calls, m, served_kept calls, h4, serves (fun _ _ _ h => h) h5 h6 h7⟩
  rw [List.forall₂_map_right_iff]
  exact List.forall₂_same.2 fun c _ => outcome_spec c

/-- The same for text: a lookup decodes the file, which can raise if it has a part of a value only. -/
theorem C112_char (hcwd : cwd.Normal) (hroot : cwd.root ≠ []) (hP : P.Normal) (hsafe : ∀ w ∈ (PyPath.absolute cwd P).parts, TextSafe w)
    (fs : FS) (ht : fs.Tree) (hname : ∃ n, P.parts.getLast? = some n ∧ n ≠ ['.', '.']) (hempty : fs.EmptyDir (PyPath.resolve cwd P))
    (calls : List Call) (hkeys : ∀ c ∈ calls, PathKey c.key) (hno : NoClash (calls.map (·.key))) :
    ∃ outcomes fs', session cwd (DirSink.new P) calls fs = (.ok outcomes, fs') ∧ List.Forall₂ Outcome calls outcomes ∧
      fs'.Tree ∧ (∀ q, ¬ PyPath.resolve cwd P <+: q → fs'.node q = fs.node q) ∧
      ∃ M m, Kept calls M ∧ docMapEntries cwd (P.div (PyPath.parse "_index".toList)) fs' = (.ok m, fs') ∧
        ServesFiles (docMapSource readTextFile cwd m fs') (fun b => (decodeUtf8 b).map universalNewlines) M := by
  obtain ⟨fs', h1, h2, h3, m, h4, h5, h6, h7⟩ := session_spec hcwd hroot hP hsafe fs ht hname hempty calls hkeys hno
  refine ⟨calls.map outcome, fs', h1, ?_, h2, h3, served calls, m, served_kept calls, h4, serves (fun files p b h => ?_) h5 h6 h7⟩
  · rw [List.forall₂_map_right_iff]
    exact List.forall₂_same.2 fun c _ => outcome_spec c
  · simp only [readTextFile, h, bind, Except.bind]
    cases decodeUtf8 b <;> rfl

/-- So failures do no harm to a key if a later call for its file does not fail, or the later ones fail before anything is written: it is
served with the value put last. -/
theorem C112_kept (calls before after : List Call) (k : Str) (v : Bytes) (M : Str → Option Bytes) (h : Kept calls M)
    (he : calls = before ++ ⟨k, v, .none⟩ :: after) (hafter : ∀ c ∈ after, names c.key = names k → c.fault = .open ∨ ∃ n, c.fault = .mkdir n) :
    M k = some v := by
  refine h.some k ⟨k, v, .none⟩ before ⟨k, v, .none⟩ after v (by rw [he]; simp) rfl rfl he rfl (.all k v) fun c hc hn y hl => ?_
  have hf := hafter c hc hn
  cases hl with
  | all => rcases hf with hf | ⟨n, hf⟩ <;> cases hf
  | part => rcases hf with hf | ⟨n, hf⟩ <;> cases hf

/-- What a session without `try` blocks does, as a function of the calls: the outcome, and the calls that are made. -/
theorem until_eq (calls : List Call) : ∀ (s : DirSink) (fs fs' : FS) (s' : DirSink),
    puts cwd s calls fs = ((s', calls.map outcome), fs') → ∀ (r : Res Unit) (more : List Call),
    (r = .ok () ∧ (∀ c ∈ calls, fine c = true) ∧ more = []) ∨
      (r = .error .ioError ∧ ∃ good c, calls = good ++ [c] ∧ (∀ c ∈ good, fine c = true) ∧ fine c = false) →
    putsUntil cwd s (calls ++ more) fs = ((s', r), fs') := by
  induction calls with
  | nil =>
    intro s fs fs' s' h r more hr
    rcases hr with ⟨rfl, -, rfl⟩ | ⟨-, good, c, h', -⟩
    · simp only [puts, List.map_nil, Prod.mk.injEq] at h
      obtain ⟨⟨rfl, -⟩, rfl⟩ := h
      rfl
    · simp at h'
  | cons c calls ih =>
    intro s fs fs' s' h r more hr
    rcases hp : put cwd s c fs with ⟨⟨s1, o⟩, fs1⟩
    simp only [puts, hp, List.map_cons, Prod.mk.injEq, List.cons.injEq] at h
    obtain ⟨⟨h1, ho, h2⟩, h3⟩ := h
    have hrest : puts cwd s1 calls fs1 = ((s', calls.map outcome), fs') := by
      rw [← h1, ← h2, ← h3]
    simp only [List.cons_append, putsUntil, hp, ho]
    rcases hr with ⟨rfl, hf, rfl⟩ | ⟨rfl, good, d, he, hg, hd⟩
    · have : outcome c = .ok () := by simp [outcome, hf c (by simp)]
      simp only [this]
      exact ih s1 fs1 fs' s' hrest _ _ (.inl ⟨rfl, fun c hc => hf c (by simp [hc]), rfl⟩)
    · cases good with
      | nil =>
        simp only [List.nil_append, List.cons.injEq] at he
        obtain ⟨rfl, rfl⟩ := he
        have : outcome c = .error .ioError := by simp [outcome, hd]
        simp only [this]
        simp only [puts, List.map_nil, Prod.mk.injEq] at hrest
        obtain ⟨⟨rfl, -⟩, rfl⟩ := hrest
        rfl
      | cons g good =>
        simp only [List.cons_append, List.cons.injEq] at he
        obtain ⟨rfl, rfl⟩ := he
        have : outcome c = .ok () := by simp [outcome, hg c (by simp)]
        simp only [this]
        exact ih s1 fs1 fs' s' hrest _ _ (.inr ⟨rfl, good, d, rfl, fun c hc => hg c (by simp [hc]), hd⟩)

/-- A session without `try` blocks ends with the first call that fails, and raises its `OSError`; it leaves everything as if the calls up to
that one, and no others, had been made in `try` blocks (see `C112_bytes` and `C112_char`). -/
theorem C112_until (hcwd : cwd.Normal) (hroot : cwd.root ≠ []) (hP : P.Normal) (hsafe : ∀ w ∈ (PyPath.absolute cwd P).parts, TextSafe w)
    (fs : FS) (ht : fs.Tree) (hname : ∃ n, P.parts.getLast? = some n ∧ n ≠ ['.', '.']) (hempty : fs.EmptyDir (PyPath.resolve cwd P))
    (calls more : List Call) (hkeys : ∀ c ∈ calls, PathKey c.key) (hno : NoClash (calls.map (·.key))) (r : Res Unit)
    (hr : (r = .ok () ∧ (∀ c ∈ calls, c.fault = .none) ∧ more = []) ∨
      (r = .error .ioError ∧ ∃ good c, calls = good ++ [c] ∧ (∀ c ∈ good, c.fault = .none) ∧ c.fault ≠ .none)) :
    ∃ outcomes fs', session cwd (DirSink.new P) calls fs = (.ok outcomes, fs') ∧ sessionUntil cwd (DirSink.new P) (calls ++ more) fs = (r, fs') := by
  obtain ⟨fs', h1, -⟩ := session_spec hcwd hroot hP hsafe fs ht hname hempty calls hkeys hno
  refine ⟨_, fs', h1, ?_⟩
  have hr' : (r = .ok () ∧ (∀ c ∈ calls, fine c = true) ∧ more = []) ∨
      (r = .error .ioError ∧ ∃ good c, calls = good ++ [c] ∧ (∀ c ∈ good, fine c = true) ∧ fine c = false) := by
    rcases hr with ⟨h1, h2, h3⟩ | ⟨h1, good, c, h2, h3, h4⟩
    · exact .inl ⟨h1, fun c hc => fine_iff.2 (h2 c hc), h3⟩
    · exact .inr ⟨h1, good, c, h2, fun c hc => fine_iff.2 (h3 c hc), by rw [← Bool.not_eq_true]; exact fun h => h4 (fine_iff.1 h)⟩
  unfold session at h1
  unfold sessionUntil
  rcases he : (DirSink.new P).enter cwd fs with ⟨e | s1, fs1⟩
  · rw [he] at h1; cases h1
  · rw [he] at h1
    simp only at h1 ⊢
    rcases hp : puts cwd s1 calls fs1 with ⟨⟨s2, outs⟩, fs2⟩
    rw [hp] at h1
    simp only at h1
    rcases hx : s2.exit cwd fs2 with ⟨e | _, fs3⟩
    · rw [hx] at h1; cases h1
    · rw [hx] at h1
      simp only [Prod.mk.injEq, Except.ok.injEq] at h1
      obtain ⟨rfl, rfl⟩ := h1
      rw [until_eq calls s1 fs1 fs2 s2 hp r more hr']
      simp only [hx]

/-- If the directory is not there or not empty, either session raises `OSError`, and nothing changes. -/
theorem C112_occupied (fs : FS) (ht : fs.Tree) (hempty : ¬ fs.EmptyDir (PyPath.resolve cwd P)) (calls : List Call) :
    session cwd (DirSink.new P) calls fs = (.error .ioError, fs) ∧ sessionUntil cwd (DirSink.new P) calls fs = (.error .ioError, fs) := by
  have hr : DirSink.rmdirPath cwd P fs = (.error .ioError, fs) := by
    unfold DirSink.rmdirPath
    split
    · rfl
    · exact (rmdir_spec ht _).2 fun h => hempty h.2
  have : (DirSink.new P).enter cwd fs = (.error .ioError, fs) := by simp [DirSink.enter, DirSink.new, hr]
  simp [session, sessionUntil, this]

/-! ## Examples and counterexamples -/

namespace FaultExample
open DocMapExample

def call (k v : String) (f : Fault) : Call := ⟨k.toList, encodeUtf8 v.toList, f⟩

def calls : List Call :=
  [call "a" "1" .none, call "b/c" "2" .none, call "a" "34" (.write 1), call "b/./c" "5" .open, call "d/e/f" "6" (.mkdir 3), call "g" "78" (.write 2)]

theorem calls_keys : ∀ c ∈ calls, PathKey c.key := by
  intro c hc
  simp only [calls, List.mem_cons, List.not_mem_nil, or_false] at hc
  rcases hc with rfl | rfl | rfl | rfl | rfl | rfl <;> exact DirKeys.DirKeysExample.pathKey_of _ (by decide +kernel)

theorem calls_noClash : NoClash (calls.map (·.key)) := by
  have : ∀ k ∈ calls.map (·.key), ∀ k' ∈ calls.map (·.key), ¬ (names k ≠ names k' ∧ (names k <+: names k' ∨ names k' <+: names k)) := by decide +kernel
  exact this

/-- The hypotheses of `C112_bytes` hold of this session. -/
example := C112_bytes (cwd := home) (P := dir) ⟨by decide, by decide⟩ (by decide) ⟨by decide, by decide⟩ (by unfold TextSafe; decide +kernel) fs
  fs_tree ⟨"d".toList, by decide, by decide⟩ fs_empty calls calls_keys calls_noClash

def after : FS := (session home (DirSink.new dir) calls fs).2

def looked (k : Str) : Option Str :=
  match docMapEntries home (dir.div (PyPath.parse "_index".toList)) after with
  | (.ok m, _) => (match (docMapSource readTextFile home m after).getItem k with | .ok v => some v | .error _ => none)
  | (.error _, _) => none

/-- A value that was put is replaced by a part of another, although that `put` failed, and nothing is raised when it is read; the keys of
calls that failed, and were not put otherwise, are not there, even if all of the value was written. -/
theorem _root_.Vista.WriteFaults.C112_part_counterexample :
    looked "a".toList = some "3".toList ∧ looked "b/c".toList = some "2".toList ∧ looked "b/./c".toList = none ∧ looked "d/e/f".toList = none ∧
    looked "g".toList = none := by decide +kernel

def isIOErrorU (r : Res Unit) : Bool := match r with | .ok _ => false | .error e => decide (e = .ioError)

/-- Without `try` blocks the third call ends the session. -/
example : isIOErrorU (sessionUntil home (DirSink.new dir) calls fs).1 = true ∧
    DirKeys.DirKeysExample.dataAt (sessionUntil home (DirSink.new dir) calls fs).2 ["home".toList, "d".toList, "a".toList] = some "3".toList ∧
    DirKeys.DirKeysExample.dataAt (sessionUntil home (DirSink.new dir) calls fs).2 ["home".toList, "d".toList, "g".toList] = none := by decide +kernel

/-- A directory of the name `_index`: the session raises. -/
example : isIOErrorU (sessionUntil home (DirSink.new dir) [call "_index/a" "1" .none] fs).1 = true ∧
    isIOError (session home (DirSink.new dir) [call "_index/a" "1" .none] fs) = true := by decide +kernel

/-- The directory made by a call that failed stays. -/
example : (match after.node ["home".toList, "d".toList, "d".toList] with | some .dir => true | _ => false) = true ∧
    (match after.node ["home".toList, "d".toList, "d".toList, "e".toList] with | some _ => true | none => false) = false := by decide +kernel

example : ∃ M, Kept calls M ∧ M "b/c".toList = some (encodeUtf8 "2".toList) :=
  ⟨served calls, served_kept calls, C112_kept calls [call "a" "1" .none] _ _ _ _ (served_kept calls) rfl (by
    intro c hc hn
    simp only [List.mem_cons, List.not_mem_nil, or_false] at hc
    rcases hc with rfl | rfl | rfl | rfl
    · exact absurd hn (by decide +kernel)
    · exact .inl rfl
    · exact .inr ⟨3, rfl⟩
    · exact absurd hn (by decide +kernel))⟩

end FaultExample

end WriteFaults
end Vista
