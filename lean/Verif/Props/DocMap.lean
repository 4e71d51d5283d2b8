import Verif.Proofs.Text
import Verif.Model.DirStore
import Verif.Spec.Zip
import Verif.Props.Files

/-!
# C61, C62: maps from document ids to files, and directories as stores
-/
set_option linter.unusedSectionVars false
set_option linter.unusedSimpArgs false
namespace Vista

/-! ## C61 -/

/-- Reading a map: if each line has two fields, the mapping of the stripped first fields to the paths named by the stripped second
fields, where the last line of an id counts; otherwise `IOError`. -/
theorem C61_read (src : TextSource) (s : Str) (fs : FS) (hsrc : src fs = (.ok s, fs)) (ls : List Str) (hls : IsLines s ls) :
    (∀ items, List.Forall₂ (fun l e => ∃ a b, TwoFields l a b ∧ e = (a, PyPath.parse b)) ls items →
      ∃ m, readDocMap src fs = (.ok m, fs) ∧ (m.map (·.1)).Nodup ∧
        ∀ k p, (k, p) ∈ m ↔ ∃ before after, items = before ++ (k, p) :: after ∧ k ∉ after.map (·.1)) ∧
    ((∃ l ∈ ls, ¬ ∃ a b, TwoFields l a b) → readDocMap src fs = (.error .ioError, fs)) := by
  have hne : ∀ l ∈ ls, l ≠ [] := by
    clear hsrc
    induction hls with
    | none => simp
    | unended _ hne => simpa using hne
    | line _ _ ih =>
      intro l hl
      rcases List.mem_cons.1 hl with rfl | hl
      · simp
      · exact ih l hl
  obtain ⟨h1, h2⟩ := docMapItems_spec ls hne
  rw [isLines_iff] at hls
  subst hls
  constructor
  · intro items hitems
    refine ⟨dictOf items, by simp [readDocMap, hsrc, (h1 items).2 hitems], nodup_dictOf _, fun k p => ?_⟩
    rw [mem_dictOf]
    simp only [List.mem_map, not_exists, not_and, ne_eq]
  · intro hbad
    simp [readDocMap, hsrc, h2 hbad]

/-- The lines written for a mapping. -/
theorem docMapText_lines (cwd : PyPath) (m : List (Str × PyPath)) (hm : (m.map (·.1)).Nodup) (ids : List Str)
    (hids : ∀ id ∈ ids, id ∈ m.map (·.1)) (hid : ∀ e ∈ m, Fieldable e.1) (hp : ∀ e ∈ m, Fieldable (PyPath.absolute cwd e.2).render) :
    ∃ ls, IsLines ((ids.map (docMapLine cwd m)).flatten) ls ∧
      List.Forall₂ (fun id l => ∃ p, (id, p) ∈ m ∧ TwoFields l id (PyPath.absolute cwd p).render) ids ls := by
  induction ids with
  | nil => exact ⟨[], .none, .nil⟩
  | cons id ids ih =>
    obtain ⟨ls, h1, h2⟩ := ih fun x hx => hids x (by simp [hx])
    obtain ⟨⟨id', p⟩, hmem, rfl⟩ := List.mem_map.1 (hids id (by simp))
    have hget := (dictGet_iff hm _ _).2 hmem
    have hi := hid _ hmem
    have hp' := hp _ hmem
    simp only at hi hp' hget ⊢
    have hline : '\n' ∉ id' ++ '\t' :: (PyPath.absolute cwd p).render := by
      simp only [List.mem_append, List.mem_cons, not_or]
      exact ⟨hi.newline, by decide, hp'.newline⟩
    refine ⟨(id' ++ '\t' :: (PyPath.absolute cwd p).render ++ ['\n']) :: ls, ?_, .cons ⟨p, hmem, ?_⟩ h2⟩
    · have := IsLines.line hline h1
      simpa [docMapLine, hget] using this
    · refine ⟨id', (PyPath.absolute cwd p).render ++ ['\n'], by simp, hi.tab, ?_, ?_, ?_⟩
      · simp only [List.mem_append, List.mem_singleton, not_or]
        exact ⟨hp'.tab, by decide⟩
      · exact ⟨⟨[], [], by simp, by simp, by simp⟩, hi.head, hi.last⟩
      · exact ⟨⟨[], ['\n'], by simp, by simp, by simp; decide⟩, hp'.head, hp'.last⟩

theorem docMap_roundtrip (cwd : PyPath) (m : List (Str × PyPath)) (hm : (m.map (·.1)).Nodup) (hid : ∀ e ∈ m, Fieldable e.1)
    (hp : ∀ e ∈ m, Fieldable (PyPath.absolute cwd e.2).render ∧ (PyPath.absolute cwd e.2).Normal) (src : TextSource) (fs : FS)
    (hsrc : src fs = (.ok (docMapText cwd m), fs)) :
    ∃ m', readDocMap src fs = (.ok m', fs) ∧ (∀ k q, (k, q) ∈ m' ↔ ∃ p, (k, p) ∈ m ∧ q = PyPath.absolute cwd p) ∧
      (m'.map (·.1)).Pairwise fun a b => a ≠ b ∧ strLe a b = true := by
  have hperm := stableSort_perm strLe (m.map (·.1))
  have hnd : (stableSort strLe (m.map (·.1))).Nodup := hperm.nodup_iff.2 hm
  have hsorted := stableSort_sorted strLe_total (fun _ _ _ h1 h2 => strLe_trans h1 h2) (l := m.map (·.1))
  obtain ⟨ls, h1, h2⟩ := docMapText_lines cwd m hm (stableSort strLe (m.map (·.1))) (fun id hid => hperm.mem_iff.1 hid) hid
    fun e he => (hp e he).1
  generalize hids : stableSort strLe (m.map (·.1)) = ids at *
  have htext : docMapText cwd m = (ids.map (docMapLine cwd m)).flatten := by unfold docMapText; rw [hids]
  rw [← htext] at h1
  -- the items
  have hitems : ∃ items, List.Forall₂ (fun l e => ∃ a b, TwoFields l a b ∧ e = (a, PyPath.parse b)) ls items ∧ items.map (·.1) = ids ∧
      ∀ k q, (k, q) ∈ items → ∃ p, (k, p) ∈ m ∧ q = PyPath.absolute cwd p := by
    clear h1 htext hids hsorted hperm hnd
    induction h2 with
    | nil => exact ⟨[], .nil, rfl, by simp⟩
    | @cons id l ids ls h _ ih =>
      obtain ⟨items, a1, a2, a3⟩ := ih
      obtain ⟨p, hmem, htf⟩ := h
      refine ⟨(id, PyPath.absolute cwd p) :: items, .cons ⟨_, _, htf, ?_⟩ a1, by simp [a2], ?_⟩
      · rw [PyPath.parse_render (hp _ hmem).2]
      · intro k q hkq
        rcases List.mem_cons.1 hkq with h | h
        · simp only [Prod.mk.injEq] at h
          exact ⟨p, h.1 ▸ hmem, h.2⟩
        · exact a3 k q h
  obtain ⟨items, a1, a2, a3⟩ := hitems
  have hne : ∀ l ∈ ls, l ≠ [] := by
    intro l hl hl0
    obtain ⟨id, -, p, -, x, y, h, -⟩ : ∃ id, id ∈ ids ∧ ∃ p, (id, p) ∈ m ∧ TwoFields l id (PyPath.absolute cwd p).render := by
      clear h1 a1 htext hids hsorted hperm hnd a2
      induction h2 with
      | nil => simp at hl
      | cons h _ ih =>
        rcases List.mem_cons.1 hl with rfl | hl
        · exact ⟨_, by simp, h⟩
        · obtain ⟨id, b1, b2⟩ := ih hl
          exact ⟨id, by simp [b1], b2⟩
    rw [hl0] at h; simp at h
  have hread : readDocMap src fs = (.ok items, fs) := by
    have := ((docMapItems_spec ls hne).1 items).2 a1
    rw [isLines_iff] at h1
    simp only [readDocMap, Prog.bind_apply, hsrc, h1, Prog.ofRes_apply, this, Prog.pure_apply]
    rw [dictOf_eq_self (by rw [a2]; exact hnd)]
  refine ⟨items, hread, fun k q => ⟨a3 k q, ?_⟩, ?_⟩
  · rintro ⟨p, hmem, rfl⟩
    have hk : k ∈ items.map (·.1) := by
      rw [a2]; exact hperm.mem_iff.2 (List.mem_map.2 ⟨_, hmem, rfl⟩)
    obtain ⟨⟨k', q⟩, hq, rfl⟩ := List.mem_map.1 hk
    obtain ⟨p', hmem', rfl⟩ := a3 _ _ hq
    have e1 := (dictGet_iff hm _ _).2 hmem
    have e2 := (dictGet_iff hm _ _).2 hmem'
    simp only at e1 e2
    rw [e1, Option.some.injEq] at e2
    rw [e2]; exact hq
  · rw [a2]
    exact (List.pairwise_and_iff).2 ⟨hnd, hsorted⟩

/-- Reading what was written gives the same mapping (with absolute paths), its keys in sorted order: if ids and paths have no tab, line
feed, or white space at their ends. -/
theorem C61_roundtrip (cwd : PyPath) (m : List (Str × PyPath)) (hm : (m.map (·.1)).Nodup) (hid : ∀ e ∈ m, Fieldable e.1)
    (hp : ∀ e ∈ m, Fieldable (PyPath.absolute cwd e.2).render ∧ (PyPath.absolute cwd e.2).Normal) (fs : FS) :
    ∃ m', readDocMap (stringSource (docMapText cwd m)) fs = (.ok m', fs) ∧
      (∀ k q, (k, q) ∈ m' ↔ ∃ p, (k, p) ∈ m ∧ q = PyPath.absolute cwd p) ∧ (m'.map (·.1)).Pairwise fun a b => a ≠ b ∧ strLe a b = true :=
  docMap_roundtrip cwd m hm hid hp _ fs rfl

/-! ## C62 -/

theorem lastPut_concat {V : Type} (puts : List (Str × V)) (e : Str × V) (k : Str) :
    lastPut (puts ++ [e]) k = if e.1 = k then some e.2 else lastPut puts k := by
  unfold lastPut
  rw [List.reverse_append, List.reverse_singleton, List.singleton_append, List.find?_cons]
  by_cases h : e.1 = k <;> simp [h]

theorem lastPut_isSome {V : Type} (puts : List (Str × V)) (k : Str) : (lastPut puts k).isSome = true ↔ k ∈ puts.map (·.1) := by
  unfold lastPut
  rw [Option.isSome_map, List.find?_isSome]
  simp

theorem lastPut_map {V W : Type} (f : V → W) (puts : List (Str × V)) (k : Str) :
    lastPut (puts.map fun e => (e.1, f e.2)) k = (lastPut puts k).map f := by
  unfold lastPut
  rw [← List.map_reverse, List.find?_map, Option.map_map, Option.map_map]
  rfl

section
variable {cwd : PyPath} {P : PyPath}

theorem parse_fileKey {k : Str} (h : FileKey k) : PyPath.parse k = ⟨[], [k]⟩ := by
  have : PyPath.render ⟨[], [k]⟩ = k := by simp [PyPath.render, joinWith]
  conv_lhs => rw [← this]
  exact PyPath.parse_render ⟨.inl rfl, by simp [h.nonempty, h.dot, h.slash]⟩

theorem div_fileKey {k : Str} (h : FileKey k) : P.div (PyPath.parse k) = ⟨P.root, P.parts ++ [k]⟩ := by
  simp [parse_fileKey h, PyPath.div]

theorem resolve_snoc (k : Str) (h : k ≠ ['.', '.']) : PyPath.resolve cwd ⟨P.root, P.parts ++ [k]⟩ = PyPath.resolve cwd P ++ [k] := by
  unfold PyPath.resolve PyPath.absolute
  by_cases hr : P.root = []
  · simp only [hr, ne_eq, not_true_eq_false, if_false, ← List.append_assoc, List.foldl_append, List.foldl_cons, List.foldl_nil]
    simp [resolveStep, h]
  · simp only [hr, ne_eq, not_false_eq_true, if_true, List.foldl_append, List.foldl_cons, List.foldl_nil]
    simp [resolveStep, h]

theorem absolute_snoc (k : Str) : PyPath.absolute cwd ⟨P.root, P.parts ++ [k]⟩ = ⟨(PyPath.absolute cwd P).root, (PyPath.absolute cwd P).parts ++ [k]⟩ := by
  unfold PyPath.absolute
  by_cases hr : P.root = [] <;> simp [hr]

theorem resolve_absolute (hcwd : cwd.root ≠ []) (Q : PyPath) : PyPath.resolve cwd (PyPath.absolute cwd Q) = PyPath.resolve cwd Q := by
  unfold PyPath.resolve
  congr 1
  unfold PyPath.absolute
  by_cases hr : Q.root = [] <;> simp [hr, hcwd]

theorem absolute_normal (hcwd : cwd.Normal) (hP : P.Normal) : (PyPath.absolute cwd P).Normal := by
  unfold PyPath.absolute
  split
  · exact hP
  · refine ⟨hcwd.root, fun w hw => ?_⟩
    rcases List.mem_append.1 hw with h | h
    · exact hcwd.parts w h
    · exact hP.parts w h

theorem mem_joinWith {c d : Char} {ws : List Str} (h : d ∈ joinWith c ws) : d = c ∨ ∃ w ∈ ws, d ∈ w := by
  induction ws with
  | nil => simp [joinWith] at h
  | cons w ws ih =>
    cases ws with
    | nil => exact .inr ⟨w, by simp, by simpa [joinWith] using h⟩
    | cons w' ws =>
      simp only [joinWith, List.mem_append, List.mem_cons] at h
      rcases h with h | h | h
      · exact .inr ⟨w, by simp, h⟩
      · exact .inl h
      · rcases ih h with h | ⟨v, hv, hd⟩
        · exact .inl h
        · exact .inr ⟨v, by simp only [List.mem_cons] at hv ⊢; exact .inr hv, hd⟩

theorem render_key (hroot : (PyPath.absolute cwd P).root = ['/'] ∨ (PyPath.absolute cwd P).root = ['/', '/'])
    (hsafe : ∀ w ∈ (PyPath.absolute cwd P).parts, TextSafe w) {k : Str} (hk : FileKey k) :
    Fieldable (PyPath.absolute cwd ⟨P.root, P.parts ++ [k]⟩).render ∧ '\r' ∉ (PyPath.absolute cwd ⟨P.root, P.parts ++ [k]⟩).render := by
  rw [absolute_snoc]
  generalize (PyPath.absolute cwd P).root = r at *
  generalize (PyPath.absolute cwd P).parts = ws at *
  have hr0 : r ≠ [] := by rcases hroot with rfl | rfl <;> simp
  have hrender : PyPath.render ⟨r, ws ++ [k]⟩ = r ++ joinWith '/' (ws ++ [k]) := by simp [PyPath.render, hr0]
  have hchar : ∀ c, c ∈ PyPath.render ⟨r, ws ++ [k]⟩ → c ≠ '\t' ∧ c ≠ '\n' ∧ c ≠ '\r' := by
    intro c hc
    rw [hrender] at hc
    have hslash : c = '/' → c ≠ '\t' ∧ c ≠ '\n' ∧ c ≠ '\r' := by rintro rfl; decide
    have hin : ∀ w, TextSafe w → c ∈ w → c ≠ '\t' ∧ c ≠ '\n' ∧ c ≠ '\r' := by
      rintro w ⟨h1, h2, h3⟩ hc
      exact ⟨fun h => h1 (h ▸ hc), fun h => h2 (h ▸ hc), fun h => h3 (h ▸ hc)⟩
    rcases List.mem_append.1 hc with h | h
    · apply hslash
      rcases hroot with rfl | rfl <;> simpa using h
    · rcases mem_joinWith h with h | ⟨w, hw, h⟩
      · exact hslash h
      · rcases List.mem_append.1 hw with hw | hw
        · exact hin w (hsafe w hw) h
        · rw [List.mem_singleton.1 hw] at h; exact hin k hk.safe h
  refine ⟨⟨fun h => (hchar _ h).1 rfl, fun h => (hchar _ h).2.1 rfl, ?_, ?_⟩, fun h => (hchar _ h).2.2 rfl⟩
  · intro c hc
    rw [hrender] at hc
    have : c = '/' := by
      rcases hroot with rfl | rfl <;> simpa using hc.symm
    rw [this]; decide
  · intro c hc
    rw [hrender] at hc
    have hlast : (joinWith '/' (ws ++ [k])).getLast? = k.getLast? := by
      by_cases hws : ws = []
      · subst hws; rfl
      · rw [joinWith_append hws (by simp), List.getLast?_append]
        have : ('/' :: joinWith '/' [k]).getLast? = k.getLast? := by
          simp only [joinWith]
          cases k with
          | nil => exact absurd rfl hk.nonempty
          | cons a k => simp [List.getLast?_cons_cons]
        rw [this]
        cases hkl : k.getLast? with
        | none => exact absurd (List.getLast?_eq_none_iff.1 hkl) hk.nonempty
        | some d => rfl
    rw [List.getLast?_append, hlast] at hc
    refine hk.last c ?_
    cases hkl : k.getLast? with
    | none => exact absurd (List.getLast?_eq_none_iff.1 hkl) hk.nonempty
    | some d => rw [hkl] at hc; exact hc

/-- The state of a directory session after some calls of `put`. -/
structure DirState (cwd P : PyPath) (fs : FS) (puts : List (Str × Bytes)) (s : DirSink) (fs' : FS) : Prop where
  tree : fs'.Tree
  path : s.path = P
  nodup : (s.idToFile.map (·.1)).Nodup
  map : ∀ k p, (k, p) ∈ s.idToFile ↔ k ∈ puts.map (·.1) ∧ p = ⟨P.root, P.parts ++ [k]⟩
  files : ∀ k b, lastPut puts k = some b → fs'.node (PyPath.resolve cwd P ++ [k]) = some (.file (.data b))
  others : ∀ q, (∀ k ∈ puts.map (·.1), q ≠ PyPath.resolve cwd P ++ [k]) → fs'.node q = fs.node q

theorem mkdirs_existing {fs : FS} (h : fs.Tree) {p : Loc} (hp : fs.node p = some .dir) :
    ∃ fs', mkdirs p fs = (.ok (), fs') ∧ (∀ q, fs'.node q = fs.node q) ∧ fs'.Tree := by
  have hdirs : ∀ q, q <+: p → fs.node q = some .dir := by
    intro q hq
    by_cases hqp : q = p
    · rw [hqp, hp]
    · exact h.dir_of_prefix hq hqp (by rw [hp]; simp)
  obtain ⟨fs', h1, h2, h3⟩ := (mkdirs_spec h p).1 (by
    rintro ⟨q, c, hq, hc⟩
    rw [hdirs q hq] at hc; simp at hc)
  refine ⟨fs', h1, fun q => ?_, h3⟩
  by_cases hq : q <+: p
  · rw [h2.1 q hq, hdirs q hq]
  · exact h2.2 q hq

theorem parent_snoc (k : Str) : PyPath.parent ⟨P.root, P.parts ++ [k]⟩ = P := by simp [PyPath.parent]

/-- Writing a file in a directory that is there. -/
theorem writeBytesTo_spec {fs : FS} (h : fs.Tree) {k : Str} (hk : k ≠ ['.', '.']) (hdir : fs.node (PyPath.resolve cwd P) = some .dir)
    (hfree : fs.node (PyPath.resolve cwd P ++ [k]) ≠ some .dir) (b : Bytes) :
    ∃ fs', writeBytesTo cwd ⟨P.root, P.parts ++ [k]⟩ b fs = (.ok (), fs') ∧ fs.WithFile (PyPath.resolve cwd P ++ [k]) (.data b) fs' ∧ fs'.Tree := by
  obtain ⟨fs1, a1, a2, a3⟩ := mkdirs_existing h hdir
  obtain ⟨fs2, b1, b2, b3⟩ := (writeFile_spec a3 (PyPath.resolve cwd P ++ [k]) (.data b)).1 (by simp)
    (by rw [List.dropLast_concat, a2]; exact hdir) (by rw [a2]; exact hfree)
  refine ⟨fs2, ?_, ⟨b2.1, fun q hq => by rw [b2.2 q hq, a2]⟩, b3⟩
  simp [writeBytesTo, parent_snoc, a1, resolve_snoc k hk, b1]

theorem dirSink_puts (fs : FS) (hempty : fs.EmptyDir (PyPath.resolve cwd P)) (rest : List (Str × Bytes))
    (hkeys : ∀ e ∈ rest, FileKey e.1) (done : List (Str × Bytes)) (s : DirSink) (fs' : FS) (hst : DirState cwd P fs done s fs') :
    ∃ s' fs'', DirSink.puts cwd s rest fs' = (.ok (s', none), fs'') ∧ DirState cwd P fs (done ++ rest) s' fs'' := by
  induction rest generalizing done s fs' with
  | nil => exact ⟨s, fs', rfl, by simpa using hst⟩
  | cons e rest ih =>
    obtain ⟨k, b⟩ := e
    have hk : FileKey k := hkeys (k, b) (by simp)
    have hsnoc : PyPath.resolve cwd P ≠ PyPath.resolve cwd P ++ [k] := by
      intro h; have := congrArg List.length h; simp at this
    have hdir : fs'.node (PyPath.resolve cwd P) = some .dir := by
      rw [hst.others]
      · exact hempty.1
      · intro k' _ h; have := congrArg List.length h; simp at this
    have hfree : fs'.node (PyPath.resolve cwd P ++ [k]) ≠ some .dir := by
      by_cases hmem : k ∈ done.map (·.1)
      · obtain ⟨b', hb'⟩ := Option.isSome_iff_exists.1 ((lastPut_isSome done k).2 hmem)
        rw [hst.files k b' hb']; simp
      · rw [hst.others]
        · rw [hempty.2]; simp
        · intro k' hk' h
          simp only [List.append_cancel_left_eq, List.cons.injEq, and_true] at h
          exact hmem (h ▸ hk')
    obtain ⟨fs1, a1, a2, a3⟩ := writeBytesTo_spec (P := P) hst.tree hk.dotdot hdir hfree b
    have hput : s.put cwd k b fs' = (.ok { s with idToFile := dictSet k ⟨P.root, P.parts ++ [k]⟩ s.idToFile }, fs1) := by
      simp [DirSink.put, hst.path, div_fileKey hk, a1]
    have hst' : DirState cwd P fs (done ++ [(k, b)]) { s with idToFile := dictSet k ⟨P.root, P.parts ++ [k]⟩ s.idToFile } fs1 := by
      refine ⟨a3, hst.path, nodup_dictSet _ _ hst.nodup, ?_, ?_, ?_⟩
      · intro k' p
        rw [← dictGet_iff (nodup_dictSet _ _ hst.nodup), dictGet_dictSet]
        by_cases hkk : k' = k
        · subst hkk
          simp [eq_comm]
        · simp only [hkk, if_false, dictGet_iff hst.nodup, hst.map, List.map_append, List.map_cons, List.map_nil, List.mem_append,
            List.mem_singleton, or_false]
      · intro k' b' hb'
        rw [lastPut_concat] at hb'
        by_cases hkk : k = k'
        · subst hkk
          simp only [if_true, Option.some.injEq] at hb'
          rw [← hb']; exact a2.1
        · simp only [hkk, if_false] at hb'
          rw [a2.2 _ (by simpa [eq_comm] using hkk)]
          exact hst.files k' b' hb'
      · intro q hq
        rw [a2.2 q (hq k (by simp))]
        exact hst.others q fun k' hk' => hq k' (by simp only [List.map_append, List.mem_append]; exact .inl hk')
    obtain ⟨s', fs'', c1, c2⟩ := ih (fun e he => hkeys e (by simp [he])) _ _ _ hst'
    refine ⟨s', fs'', ?_, by simpa using c2⟩
    unfold DirSink.puts at c1 ⊢
    rw [DirSink.putsAt, hput]
    exact c1

/-- The name of the index is a plain file name. -/
theorem index_key : FileKey "_index".toList := by
  refine ⟨by decide, by decide, by decide, by decide, by unfold TextSafe; decide, ?_, ?_⟩
  · intro c hc
    have : c = '_' := by simpa using hc.symm
    subst this; decide
  · intro c hc
    have : c = 'x' := by simpa using hc.symm
    subst this; decide

theorem translatedText_encode {s : Str} (h : '\r' ∉ s) : translatedText (encodeUtf8 s) = .ok s := by
  simp [translatedText, bind, Except.bind, decodeUtf8_encode, universalNewlines_of_no_cr h]

theorem filesOf_key (hcwd : cwd.Normal) (hroot : cwd.root ≠ []) (hP : P.Normal) {fs : FS} {k : Str} (hk : FileKey k) {b : Bytes}
    (h : fs.node (PyPath.resolve cwd P ++ [k]) = some (.file (.data b))) :
    filesOf cwd fs (PyPath.absolute cwd ⟨P.root, P.parts ++ [k]⟩).render = .ok b := by
  have hn : (PyPath.absolute cwd ⟨P.root, P.parts ++ [k]⟩).Normal := by
    refine absolute_normal hcwd ⟨hP.root, fun w hw => ?_⟩
    rcases List.mem_append.1 hw with hw | hw
    · exact hP.parts w hw
    · rw [List.mem_singleton.1 hw]; exact ⟨hk.nonempty, hk.dot, hk.slash⟩
  unfold filesOf
  rw [PyPath.parse_render hn, resolve_absolute hroot, resolve_snoc k hk.dotdot]
  simp [readData, readFile, h]

/-- Entering a directory sink, in an empty directory. -/
theorem dirSink_enter (fs : FS) (ht : fs.Tree) (hname : ∃ n, P.parts.getLast? = some n ∧ n ≠ ['.', '.'])
    (hempty : fs.EmptyDir (PyPath.resolve cwd P)) :
    ∃ fs2, (DirSink.new P).enter cwd fs = (.ok (DirSink.new P), fs2) ∧ DirState cwd P fs [] (DirSink.new P) fs2 := by
  have hne : PyPath.resolve cwd P ≠ [] := by
    obtain ⟨n, hn, hdd⟩ := hname
    obtain ⟨ws, hws⟩ := List.getLast?_eq_some_iff.1 hn
    have : P = ⟨P.root, ws ++ [n]⟩ := by rw [← hws]
    rw [this, resolve_snoc (P := ⟨P.root, ws⟩) n hdd]; simp
  have hrm : DirSink.rmdirPath cwd P = rmdir (PyPath.resolve cwd P) := by
    obtain ⟨n, hn, hdd⟩ := hname
    unfold DirSink.rmdirPath
    rw [if_neg]
    rintro (h | h)
    · rw [h] at hn; simp at hn
    · rw [h] at hn; exact hdd (Option.some.inj hn).symm
  obtain ⟨fs1, a1, a2, a3⟩ := (rmdir_spec ht (PyPath.resolve cwd P)).1 hne hempty
  have hnb : ¬ fs1.Blocked (PyPath.resolve cwd P) := by
    rintro ⟨q, c, hq, hc⟩
    by_cases hql : q = PyPath.resolve cwd P
    · rw [hql, a2.1 _ (List.prefix_refl _)] at hc; simp at hc
    · have hnl : ¬ PyPath.resolve cwd P <+: q := fun h' => hql (hq.eq_of_length (Nat.le_antisymm hq.length_le h'.length_le))
      rw [a2.2 q hnl, ht.dir_of_prefix hq hql (by rw [hempty.1]; simp)] at hc
      simp at hc
  obtain ⟨fs2, b1, b2, b3⟩ := (mkdirs_spec a3 (PyPath.resolve cwd P)).1 hnb
  have hview : ∀ q, fs2.node q = fs.node q := by
    intro q
    by_cases hq : q <+: PyPath.resolve cwd P
    · rw [b2.1 q hq]
      by_cases hql : q = PyPath.resolve cwd P
      · rw [hql, hempty.1]
      · exact (ht.dir_of_prefix hq hql (by rw [hempty.1]; simp)).symm
    · rw [b2.2 q hq]
      by_cases hlq : PyPath.resolve cwd P <+: q
      · rw [a2.1 q hlq]
        obtain ⟨r, rfl⟩ := hlq
        cases r with
        | nil => simp at hq
        | cons n r => exact (ht.none_of_prefix (p := PyPath.resolve cwd P ++ [n]) ⟨r, by simp⟩ (hempty.2 n)).symm
      · exact a2.2 q hlq
  have henter : (DirSink.new P).enter cwd fs = (.ok (DirSink.new P), fs2) := by
    simp [DirSink.enter, DirSink.new, hrm, a1, b1]
  have hst0 : DirState cwd P fs [] (DirSink.new P) fs2 :=
    ⟨b3, rfl, by simp [DirSink.new], by simp [DirSink.new], by simp [lastPut], fun q _ => hview q⟩
  exact ⟨fs2, henter, hst0⟩

theorem dirSession (hcwd : cwd.Normal) (hroot : cwd.root ≠ []) (hP : P.Normal)
    (hsafe : ∀ w ∈ (PyPath.absolute cwd P).parts, TextSafe w) (fs : FS) (ht : fs.Tree) (hname : ∃ n, P.parts.getLast? = some n ∧ n ≠ ['.', '.'])
    (hempty : fs.EmptyDir (PyPath.resolve cwd P)) (puts : List (Str × Bytes)) (hkeys : ∀ e ∈ puts, FileKey e.1 ∧ e.1 ≠ "_index".toList) :
    ∃ fs', (DirSink.new P).session cwd puts fs = (.ok (), fs') ∧ fs'.Tree ∧
      (∀ q, ¬ PyPath.resolve cwd P <+: q → fs'.node q = fs.node q) ∧
      ∃ m, docMapEntries cwd (P.div (PyPath.parse "_index".toList)) fs' = (.ok m, fs') ∧ (m.map (·.1)).Nodup ∧
        (∀ k, k ∈ m.map (·.1) ↔ k ∈ puts.map (·.1)) ∧
        ∀ k p, (k, p) ∈ m → ∃ b, lastPut puts k = some b ∧ filesOf cwd fs' p = .ok b := by
  obtain ⟨fs2, henter, hst0⟩ := dirSink_enter fs ht hname hempty
  obtain ⟨s3, fs3, c1, c2⟩ := dirSink_puts fs hempty puts (fun e he => (hkeys e he).1) [] _ _ hst0
  simp only [List.nil_append] at c2
  -- leaving
  have hdir : fs3.node (PyPath.resolve cwd P) = some .dir := by
    rw [c2.others]
    · exact hempty.1
    · intro k' _ h; have := congrArg List.length h; simp at this
  have hindex : "_index".toList ∉ puts.map (·.1) := by
    intro h
    obtain ⟨e, he, he'⟩ := List.mem_map.1 h
    exact (hkeys e he).2 he'
  have hfree : fs3.node (PyPath.resolve cwd P ++ ["_index".toList]) ≠ some .dir := by
    rw [c2.others]
    · rw [hempty.2]; simp
    · intro k' hk' h
      simp only [List.append_cancel_left_eq, List.cons.injEq, and_true] at h
      exact hindex (h ▸ hk')
  obtain ⟨fs4, d1, d2, d3⟩ := writeBytesTo_spec (P := P) c2.tree index_key.dotdot hdir hfree (encodeUtf8 (docMapText cwd s3.idToFile))
  have hexit : s3.exit cwd fs3 = (.ok (), fs4) := by
    rw [DirSink.exit, writeTextTo, c2.path, div_fileKey index_key]
    exact d1
  have hsession : (DirSink.new P).session cwd puts fs = (.ok (), fs4) := by
    simp [DirSink.session, henter, c1, hexit]
  refine ⟨fs4, hsession, d3, ?_, ?_⟩
  · intro q hq
    rw [d2.2 q (fun h => hq (h ▸ List.prefix_append _ _)), c2.others q fun k _ h => hq (h ▸ List.prefix_append _ _)]
  -- reading the index
  have hroot' : (PyPath.absolute cwd P).root = ['/'] ∨ (PyPath.absolute cwd P).root = ['/', '/'] := by
    have := (absolute_normal hcwd hP).root
    rcases this with h | h | h
    · exfalso
      unfold PyPath.absolute at h
      split at h
      · rename_i h'; exact h' h
      · exact hroot h
    · exact .inl h
    · exact .inr h
  have hentry : ∀ e ∈ s3.idToFile, FileKey e.1 ∧ e.1 ∈ puts.map (·.1) ∧ e.2 = ⟨P.root, P.parts ++ [e.1]⟩ := by
    rintro ⟨k, p⟩ he
    obtain ⟨hk, hp⟩ := (c2.map k p).1 he
    obtain ⟨e', he', hek⟩ := List.mem_map.1 hk
    exact ⟨hek ▸ (hkeys e' he').1, hk, hp⟩
  have hnorm : ∀ k, FileKey k → (PyPath.absolute cwd ⟨P.root, P.parts ++ [k]⟩).Normal := by
    intro k hk
    refine absolute_normal hcwd ⟨hP.root, fun w hw => ?_⟩
    rcases List.mem_append.1 hw with hw | hw
    · exact hP.parts w hw
    · rw [List.mem_singleton.1 hw]; exact ⟨hk.nonempty, hk.dot, hk.slash⟩
  have hcr : '\r' ∉ docMapText cwd s3.idToFile := by
    intro h
    unfold docMapText at h
    obtain ⟨l, hl, hc⟩ := List.mem_flatten.1 h
    obtain ⟨id, -, rfl⟩ := List.mem_map.1 hl
    unfold docMapLine at hc
    split at hc
    · rename_i p hp
      obtain ⟨hk, -, hp2⟩ := hentry _ ((dictGet_iff c2.nodup _ _).1 hp)
      simp only at hk hp2
      rw [hp2] at hc
      simp only [List.mem_append, List.mem_cons, List.not_mem_nil, or_false] at hc
      rcases hc with (hc | hc | hc) | hc
      · exact hk.safe.2.2 hc
      · exact absurd hc (by decide)
      · exact (render_key hroot' hsafe hk).2 hc
      · exact absurd hc (by decide)
    · simp at hc
  have hsrc : fileSource (PyPath.resolve cwd P ++ ["_index".toList]) fs4 = (.ok (docMapText cwd s3.idToFile), fs4) := by
    simp only [fileSource, readData, readFile, d2.1, Prog.bind_apply, Prog.pure_apply, Prog.ofRes_apply, translatedText_encode hcr]
  obtain ⟨m, e1, e2, e3⟩ := docMap_roundtrip cwd s3.idToFile c2.nodup
    (fun e he => ⟨(hentry e he).1.safe.1, (hentry e he).1.safe.2.1, (hentry e he).1.head, (hentry e he).1.last⟩)
    (fun e he => by
      obtain ⟨hk, -, hp⟩ := hentry e he
      rw [hp]; exact ⟨(render_key hroot' hsafe hk).1, hnorm _ hk⟩) _ fs4 hsrc
  have hkeys' : ∀ k, k ∈ m.map (·.1) ↔ k ∈ puts.map (·.1) := by
    intro k
    constructor
    · intro h
      obtain ⟨⟨k', q⟩, hq, rfl⟩ := List.mem_map.1 h
      obtain ⟨p, hp, -⟩ := (e2 _ _).1 hq
      exact (hentry _ hp).2.1
    · intro h
      exact List.mem_map.2 ⟨_, (e2 k _).2 ⟨_, (c2.map k _).2 ⟨h, rfl⟩, rfl⟩, rfl⟩
  refine ⟨m.map fun e => (e.1, e.2.render), ?_, ?_, ?_, ?_⟩
  · rw [docMapEntries, div_fileKey index_key, resolve_snoc _ index_key.dotdot]
    simp only [Prog.bind_apply, e1, Prog.pure_apply]
  · simp only [List.map_map]
    exact (e3.imp fun h => h.1)
  · intro k
    rw [← hkeys' k]
    simp only [List.map_map]; rfl
  · intro k p hp
    obtain ⟨⟨k', q⟩, hq, heq⟩ := List.mem_map.1 hp
    simp only [Prod.mk.injEq] at heq
    obtain ⟨rfl, rfl⟩ := heq
    obtain ⟨p', hp', rfl⟩ := (e2 _ _).1 hq
    obtain ⟨hk, hmem, hp''⟩ := hentry _ hp'
    simp only at hk hmem hp''
    obtain ⟨b, hb⟩ := Option.isSome_iff_exists.1 ((lastPut_isSome puts k').2 hmem)
    refine ⟨b, hb, ?_⟩
    rw [hp'']
    refine filesOf_key hcwd hroot hP hk ?_
    rw [d2.2]
    · exact c2.files k' b hb
    · intro h
      simp only [List.append_cancel_left_eq, List.cons.injEq, and_true] at h
      exact hindex (h ▸ hmem)

/-- A session on a directory sink for bytes, in an empty directory: it raises nothing, changes nothing outside the directory, and the
source read from the index serves exactly the last value put for each key. -/
theorem C62_bytes (hcwd : cwd.Normal) (hroot : cwd.root ≠ []) (hP : P.Normal) (hsafe : ∀ w ∈ (PyPath.absolute cwd P).parts, TextSafe w)
    (fs : FS) (ht : fs.Tree) (hname : ∃ n, P.parts.getLast? = some n ∧ n ≠ ['.', '.']) (hempty : fs.EmptyDir (PyPath.resolve cwd P)) (puts : List (Str × Bytes))
    (hkeys : ∀ e ∈ puts, FileKey e.1 ∧ e.1 ≠ "_index".toList) :
    ∃ fs', (DirSink.new P).session cwd puts fs = (.ok (), fs') ∧ fs'.Tree ∧
      (∀ q, ¬ PyPath.resolve cwd P <+: q → fs'.node q = fs.node q) ∧
      ∃ m, docMapEntries cwd (P.div (PyPath.parse "_index".toList)) fs' = (.ok m, fs') ∧
        Zip.Serves (docMapSource readBytesFile cwd m fs') (fun _ => True) (lastPut puts) := by
  obtain ⟨fs', h1, h2, h3, m, h4, h5, h6, h7⟩ := dirSession hcwd hroot hP hsafe fs ht hname hempty puts hkeys
  refine ⟨fs', h1, h2, h3, m, h4, ?_⟩
  refine ⟨⟨m.map (·.1), rfl, h5, fun k => by rw [h6, lastPut_isSome]⟩, ?_, ?_⟩
  · intro k v hv
    have hk : k ∈ m.map (·.1) := (h6 k).2 ((lastPut_isSome puts k).1 (by rw [hv]; rfl))
    obtain ⟨⟨k', p⟩, hp, rfl⟩ := List.mem_map.1 hk
    obtain ⟨b, hb, hf⟩ := h7 _ _ hp
    simp only at hv hb
    rw [hv, Option.some.injEq] at hb
    have hget := (dictGet_iff h5 _ _).2 hp
    simp only at hget ⊢
    simp [docMapSource, pathMapping, hget, readBytesFile, hf, hb, bind, Except.bind]
  · intro k _ hk
    have : dictGet m k = none := by
      rw [dictGet_none_iff, h6, ← lastPut_isSome, hk]; simp
    simp [docMapSource, pathMapping, this]

/-- The same for text; values are read back with their line ends translated (so exactly if they have no carriage return). -/
theorem C62_char (hcwd : cwd.Normal) (hroot : cwd.root ≠ []) (hP : P.Normal) (hsafe : ∀ w ∈ (PyPath.absolute cwd P).parts, TextSafe w)
    (fs : FS) (ht : fs.Tree) (hname : ∃ n, P.parts.getLast? = some n ∧ n ≠ ['.', '.']) (hempty : fs.EmptyDir (PyPath.resolve cwd P)) (puts : List (Str × Str))
    (hkeys : ∀ e ∈ puts, FileKey e.1 ∧ e.1 ≠ "_index".toList) :
    ∃ fs', (DirSink.new P).session cwd (puts.map fun e => (e.1, encodeUtf8 e.2)) fs = (.ok (), fs') ∧ fs'.Tree ∧
      (∀ q, ¬ PyPath.resolve cwd P <+: q → fs'.node q = fs.node q) ∧
      ∃ m, docMapEntries cwd (P.div (PyPath.parse "_index".toList)) fs' = (.ok m, fs') ∧
        Zip.Serves (docMapSource readTextFile cwd m fs') (fun _ => True) (fun k => (lastPut puts k).map universalNewlines) ∧
        ((∀ e ∈ puts, '\r' ∉ e.2) → Zip.Serves (docMapSource readTextFile cwd m fs') (fun _ => True) (lastPut puts)) := by
  obtain ⟨fs', h1, h2, h3, m, h4, h5, h6, h7⟩ := dirSession hcwd hroot hP hsafe fs ht hname hempty (puts.map fun e => (e.1, encodeUtf8 e.2))
    (by intro e he; obtain ⟨e', he', rfl⟩ := List.mem_map.1 he; exact hkeys e' he')
  have hS : Zip.Serves (docMapSource readTextFile cwd m fs') (fun _ => True) (fun k => (lastPut puts k).map universalNewlines) := by
    have h6' : ∀ k, k ∈ m.map (·.1) ↔ (lastPut puts k).isSome = true := by
      intro k
      rw [h6, lastPut_isSome, List.map_map]; rfl
    refine ⟨⟨m.map (·.1), rfl, h5, fun k => by rw [h6', Option.isSome_map]⟩, ?_, ?_⟩
    · intro k v hv
      obtain ⟨w, hw, rfl⟩ := Option.map_eq_some_iff.1 hv
      have hk : k ∈ m.map (·.1) := (h6' k).2 (by rw [hw]; rfl)
      obtain ⟨⟨k', p⟩, hp, rfl⟩ := List.mem_map.1 hk
      obtain ⟨b, hb, hf⟩ := h7 _ _ hp
      rw [lastPut_map] at hb
      simp only at hw hb
      rw [hw, Option.map_some, Option.some.injEq] at hb
      have hget := (dictGet_iff h5 _ _).2 hp
      simp only at hget ⊢
      simp [docMapSource, pathMapping, hget, readTextFile, hf, ← hb, bind, Except.bind, decodeUtf8_encode]
    · intro k _ hk
      have : dictGet m k = none := by
        rw [dictGet_none_iff, h6']; simp only [Option.map_eq_none_iff] at hk; rw [hk]; simp
      simp [docMapSource, pathMapping, this]
  refine ⟨fs', h1, h2, h3, m, h4, hS, fun hcr => ?_⟩
  have : (fun k => (lastPut puts k).map universalNewlines) = lastPut puts := by
    funext k
    cases hl : lastPut puts k with
    | none => rfl
    | some v =>
      obtain ⟨e, he, rfl⟩ : ∃ e ∈ puts, e.2 = v := by
        unfold lastPut at hl
        obtain ⟨e, he, rfl⟩ := Option.map_eq_some_iff.1 hl
        exact ⟨e, List.mem_reverse.1 (List.mem_of_find?_eq_some he), rfl⟩
      rw [Option.map_some, universalNewlines_of_no_cr (hcr e he)]
  rw [← this]; exact hS

end

/-- Entering a directory sink whose directory is missing, not empty, or not a directory raises `OSError` and changes nothing. -/
theorem C62_not_empty (cwd P : PyPath) (fs : FS) (ht : fs.Tree) (h : ¬ fs.EmptyDir (PyPath.resolve cwd P)) (puts : List (Str × Bytes)) :
    (DirSink.new P).session cwd puts fs = (.error .ioError, fs) := by
  have : DirSink.rmdirPath cwd P fs = (.error .ioError, fs) := by
    unfold DirSink.rmdirPath
    split
    · rfl
    · exact (rmdir_spec ht _).2 fun h' => h h'.2
  simp [DirSink.session, DirSink.enter, DirSink.new, this]

/-! ## Examples and counterexamples -/

namespace DocMapExample

def strOf (r : Res Str × FS) : Str := match r.1 with | .ok s => s | .error _ => "error".toList
def mapOf (r : Res (List (Str × PyPath)) × FS) : List (Str × Str) :=
  match r.1 with | .ok m => m.map fun e => (e.1, e.2.render) | .error _ => [("error".toList, [])]
def isIOError {α : Type} (r : Res α × FS) : Bool := match r.1 with | .ok _ => false | .error e => decide (e = .ioError)
def home : PyPath := ⟨['/'], ["home".toList]⟩
def dir : PyPath := ⟨[], ["d".toList]⟩
def fs : FS := [(["home".toList], .dir), (["home".toList, "d".toList], .dir)]
def entries (puts : List (Str × Str)) : List (Str × Str) :=
  match docMapEntries home (dir.div (PyPath.parse "_index".toList)) ((DirSink.new dir).session home (puts.map fun e => (e.1, encodeUtf8 e.2)) fs).2 with
  | (.ok m, _) => m
  | (.error _, _) => [("error".toList, [])]
def lookup (puts : List (Str × Str)) (k : Str) : Option Str :=
  let fs' := ((DirSink.new dir).session home (puts.map fun e => (e.1, encodeUtf8 e.2)) fs).2
  match (docMapSource readTextFile home (entries puts) fs').getItem k with
  | .ok v => some v
  | .error _ => none

-- a map with two ids, written and read back
example : docMapText home [("b".toList, dir), ("a".toList, ⟨['/'], ["x".toList]⟩)] = "a\t/x\nb\t/home/d\n".toList := by decide +kernel
example : mapOf (readDocMap (stringSource "a\t/x\nb\t/home/d\n".toList) []) = [("a".toList, "/x".toList), ("b".toList, "/home/d".toList)] := by
  decide +kernel
-- the last line of an id counts; white space around the fields goes
example : mapOf (readDocMap (stringSource " a\tx\na\t y \n".toList) []) = [("a".toList, "y".toList)] := by decide +kernel
-- a session, and what is read back
example : entries [("k".toList, "v".toList), ("j".toList, "w".toList), ("k".toList, "u".toList)] =
    [("j".toList, "/home/d/j".toList), ("k".toList, "/home/d/k".toList)] := by decide +kernel
example : lookup [("k".toList, "v".toList), ("j".toList, "w".toList), ("k".toList, "u".toList)] "k".toList = some "u".toList := by decide +kernel
example : fs.isEmptyDirectory ["home".toList, "d".toList] = true := by decide +kernel

/-- A name made of letters is a file key. -/
theorem key_a (c : Char) (h : c ∈ ['a', 'b', 'j', 'k']) : FileKey [c] := by
  refine ⟨by simp, ?_, by simp, ?_, ?_, ?_, ?_⟩
  · rintro h'; simp only [List.cons.injEq, and_true] at h'; subst h'; revert h; decide
  · simp only [List.mem_singleton]; rintro rfl; revert h; decide
  · refine ⟨?_, ?_, ?_⟩ <;> (simp only [List.mem_singleton]; rintro rfl; revert h; decide)
  all_goals
    intro d hd
    have : d = c := by simpa using hd.symm
    subst this
    simp only [List.mem_cons, List.not_mem_nil, or_false] at h
    rcases h with rfl | rfl | rfl | rfl <;> decide

theorem fs_tree : fs.Tree where
  parents q n h := by
    rcases (FS.node_ne_none_iff fs _).1 h with h' | h'
    · simp at h'
    · simp only [fs, List.map_cons, List.map_nil, List.mem_cons, List.not_mem_nil, or_false] at h'
      have key : ∀ l : Loc, q ++ [n] = l → q = l.dropLast := fun l hl => by rw [← hl]; simp
      rcases h' with h' | h' <;> rw [key _ h'] <;> exact (FS.isDir_iff _ _).1 (by decide +kernel)
  root := by decide +kernel

theorem fs_empty : fs.EmptyDir (PyPath.resolve home dir) := by
  refine ⟨(FS.isDir_iff _ _).1 (by decide +kernel), fun n => ?_⟩
  by_contra h
  rcases (FS.node_ne_none_iff fs _).1 h with h' | h'
  · simp at h'
  · have e : PyPath.resolve home dir = ["home".toList, "d".toList] := by decide +kernel
    rw [e] at h'
    simp [fs] at h'

/-- The hypotheses of `C62_bytes` hold of a session with three calls. -/
example : ∃ fs', (DirSink.new dir).session home [(['k'], encodeUtf8 "v".toList), (['j'], encodeUtf8 "w".toList), (['k'], encodeUtf8 "u".toList)] fs = (.ok (), fs') := by
  obtain ⟨fs', h, -⟩ := C62_bytes (cwd := home) (P := dir) ⟨by decide, by decide⟩ (by decide) ⟨by decide, by decide⟩ (by unfold TextSafe; decide +kernel) fs fs_tree
    ⟨['d'], by decide, by decide⟩ fs_empty [(['k'], encodeUtf8 "v".toList), (['j'], encodeUtf8 "w".toList), (['k'], encodeUtf8 "u".toList)] (by
      intro e he
      simp only [List.mem_cons, List.not_mem_nil, or_false] at he
      rcases he with rfl | rfl | rfl <;> exact ⟨key_a _ (by decide), by simp only; decide⟩)
  exact ⟨fs', h⟩

/-- The hypotheses of `C61_roundtrip` hold of a map with a relative and an absolute path. -/
example : ∃ m', readDocMap (stringSource (docMapText home [(['b'], dir), (['a'], ⟨['/'], [['k']]⟩)])) fs = (.ok m', fs) := by
  obtain ⟨m', h, -⟩ := C61_roundtrip home [(['b'], dir), (['a'], ⟨['/'], [['k']]⟩)] (by decide) (by
      intro e he
      simp only [List.mem_cons, List.not_mem_nil, or_false] at he
      rcases he with rfl | rfl <;> exact ⟨by decide, by decide, (key_a _ (by decide)).head, (key_a _ (by decide)).last⟩) (by
      intro e he
      simp only [List.mem_cons, List.not_mem_nil, or_false] at he
      rcases he with rfl | rfl
      · refine ⟨⟨by decide +kernel, by decide +kernel, ?_, ?_⟩, ⟨by decide +kernel, by decide +kernel⟩⟩
        all_goals
          intro c hc
          have e : (PyPath.absolute home dir).render = "/home/d".toList := by decide +kernel
          simp only [e] at hc
        · have : c = '/' := by simpa using hc.symm
          subst this; decide
        · have : c = 'd' := by simpa using hc.symm
          subst this; decide
      · refine ⟨⟨by decide +kernel, by decide +kernel, ?_, ?_⟩, ⟨by decide +kernel, by decide +kernel⟩⟩
        all_goals
          intro c hc
          have e : (PyPath.absolute home ⟨['/'], [['k']]⟩).render = "/k".toList := by decide +kernel
          simp only [e] at hc
        · have : c = '/' := by simpa using hc.symm
          subst this; decide
        · have : c = 'k' := by simpa using hc.symm
          subst this; decide) fs
  exact ⟨m', h⟩

end DocMapExample

/-- A blank line is not skipped but an error (the line feed makes the line non-empty). -/
theorem C61_blank_line_counterexample : DocMapExample.isIOError (readDocMap (stringSource "a\tx\n\nb\ty\n".toList) []) = true := by decide +kernel

/-- An id with white space at its end is not read back. -/
theorem C61_space_counterexample :
    DocMapExample.mapOf (readDocMap (stringSource (docMapText DocMapExample.home [("a ".toList, DocMapExample.dir)])) []) =
      [("a".toList, "/home/d".toList)] := by decide +kernel

/-- A value put under the key `_index` is lost: the index is written over it. -/
theorem C62_index_key_counterexample :
    DocMapExample.lookup [("_index".toList, "v".toList)] "_index".toList = some "_index\t/home/d/_index\n".toList := by decide +kernel

/-- Carriage returns in a value are not read back. -/
theorem C62_carriage_return_counterexample : DocMapExample.lookup [("k".toList, "a\r\nb".toList)] "k".toList = some "a\nb".toList := by decide +kernel

end Vista
