import Verif.Props.DocMap
import Verif.Props.Crash

/-!
# C92: what a killed directory sink leaves
-/
set_option linter.unusedSectionVars false
set_option linter.unusedSimpArgs false
namespace Vista

/-! ## The same program -/

theorem DirSink.same_putsAt (cwd : PyPath) (calls : List (Str × Bytes)) (s : DirSink) (fs : FS) :
    (DirSink.putsK cwd s calls).run fs = DirSink.puts cwd s calls fs := by
  induction calls generalizing s fs with
  | nil => rfl
  | cons e calls ih =>
    obtain ⟨k, b⟩ := e
    show Prog.bind (Killable.attempt (s.putK cwd k b)).run (fun r => Killable.run (match r with
      | .ok s' => DirSink.putsK cwd s' calls
      | .error e => Killable.pure (s, some e))) fs = DirSink.putsAt cwd s ((k, b) :: calls) fs
    unfold DirSink.putsAt
    have hput : (s.putK cwd k b).run fs = s.put cwd k b fs := rfl
    simp only [Prog.bind, Killable.attempt, hput]
    cases hp : s.put cwd k b fs with
    | mk r fs' =>
      cases r with
      | ok s' => exact ih s' fs'
      | error e => rfl

/-- Not killed, the program is the one modelled for C62. -/
theorem DirSink.same_session (cwd : PyPath) (s : DirSink) (calls : List (Str × Bytes)) : (s.sessionK cwd calls).run = s.session cwd calls := by
  funext fs
  have hp : ∀ s1, (DirSink.putsK cwd s1 calls).run = DirSink.puts cwd s1 calls := fun s1 => funext fun fs => same_putsAt cwd calls s1 fs
  show Prog.bind (s.enter cwd) (fun s1 => Prog.bind (DirSink.putsK cwd s1 calls).run fun r => Prog.bind (r.1.exit cwd) fun _ =>
    Killable.run (match r.2 with | some e => Killable.raise e | none => Killable.pure ())) fs = Prog.bind (s.enter cwd) (fun s1 =>
      Prog.bind (DirSink.puts cwd s1 calls) fun r => Prog.bind (r.1.exit cwd) fun _ =>
        match r.2 with | some e => Prog.raise e | none => Prog.pure ()) fs
  have : ∀ r : DirSink × Option Exc, Killable.run (match r.2 with | some e => Killable.raise e | none => Killable.pure ()) =
      match r.2 with | some e => Prog.raise e | none => Prog.pure () := by
    intro r; cases r.2 <;> rfl
  simp only [hp, this]

/-! ## Specification -/

/-- What is in the directory when the calls `done` have returned and the first of `rest` (or, after all, leaving the sink) was under way;
`whole` is the index a session that is not killed writes. -/
structure Leftover (D : Loc) (whole : Bytes) (done rest : List (Str × Bytes)) (s : FS) : Prop where
  dir : s.node D = some .dir
  values : ∀ k b, lastPut done k = some b → (∀ v, rest.head? ≠ some (k, v)) → s.node (D ++ [k]) = some (.file (.data b))
  current : ∀ k v, rest.head? = some (k, v) → s.node (D ++ [k]) = (lastPut done k).map (fun b => .file (.data b)) ∨
    ∃ b more, v = b ++ more ∧ s.node (D ++ [k]) = some (.file (.data b))
  index : s.node (D ++ ["_index".toList]) = none ∨
    (rest = [] ∧ ∃ b more, whole = b ++ more ∧ s.node (D ++ ["_index".toList]) = some (.file (.data b)))
  nothingElse : ∀ q, D <+: q → s.node q ≠ none → q = D ∨ q = D ++ ["_index".toList] ∨ ∃ k b, (k, b) ∈ done ++ rest.take 1 ∧ q = D ++ [k]

section
variable {cwd P : PyPath}

/-! ## Writing one file -/

theorem writeBytesToK_killed {fs s : FS} (h : fs.Tree) {k : Str} (hk : k ≠ ['.', '.']) (hdir : fs.node (PyPath.resolve cwd P) = some .dir)
    (hfree : fs.node (PyPath.resolve cwd P ++ [k]) ≠ some .dir) (b : Bytes)
    (hs : (writeBytesToK cwd ⟨P.root, P.parts ++ [k]⟩ b).killed fs s) :
    s.Tree ∧ (∀ q, q ≠ PyPath.resolve cwd P ++ [k] → s.node q = fs.node q) ∧
      (s.node (PyPath.resolve cwd P ++ [k]) = fs.node (PyPath.resolve cwd P ++ [k]) ∨
        ∃ b' more, b = b' ++ more ∧ s.node (PyPath.resolve cwd P ++ [k]) = some (.file (.data b'))) := by
  have hmk : ∀ q, q <+: PyPath.resolve cwd P → ∃ fs1, Vista.mkdirs q fs = (.ok (), fs1) ∧ (∀ r, fs1.node r = fs.node r) ∧ fs1.Tree := by
    intro q hq
    refine mkdirs_existing h ?_
    by_cases hqp : q = PyPath.resolve cwd P
    · rw [hqp, hdir]
    · exact h.dir_of_prefix hq hqp (by rw [hdir]; simp)
  rcases hs with hs | ⟨a, fs1, hr, hs⟩
  · replace hs : s = fs ∨ ∃ q, q <+: PyPath.resolve cwd (PyPath.parent ⟨P.root, P.parts ++ [k]⟩) ∧ s = (Vista.mkdirs q fs).2 := hs
    rw [parent_snoc] at hs
    rcases hs with rfl | ⟨q, hq, rfl⟩
    · exact ⟨h, fun _ _ => rfl, .inl rfl⟩
    · obtain ⟨fs1, h1, h2, h3⟩ := hmk q hq
      rw [h1]
      exact ⟨h3, fun q _ => h2 q, .inl (h2 _)⟩
  · replace hr : Vista.mkdirs (PyPath.resolve cwd (PyPath.parent ⟨P.root, P.parts ++ [k]⟩)) fs = (.ok a, fs1) := hr
    rw [parent_snoc] at hr
    obtain ⟨fs1', h1, h2, h3⟩ := hmk _ (List.prefix_refl _)
    rw [h1] at hr
    have := (Prod.mk.inj hr).2
    subst this
    replace hs : s = fs1' ∨ ∃ b' rest, b = b' ++ rest ∧
      s = (Vista.writeFile (PyPath.resolve cwd ⟨P.root, P.parts ++ [k]⟩) (.data b') fs1').2 := hs
    rcases hs with rfl | ⟨b', more, hb, rfl⟩
    · exact ⟨h3, fun q _ => h2 q, .inl (h2 _)⟩
    · rw [resolve_snoc k hk]
      obtain ⟨fs2, b1, b2, b3⟩ := (writeFile_spec h3 (PyPath.resolve cwd P ++ [k]) (.data b')).1 (by simp)
        (by rw [List.dropLast_concat, h2]; exact hdir) (by rw [h2]; exact hfree)
      rw [b1]
      exact ⟨b3, fun q hq => by show fs2.node q = _; rw [b2.2 q hq, h2], .inr ⟨b', more, hb, b2.1⟩⟩

/-! ## The session -/

theorem DirState.dir {fs fs' : FS} {done : List (Str × Bytes)} {st : DirSink} (hempty : fs.EmptyDir (PyPath.resolve cwd P))
    (hst : DirState cwd P fs done st fs') : fs'.node (PyPath.resolve cwd P) = some .dir := by
  rw [hst.others]
  · exact hempty.1
  · intro k' _ h; have := congrArg List.length h; simp at this

theorem DirState.absent {fs fs' : FS} {done : List (Str × Bytes)} {st : DirSink} (hempty : fs.EmptyDir (PyPath.resolve cwd P))
    (hst : DirState cwd P fs done st fs') {k : Str} (hk : k ∉ done.map (·.1)) : fs'.node (PyPath.resolve cwd P ++ [k]) = none := by
  rw [hst.others]
  · exact hempty.2 k
  · intro k' hk' h
    simp only [List.append_cancel_left_eq, List.cons.injEq, and_true] at h
    exact hk (h ▸ hk')

theorem DirState.node {fs fs' : FS} {done : List (Str × Bytes)} {st : DirSink} (hempty : fs.EmptyDir (PyPath.resolve cwd P))
    (hst : DirState cwd P fs done st fs') (k : Str) :
    fs'.node (PyPath.resolve cwd P ++ [k]) = (lastPut done k).map fun b => .file (.data b) := by
  cases h : lastPut done k with
  | some b => exact hst.files k b h
  | none =>
    refine hst.absent hempty ?_
    intro hk
    rw [← lastPut_isSome, h] at hk
    cases hk

theorem DirState.notDir {fs fs' : FS} {done : List (Str × Bytes)} {st : DirSink} (hempty : fs.EmptyDir (PyPath.resolve cwd P))
    (hst : DirState cwd P fs done st fs') (k : Str) : fs'.node (PyPath.resolve cwd P ++ [k]) ≠ some .dir := by
  rw [hst.node hempty]
  cases lastPut done k <;> simp

theorem DirState.below {fs fs' : FS} (ht : fs.Tree) {done : List (Str × Bytes)} {st : DirSink} (hempty : fs.EmptyDir (PyPath.resolve cwd P))
    (hst : DirState cwd P fs done st fs') {q : Loc} (hq : PyPath.resolve cwd P <+: q) (hn : fs'.node q ≠ none) :
    q = PyPath.resolve cwd P ∨ ∃ k b, (k, b) ∈ done ∧ q = PyPath.resolve cwd P ++ [k] := by
  by_cases h : ∃ k ∈ done.map (·.1), q = PyPath.resolve cwd P ++ [k]
  · obtain ⟨k, hk, rfl⟩ := h
    obtain ⟨⟨k', b⟩, hb, rfl⟩ := List.mem_map.1 hk
    exact .inr ⟨_, b, hb, rfl⟩
  · left
    rw [hst.others q (fun k hk he => h ⟨k, hk, he⟩)] at hn
    obtain ⟨r, rfl⟩ := hq
    cases r with
    | nil => simp
    | cons n r => exact absurd (ht.none_of_prefix (p := PyPath.resolve cwd P ++ [n]) ⟨r, by simp⟩ (hempty.2 n)) hn

/-- The state after some calls returned, and one may be under way. -/
theorem puts_killed (fs : FS) (hempty : fs.EmptyDir (PyPath.resolve cwd P)) (rest : List (Str × Bytes))
    (hkeys : ∀ e ∈ rest, FileKey e.1) (done : List (Str × Bytes)) (st : DirSink) (fs' : FS) (hst : DirState cwd P fs done st fs') (s : FS)
    (hs : (DirSink.putsK cwd st rest).killed fs' s) :
    ∃ done' rest' st' fs'', done ++ rest = done' ++ rest' ∧ DirState cwd P fs done' st' fs'' ∧ s.Tree ∧
      ((∀ q, s.node q = fs''.node q) ∨ ∃ k v more, rest' = (k, v) :: more ∧ FileKey k ∧ k ∈ rest.map (·.1) ∧
        (∀ q, q ≠ PyPath.resolve cwd P ++ [k] → s.node q = fs''.node q) ∧
        ∃ b' more', v = b' ++ more' ∧ s.node (PyPath.resolve cwd P ++ [k]) = some (.file (.data b'))) := by
  induction rest generalizing done st fs' with
  | nil =>
    replace hs : s = fs' := hs
    subst hs
    exact ⟨done, [], st, s, rfl, hst, hst.tree, .inl fun _ => rfl⟩
  | cons e rest ih =>
    obtain ⟨k, b⟩ := e
    have hk : FileKey k := hkeys (k, b) (by simp)
    obtain ⟨st1, fs1, hput, hst1⟩ := dirSink_puts fs hempty [(k, b)] (by simpa using hk) done st fs' hst
    have hput' : st.put cwd k b fs' = (.ok st1, fs1) := by
      unfold DirSink.puts DirSink.putsAt at hput
      cases hp : st.put cwd k b fs' with
      | mk r fs2 =>
        rw [hp] at hput
        cases r with
        | ok st2 =>
          simp only [DirSink.putsAt, Prod.mk.injEq, Except.ok.injEq, and_true] at hput
          obtain ⟨rfl, rfl⟩ := hput
          rfl
        | error e => simp at hput
    rcases hs with hs | ⟨r, fs2, hr, hs⟩
    · -- during this call
      have hs1 : (writeBytesToK cwd (st.path.div (PyPath.parse k)) b).killed fs' s ∨ s = fs1 := by
        rcases hs with hs | ⟨a, fs2, hr, hs⟩
        · exact .inl hs
        · right
          replace hs : s = fs2 := hs
          replace hr : writeBytesTo cwd (st.path.div (PyPath.parse k)) b fs' = (.ok a, fs2) := hr
          have := hput'
          simp only [DirSink.put, Prog.bind_apply, Prog.pure_apply, hr] at this
          rw [hs]; exact (Prod.mk.inj this).2
      rcases hs1 with hs1 | rfl
      · rw [hst.path, div_fileKey hk] at hs1
        obtain ⟨h1, h2, h3⟩ := writeBytesToK_killed (P := P) hst.tree hk.dotdot (hst.dir hempty) (hst.notDir hempty k) b hs1
        refine ⟨done, (k, b) :: rest, st, fs', rfl, hst, h1, ?_⟩
        rcases h3 with h3 | h3
        · left
          intro q
          by_cases hq : q = PyPath.resolve cwd P ++ [k]
          · rw [hq, h3]
          · exact h2 q hq
        · exact .inr ⟨k, b, rest, rfl, hk, by simp, h2, h3⟩
      · exact ⟨done ++ [(k, b)], rest, st1, s, by simp, hst1, hst1.tree, .inl fun _ => rfl⟩
    · -- after it
      have hr' : (Except.ok (st.put cwd k b fs').1, (st.put cwd k b fs').2) = (Except.ok r, fs2) := hr
      rw [hput'] at hr'
      simp only [Prod.mk.injEq, Except.ok.injEq] at hr'
      obtain ⟨rfl, rfl⟩ := hr'
      obtain ⟨done', rest', st', fs'', g1, g2, g3, g4⟩ := ih (fun e he => hkeys e (by simp [he])) _ _ _ hst1 hs
      refine ⟨done', rest', st', fs'', by simpa using g1, g2, g3, ?_⟩
      rcases g4 with g4 | ⟨k', v, more, a1, a2, a3, a4⟩
      · exact .inl g4
      · exact .inr ⟨k', v, more, a1, a2, by simp only [List.map_cons, List.mem_cons]; exact .inr a3, a4⟩

/-- A directory sink over an empty directory that is killed at any point of a session: nothing outside the directory is changed, and either
the directory is missing, or for some first calls, which have returned, the last value of each key is there in full (unless a call
for that key was under way); the file of the call under way is as before or holds a beginning of the value; the index is missing,
unless all calls have returned, and then holds a beginning of what belongs there; and there is nothing else. -/
theorem C92_killed (fs : FS) (ht : fs.Tree) (hname : ∃ n, P.parts.getLast? = some n ∧ n ≠ ['.', '.'])
    (hempty : fs.EmptyDir (PyPath.resolve cwd P)) (puts : List (Str × Bytes)) (hkeys : ∀ e ∈ puts, FileKey e.1 ∧ e.1 ≠ "_index".toList) :
    ∃ fin whole, (DirSink.new P).session cwd puts fs = (.ok (), fin) ∧
      fin.node (PyPath.resolve cwd P ++ ["_index".toList]) = some (.file (.data whole)) ∧
      ∀ s, ((DirSink.new P).sessionK cwd puts).killed fs s →
        s.Tree ∧ (∀ q, ¬ PyPath.resolve cwd P <+: q → s.node q = fs.node q) ∧
        ((∀ q, PyPath.resolve cwd P <+: q → s.node q = none) ∨
          ∃ done rest, puts = done ++ rest ∧ Leftover (PyPath.resolve cwd P) whole done rest s) := by
  obtain ⟨fs2, henter, hst0⟩ := dirSink_enter fs ht hname hempty
  obtain ⟨s3, fs3, c1, c2⟩ := dirSink_puts fs hempty puts (fun e he => (hkeys e he).1) [] _ _ hst0
  simp only [List.nil_append] at c2
  have hindex : "_index".toList ∉ puts.map (·.1) := by
    intro h
    obtain ⟨e, he, he'⟩ := List.mem_map.1 h
    exact (hkeys e he).2 he'
  have hiabs : ∀ {done rest : List (Str × Bytes)}, puts = done ++ rest → "_index".toList ∉ done.map (·.1) := by
    intro done rest h hi
    apply hindex
    rw [h, List.map_append, List.mem_append]
    exact .inl hi
  obtain ⟨fs4, d1, d2, d3⟩ := writeBytesTo_spec (P := P) c2.tree index_key.dotdot (c2.dir hempty) (c2.notDir hempty _)
    (encodeUtf8 (docMapText cwd s3.idToFile))
  have hexit : s3.exit cwd fs3 = (.ok (), fs4) := by
    rw [DirSink.exit, writeTextTo, c2.path, div_fileKey index_key]
    exact d1
  have hsession : (DirSink.new P).session cwd puts fs = (.ok (), fs4) := by
    simp [DirSink.session, henter, c1, hexit]
  -- the shapes of the outcomes
  have hwhole : ∀ {s : FS} {st : DirSink} {fs'' : FS} {done rest : List (Str × Bytes)}, puts = done ++ rest → DirState cwd P fs done st fs'' →
      s.Tree → (∀ q, s.node q = fs''.node q) → s.Tree ∧ (∀ q, ¬ PyPath.resolve cwd P <+: q → s.node q = fs.node q) ∧
        ((∀ q, PyPath.resolve cwd P <+: q → s.node q = none) ∨
          ∃ done rest, puts = done ++ rest ∧ Leftover (PyPath.resolve cwd P) (encodeUtf8 (docMapText cwd s3.idToFile)) done rest s) := by
    intro s st fs'' done rest hp hst htr hq
    refine ⟨htr, fun q hn => ?_, .inr ⟨done, rest, hp, ?_⟩⟩
    · rw [hq, hst.others q fun k _ h => hn (h ▸ List.prefix_append _ _)]
    · refine ⟨by rw [hq]; exact hst.dir hempty, fun k b h _ => by rw [hq]; exact hst.files k b h, fun k v _ => .inl (by rw [hq]; exact hst.node hempty k),
        .inl (by rw [hq]; exact hst.absent hempty (hiabs hp)), fun q hb hn => ?_⟩
      rw [hq] at hn
      rcases hst.below ht hempty hb hn with h | ⟨k, b, hkb, h⟩
      · exact .inl h
      · exact .inr (.inr ⟨k, b, by simp [hkb], h⟩)
  refine ⟨fs4, encodeUtf8 (docMapText cwd s3.idToFile), hsession, d2.1, fun s hs => ?_⟩
  rcases hs with hs | ⟨s1, fs1, hr, hs⟩
  · -- entering
    have hrm : DirSink.rmdirPath cwd P = rmdir (PyPath.resolve cwd P) := by
      obtain ⟨n, hn, hdd⟩ := hname
      unfold DirSink.rmdirPath
      rw [if_neg]
      rintro (h | h)
      · rw [h] at hn; simp at hn
      · rw [h] at hn; exact hdd (Option.some.inj hn).symm
    have hD : PyPath.resolve cwd P ≠ [] := Checkpoints.resolve_ne_nil hname
    obtain ⟨fs1, a1, a2, a3⟩ := (rmdir_spec ht (PyPath.resolve cwd P)).1 hD hempty
    have hempty0 : DirState cwd P fs [] (DirSink.new P) fs :=
      ⟨ht, rfl, by simp [DirSink.new], by simp [DirSink.new], by simp [lastPut], fun _ _ => rfl⟩
    have hgone : ∀ s : FS, s.Tree → (∀ q, s.node q = fs1.node q) → s.Tree ∧ (∀ q, ¬ PyPath.resolve cwd P <+: q → s.node q = fs.node q) ∧
        ((∀ q, PyPath.resolve cwd P <+: q → s.node q = none) ∨
          ∃ done rest, puts = done ++ rest ∧ Leftover (PyPath.resolve cwd P) (encodeUtf8 (docMapText cwd s3.idToFile)) done rest s) :=
      fun s h1 h2 => ⟨h1, fun q hq => by rw [h2, a2.2 q hq], .inl fun q hq => by rw [h2, a2.1 q hq]⟩
    rcases hs with (rfl | rfl) | ⟨a, fs1', hr, hs⟩
    · exact hwhole (rest := puts) rfl hempty0 ht (fun _ => rfl)
    · show FS.Tree (DirSink.rmdirPath cwd P fs).2 ∧ _
      rw [show (DirSink.rmdirPath cwd (DirSink.new P).path fs).2 = fs1 by rw [show (DirSink.new P).path = P from rfl, hrm, a1]]
      rw [hrm, a1]
      exact hgone fs1 a3 (fun _ => rfl)
    · replace hr : DirSink.rmdirPath cwd P fs = (.ok a, fs1') := hr
      rw [hrm, a1] at hr
      have := (Prod.mk.inj hr).2
      subst this
      have hmk : (∃ q, q <+: PyPath.resolve cwd P ∧ s = (Vista.mkdirs q fs1).2) ∨ s = fs1 := by
        rcases hs with (hs | hs) | ⟨b, fs5, hr, hs⟩
        · exact .inr hs
        · exact .inl hs
        · replace hs : s = fs5 := hs
          replace hr : Vista.mkdirs (PyPath.resolve cwd P) fs1 = (.ok b, fs5) := hr
          exact .inl ⟨_, List.prefix_refl _, by rw [hr, hs]⟩
      rcases hmk with ⟨q, hq, rfl⟩ | rfl
      · by_cases hqD : q = PyPath.resolve cwd P
        · subst hqD
          have hen := henter
          unfold DirSink.enter at hen
          simp only [Prog.bind_apply, show (DirSink.new P).path = P from rfl, hrm, a1] at hen
          cases hm : Vista.mkdirs (PyPath.resolve cwd P) fs1 with
          | mk r fs5 =>
            rw [hm] at hen
            cases r with
            | error e => simp at hen
            | ok u =>
              have : fs5 = fs2 := (Prod.mk.inj hen).2
              subst this
              exact hwhole (rest := puts) rfl hst0 hst0.tree (fun _ => rfl)
        · have hdir : fs1.node q = some .dir := by
            rw [a2.2 q (fun h => hqD (List.IsPrefix.eq_of_length_le hq h.length_le))]
            exact ht.dir_of_prefix hq hqD (by rw [hempty.1]; simp)
          obtain ⟨fs5, h1, h2, h3⟩ := mkdirs_existing a3 hdir
          rw [h1]
          exact hgone fs5 h3 h2
      · exact hgone s a3 (fun _ => rfl)
  · have hr' : (DirSink.new P).enter cwd fs = (.ok s1, fs1) := hr
    rw [henter] at hr'
    simp only [Prod.mk.injEq, Except.ok.injEq] at hr'
    obtain ⟨rfl, rfl⟩ := hr'
    rcases hs with hs | ⟨r, fs5, hr, hs⟩
    · -- one of the calls
      obtain ⟨done, rest, st, fs'', h1, h2, h3, h4⟩ := puts_killed fs hempty puts (fun e he => (hkeys e he).1) [] _ _ hst0 s hs
      rw [List.nil_append] at h1
      rcases h4 with h4 | ⟨k, v, more, hrest, hk, hkm, h5, b', more', hv, h6⟩
      · exact hwhole h1 h2 h3 h4
      · subst hrest
        have hki : k ≠ "_index".toList := fun h => hindex (h ▸ hkm)
        have hother : ∀ k', k' ≠ k → s.node (PyPath.resolve cwd P ++ [k']) = fs''.node (PyPath.resolve cwd P ++ [k']) :=
          fun k' hk' => h5 _ (by simpa using hk')
        refine ⟨h3, fun q hq => ?_, .inr ⟨done, (k, v) :: more, h1, ?_⟩⟩
        · rw [h5 q (fun h => hq (h ▸ List.prefix_append _ _)), h2.others q fun k _ h => hq (h ▸ List.prefix_append _ _)]
        · refine ⟨?_, fun k' b hb hne => ?_, fun k' v' hh => ?_, .inl ?_, fun q hq hn => ?_⟩
          · rw [h5 _ (fun h => by have := congrArg List.length h; simp at this)]; exact h2.dir hempty
          · rw [hother k' (fun h => hne v (by simp [h]))]; exact h2.files k' b hb
          · simp only [List.head?_cons, Option.some.injEq, Prod.mk.injEq] at hh
            obtain ⟨rfl, rfl⟩ := hh
            exact .inr ⟨b', more', hv, h6⟩
          · rw [hother _ (Ne.symm hki)]; exact h2.absent hempty (hiabs h1)
          · by_cases hqk : q = PyPath.resolve cwd P ++ [k]
            · exact .inr (.inr ⟨k, v, by simp, hqk⟩)
            · rw [h5 q hqk] at hn
              rcases h2.below ht hempty hq hn with h | ⟨k', b, hkb, h⟩
              · exact .inl h
              · exact .inr (.inr ⟨k', b, by simp [hkb], h⟩)
    · -- leaving
      have hr2 : DirSink.puts cwd (DirSink.new P) puts fs2 = (.ok r, fs5) :=
        (DirSink.same_putsAt cwd puts (DirSink.new P) fs2).symm.trans hr
      rw [c1] at hr2
      simp only [Prod.mk.injEq, Except.ok.injEq] at hr2
      obtain ⟨rfl, rfl⟩ := hr2
      have hleft : ∀ {s : FS}, s.Tree → (∀ q, q ≠ PyPath.resolve cwd P ++ ["_index".toList] → s.node q = fs3.node q) →
          (s.node (PyPath.resolve cwd P ++ ["_index".toList]) = fs3.node (PyPath.resolve cwd P ++ ["_index".toList]) ∨
            ∃ b' more, encodeUtf8 (docMapText cwd s3.idToFile) = b' ++ more ∧
              s.node (PyPath.resolve cwd P ++ ["_index".toList]) = some (.file (.data b'))) →
          s.Tree ∧ (∀ q, ¬ PyPath.resolve cwd P <+: q → s.node q = fs.node q) ∧
          ((∀ q, PyPath.resolve cwd P <+: q → s.node q = none) ∨
            ∃ done rest, puts = done ++ rest ∧ Leftover (PyPath.resolve cwd P) (encodeUtf8 (docMapText cwd s3.idToFile)) done rest s) := by
        intro s h3 h5 h6
        have hother : ∀ k', k' ≠ "_index".toList → s.node (PyPath.resolve cwd P ++ [k']) = fs3.node (PyPath.resolve cwd P ++ [k']) :=
          fun k' hk' => h5 _ (by simpa using hk')
        refine ⟨h3, fun q hq => ?_, .inr ⟨puts, [], by simp, ?_⟩⟩
        · rw [h5 q (fun h => hq (h ▸ List.prefix_append _ _)), c2.others q fun k _ h => hq (h ▸ List.prefix_append _ _)]
        · refine ⟨?_, fun k' b hb _ => ?_, by simp, ?_, fun q hq hn => ?_⟩
          · rw [h5 _ (fun h => by have := congrArg List.length h; simp at this)]; exact c2.dir hempty
          · rw [hother k']
            · exact c2.files k' b hb
            · rintro rfl
              exact hindex ((lastPut_isSome _ _).1 (by rw [hb]; rfl))
          · rcases h6 with h6 | h6
            · exact .inl (by rw [h6]; exact c2.absent hempty hindex)
            · exact .inr ⟨rfl, h6⟩
          · by_cases hqk : q = PyPath.resolve cwd P ++ ["_index".toList]
            · exact .inr (.inl hqk)
            · rw [h5 q hqk] at hn
              rcases c2.below ht hempty hq hn with h | ⟨k', b, hkb, h⟩
              · exact .inl h
              · exact .inr (.inr ⟨k', b, by simp [hkb], h⟩)
      rcases hs with hs | ⟨u, fs6, hr, hs⟩
      · replace hs : (writeBytesToK cwd (s3.path.div (PyPath.parse "_index".toList)) (encodeUtf8 (docMapText cwd s3.idToFile))).killed fs3 s := hs
        rw [c2.path, div_fileKey index_key] at hs
        obtain ⟨g1, g2, g3⟩ := writeBytesToK_killed (P := P) c2.tree index_key.dotdot (c2.dir hempty) (c2.notDir hempty _) _ hs
        exact hleft g1 g2 g3
      · have hr3 : s3.exit cwd fs3 = (.ok u, fs6) := hr
        rw [hexit] at hr3
        have := (Prod.mk.inj hr3).2
        subst this
        replace hs : s = fs4 := hs
        subst hs
        exact hleft d3 d2.2 (.inr ⟨_, ByteArray.empty, by simp, d2.1⟩)

/-! ## Afterwards -/

/-- Without an index, reading the directory as a key-value source raises `OSError`. -/
theorem C92_no_index (s : FS) (h : s.node (PyPath.resolve cwd P ++ ["_index".toList]) = none) :
    docMapEntries cwd (P.div (PyPath.parse "_index".toList)) s = (.error .ioError, s) := by
  rw [div_fileKey index_key]
  unfold docMapEntries
  rw [resolve_snoc _ index_key.dotdot]
  simp only [readDocMap, fileSource, readData, readFile, Prog.bind_apply, h]

/-- Running the program again after it was killed: if one of the calls had returned, or the directory is missing, entering the sink raises
`OSError` and changes nothing. -/
theorem C92_restart (s : FS) (ht : s.Tree) (whole : Bytes) (done rest : List (Str × Bytes))
    (h : (∀ q, PyPath.resolve cwd P <+: q → s.node q = none) ∨ (Leftover (PyPath.resolve cwd P) whole done rest s ∧ done ≠ []))
    (again : List (Str × Bytes)) : (DirSink.new P).session cwd again s = (.error .ioError, s) := by
  refine C62_not_empty cwd P s ht (fun he => ?_) again
  rcases h with h | ⟨h, hne⟩
  · have := h _ (List.prefix_refl _)
    rw [he.1] at this
    cases this
  · obtain ⟨k, b, hk⟩ : ∃ k b, (k, b) ∈ done := by
      cases done with
      | nil => exact absurd rfl hne
      | cons e done => exact ⟨e.1, e.2, by simp⟩
    have hsome : (lastPut done k).isSome = true := (lastPut_isSome done k).2 (List.mem_map.2 ⟨(k, b), hk, rfl⟩)
    obtain ⟨b', hb'⟩ := Option.isSome_iff_exists.1 hsome
    have hnone := he.2 k
    by_cases hh : ∀ v, rest.head? ≠ some (k, v)
    · rw [h.values k b' hb' hh] at hnone; cases hnone
    · push Not at hh
      obtain ⟨v, hv⟩ := hh
      rcases h.current k v hv with h' | ⟨b2, more, -, h'⟩
      · rw [h', hb'] at hnone; cases hnone
      · rw [h'] at hnone; cases hnone

end

/-! ## Examples -/

namespace CrashDirExample
open DocMapExample
deriving instance DecidableEq for DirSink

theorem ran {α : Type} {x : Prog α} {fs : FS} {a : α} (h : (x fs).1.toOption = some a) : x fs = (.ok a, (x fs).2) := by
  refine Prod.ext ?_ rfl
  cases hr : (x fs).1 with
  | error e => rw [hr] at h; cases h
  | ok b => rw [hr] at h; exact congrArg Except.ok (Option.some.inj h)

/-- Two calls. -/
def calls : List (Str × Bytes) := [("a".toList, encodeUtf8 "x".toList), ("ab".toList, encodeUtf8 "y".toList)]
def entered : FS := ((DirSink.new dir).enter home fs).2
/-- The sink after the calls. -/
def sink : DirSink := ⟨dir, [("a".toList, dir.div (PyPath.parse "a".toList)), ("ab".toList, dir.div (PyPath.parse "ab".toList))]⟩
def put : FS := ((DirSink.putsK home (DirSink.new dir) calls).run entered).2
/-- The index holds a beginning of what belongs there. -/
def cut (b : Bytes) : FS := (Vista.writeFile ["home".toList, "d".toList, "_index".toList] (.data b)
  ((Killable.mkdirs (PyPath.resolve home (PyPath.parent (dir.div (PyPath.parse "_index".toList))))).run put).2).2

theorem cut_killed {b more : Bytes} (h : encodeUtf8 (docMapText home sink.idToFile) = b ++ more) :
    ((DirSink.new dir).sessionK home calls).killed fs (cut b) := by
  have he : ((DirSink.new dir).enterK home).run fs = (.ok (DirSink.new dir), entered) := ran (by decide +kernel)
  have hp : (DirSink.putsK home (DirSink.new dir) calls).run entered = (.ok (sink, none), put) := ran (by decide +kernel)
  have hm : (Killable.mkdirs (PyPath.resolve home (PyPath.parent (dir.div (PyPath.parse "_index".toList))))).run put = (.ok (), _) :=
    ran (by decide +kernel)
  refine .inr ⟨_, _, he, .inr ⟨_, _, hp, .inl (.inr ⟨(), _, hm, .inr ⟨b, more, h, ?_⟩⟩)⟩⟩
  show cut b = (Vista.writeFile (PyPath.resolve home (dir.div (PyPath.parse "_index".toList))) (.data b) _).2
  rw [show PyPath.resolve home (dir.div (PyPath.parse "_index".toList)) = ["home".toList, "d".toList, "_index".toList] by decide +kernel]
  rfl

def looksUp (s : FS) (k : Str) : Option Str :=
  match docMapEntries home (dir.div (PyPath.parse "_index".toList)) s with
  | (.ok m, _) =>
    match (docMapSource readTextFile home m s).getItem k with
    | .ok v => some v
    | .error _ => none
  | (.error _, _) => none

end CrashDirExample

/-- The index is written a piece at a time: a process killed while it leaves the sink can leave an index that says nothing of some keys, or
even sends a key to the file of another: after `put("a", "x")` and `put("ab", "y")`, the source has `"x"` under `"ab"`. -/
theorem C92_wrong_value_counterexample : ∃ s, ((DirSink.new DocMapExample.dir).sessionK DocMapExample.home CrashDirExample.calls).killed DocMapExample.fs s ∧
    CrashDirExample.looksUp s "ab".toList = some "x".toList :=
  ⟨CrashDirExample.cut (encodeUtf8 "a\t/home/d/a\nab\t/home/d/a".toList), CrashDirExample.cut_killed (more := encodeUtf8 "b\n".toList) (by decide +kernel),
    by decide +kernel⟩

/-- The same, with a key lost and the source not saying so. -/
theorem C92_lost_key_counterexample : ∃ s, ((DirSink.new DocMapExample.dir).sessionK DocMapExample.home CrashDirExample.calls).killed DocMapExample.fs s ∧
    CrashDirExample.looksUp s "a".toList = some "x".toList ∧ CrashDirExample.looksUp s "ab".toList = none :=
  ⟨CrashDirExample.cut (encodeUtf8 "a\t/home/d/a\n".toList),
    CrashDirExample.cut_killed (more := encodeUtf8 "ab\t/home/d/ab\n".toList) (by decide +kernel), by decide +kernel, by decide +kernel⟩

namespace CrashDirExample
open DocMapExample

/-- The hypotheses of `C92_killed` hold of a session with three calls, and there are ways to be killed in it. -/
example : ∃ s, ((DirSink.new dir).sessionK home [(['k'], encodeUtf8 "v".toList), (['j'], encodeUtf8 "w".toList), (['k'], encodeUtf8 "u".toList)]).killed fs s ∧ s.Tree := by
  obtain ⟨_, _, _, _, h⟩ := C92_killed (cwd := home) (P := dir) fs fs_tree ⟨['d'], by decide, by decide⟩ fs_empty
    [(['k'], encodeUtf8 "v".toList), (['j'], encodeUtf8 "w".toList), (['k'], encodeUtf8 "u".toList)] (by
      intro e he
      simp only [List.mem_cons, List.not_mem_nil, or_false] at he
      rcases he with rfl | rfl | rfl <;> exact ⟨key_a _ (by decide), by simp only; decide⟩)
  have hk : ((DirSink.new dir).sessionK home [(['k'], encodeUtf8 "v".toList), (['j'], encodeUtf8 "w".toList), (['k'], encodeUtf8 "u".toList)]).killed fs fs :=
    .inl (.inl (.inl rfl))
  exact ⟨fs, hk, (h fs hk).1⟩

theorem key_ab : FileKey "ab".toList := by
  refine ⟨by decide, by decide, by decide, by decide, by refine ⟨?_, ?_, ?_⟩ <;> decide, ?_, ?_⟩
  all_goals
    intro d hd
    simp only [String.toList_ofList, show "ab".toList = ['a', 'b'] from rfl, List.head?_cons, List.getLast?_cons_cons, List.getLast?_singleton, Option.mem_def,
      Option.some.injEq] at hd
    subst hd
    decide

/-- The hypotheses of `C92_restart` hold after a kill while leaving: a second run raises. -/
example : (DirSink.new dir).session home calls (cut (encodeUtf8 "a\t".toList)) = (.error .ioError, cut (encodeUtf8 "a\t".toList)) := by
  obtain ⟨_, whole, _, _, h⟩ := C92_killed (cwd := home) (P := dir) fs fs_tree ⟨['d'], by decide, by decide⟩ fs_empty calls (by
      intro e he
      simp only [calls, List.mem_cons, List.not_mem_nil, or_false] at he
      rcases he with rfl | rfl
      · exact ⟨key_a 'a' (by decide), by simp only; decide⟩
      · exact ⟨key_ab, by simp only; decide⟩)
  obtain ⟨ht, -, h⟩ := h _ (cut_killed (b := encodeUtf8 "a\t".toList) (more := encodeUtf8 "/home/d/a\nab\t/home/d/ab\n".toList) (by decide +kernel))
  have e : PyPath.resolve home dir = ["home".toList, "d".toList] := by decide +kernel
  rcases h with h | ⟨done, rest, hp, h⟩
  · have h1 := h (PyPath.resolve home dir) (List.prefix_refl _)
    have h2 : (cut (encodeUtf8 "a\t".toList)).node ["home".toList, "d".toList] ≠ none := by decide +kernel
    rw [e] at h1
    exact absurd h1 h2
  · refine C92_restart _ ht whole done rest (.inr ⟨h, ?_⟩) _
    rintro rfl
    rcases h.index with h1 | ⟨rfl, -⟩
    · have h2 : (cut (encodeUtf8 "a\t".toList)).node ["home".toList, "d".toList, "_index".toList] ≠ none := by decide +kernel
      rw [e] at h1
      exact absurd h1 h2
    · simp [calls] at hp

/-- `C92_no_index` is about killed sessions: the directory after the calls. -/
example : docMapEntries home (dir.div (PyPath.parse "_index".toList)) put = (.error .ioError, put) := by
  have e : PyPath.resolve home dir = ["home".toList, "d".toList] := by decide +kernel
  have h : put.node ["home".toList, "d".toList, "_index".toList] = none := by decide +kernel
  exact C92_no_index put (by rw [e]; exact h)

end CrashDirExample
end Vista
