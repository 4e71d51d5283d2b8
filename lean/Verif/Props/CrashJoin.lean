import Verif.Spec.CrashJoin
import Verif.Props.CrashConvert
import Verif.Props.StoreScripts

/-!
# C102: joining into a directory, killed
-/
set_option linter.unusedSectionVars false
set_option linter.unusedSimpArgs false
namespace Vista
open Params (PathIs Present)

variable {order : List Str → List Str} {cwd : PyPath}

/-! ## The loops are calls of `put` -/

theorem putsK_run (s : DirSink) (calls : List (Str × Bytes)) (fs : FS) : (DirSink.putsK cwd s calls).run fs = DirSink.puts cwd s calls fs :=
  DirSink.same_putsAt cwd _ _ _

theorem putsK_cons {s s1 : DirSink} {k : Str} {b : Bytes} {calls : List (Str × Bytes)} {fs fs1 t : FS} (h : s.put cwd k b fs = (.ok s1, fs1))
    (ht : (DirSink.putsK cwd s1 calls).killed fs1 t) : (DirSink.putsK cwd s ((k, b) :: calls)).killed fs t := by
  refine .inr ⟨.ok s1, fs1, ?_, ht⟩
  show (Except.ok (s.put cwd k b fs).1, (s.put cwd k b fs).2) = _
  rw [h]

theorem putsK_append_left {s : DirSink} {c1 c2 : List (Str × Bytes)} {fs t : FS} (h : (DirSink.putsK cwd s c1).killed fs t) :
    (DirSink.putsK cwd s (c1 ++ c2)).killed fs t := by
  induction c1 generalizing s fs with
  | nil =>
    have : t = fs := h
    rw [this]
    exact DirToStore.putsK_start _ _ _
  | cons e c1 ih =>
    obtain ⟨k, b⟩ := e
    rcases h with h | ⟨r, fs1, h1, h⟩
    · exact .inl h
    · refine .inr ⟨r, fs1, h1, ?_⟩
      cases r with
      | ok s' => exact ih h
      | error e => exact h

theorem putsK_append_right {s s1 : DirSink} {c1 c2 : List (Str × Bytes)} {fs fs1 t : FS} (h : DirSink.puts cwd s c1 fs = (.ok (s1, none), fs1))
    (ht : (DirSink.putsK cwd s1 c2).killed fs1 t) : (DirSink.putsK cwd s (c1 ++ c2)).killed fs t := by
  induction c1 generalizing s fs with
  | nil =>
    simp only [DirSink.puts, DirSink.putsAt, Prod.mk.injEq, Except.ok.injEq, and_true] at h
    rw [h.1, h.2]; exact ht
  | cons e c1 ih =>
    obtain ⟨k, b⟩ := e
    unfold DirSink.puts at h
    rw [DirSink.putsAt] at h
    rcases hp : s.put cwd k b fs with ⟨r, f⟩
    rw [hp] at h
    cases r with
    | ok s' => exact putsK_cons hp (ih h)
    | error e => simp at h

theorem joinDirKeysK_killed {P : PyPath} {fs : FS} (hempty : fs.EmptyDir (PyPath.resolve cwd P)) {src : FS → KVSource Bytes} {M : Str → Option Bytes}
    (hs : ServesWhile src (fun q => ¬ PyPath.resolve cwd P <+: q) fs M) (ks : List Str) (hks : ∀ k ∈ ks, FileKey k ∧ (M k).isSome = true)
    (done : List (Str × Bytes)) (s : DirSink) (fs' : FS) (written : List Str) (hst : DirState cwd P fs done s fs')
    (hw : ∀ k, k ∈ written ↔ k ∈ done.map (·.1)) :
    ∃ calls s' w e fs'', joinDirKeys cwd src ks s written fs' = ((s', w, e), fs'') ∧ DirSink.puts cwd s calls fs' = (.ok (s', none), fs'') ∧
      DirState cwd P fs (done ++ calls) s' fs'' ∧ (∀ k, k ∈ w ↔ k ∈ (done ++ calls).map (·.1)) ∧ (∀ x ∈ calls, M x.1 = some x.2) ∧
      (e = none → ∀ k ∈ ks, k ∈ calls.map (·.1)) ∧ (e = none → ∀ k ∈ ks, k ∉ done.map (·.1)) ∧
      ((∀ k ∈ ks, k ∉ done.map (·.1)) → ks.Nodup → e = none) ∧
      ∀ t, (joinDirKeysK cwd src ks s written).killed fs' t → (DirSink.putsK cwd s calls).killed fs' t := by
  induction ks generalizing done s fs' written with
  | nil =>
    exact ⟨[], s, written, none, fs', rfl, rfl, by simpa using hst, by simpa using hw, by simp, by simp, by simp, by simp, fun t h => h⟩
  | cons k ks ih =>
    obtain ⟨hk, hm⟩ := hks k (by simp)
    obtain ⟨v, hv⟩ := Option.isSome_iff_exists.1 hm
    by_cases hfree : k ∈ written
    · refine ⟨[], s, written, some .runtimeError, fs', by simp only [joinDirKeys, hfree, if_true], rfl, by simpa using hst, by simpa using hw, by simp, by simp,
        by simp, fun h => absurd ((hw k).1 hfree) (h k (by simp)), fun t h => ?_⟩
      rcases h with h | ⟨x, f, h1, h⟩
      · exact h
      · cases h1
        beta_reduce at h
        rw [if_pos hfree] at h
        exact h
    · obtain ⟨s1, f1, b1, b2⟩ := dirSink_puts fs hempty [(k, v)] (by simpa using hk) done s fs' hst
      have hput := put_of_puts b1
      have hserve := hs fs' fun q hq => hst.others q fun k' _ h => hq (h ▸ List.prefix_append _ _)
      have hget := (hserve.present k v hv).1
      have hstep : joinDirKeys cwd src (k :: ks) s written fs' = joinDirKeys cwd src ks s1 (written ++ [k]) f1 := by
        simp only [joinDirKeys, hfree, if_false, hget, hput]
      obtain ⟨calls, s', w, e, fs'', c1, c2, c3, c4, c5, c6, c6', c7, c8⟩ := ih (fun k' hk' => hks k' (by simp [hk'])) (done ++ [(k, v)]) s1 f1 (written ++ [k]) b2 (by
        intro k'
        simp only [List.mem_append, hw, List.map_append, List.map_cons, List.map_nil])
      refine ⟨(k, v) :: calls, s', w, e, fs'', by rw [hstep, c1], ?_, by simpa using c3, by simpa using c4, ?_, ?_, ?_, ?_, ?_⟩
      · have := puts_append (c2 := calls) b1
        rw [List.singleton_append] at this
        rw [this, c2]
      · intro x hx
        rcases List.mem_cons.1 hx with rfl | hx
        · exact hv
        · exact c5 x hx
      · intro he k' hk'
        rcases List.mem_cons.1 hk' with rfl | hk'
        · simp
        · simp only [List.map_cons, List.mem_cons]; exact .inr (c6 he k' hk')
      · intro he k' hk'
        rcases List.mem_cons.1 hk' with rfl | hk'
        · exact fun h => hfree ((hw _).2 h)
        · have := c6' he k' hk'
          rw [List.map_append, List.mem_append] at this
          exact fun h => this (.inl h)
      · intro hall hnd
        rw [List.nodup_cons] at hnd
        refine c7 (fun k' hk' => ?_) hnd.2
        simp only [List.map_append, List.map_cons, List.map_nil, List.mem_append, List.mem_singleton, not_or]
        exact ⟨hall k' (by simp [hk']), fun he => hnd.1 (he ▸ hk')⟩
      · intro t h
        rcases h with h | ⟨x, f, h1, h⟩
        · have : t = fs' := h
          rw [this]
          exact DirToStore.putsK_start _ _ _
        cases h1
        beta_reduce at h
        rw [if_neg hfree, hget] at h
        rcases h with h | ⟨r, f, h1, h⟩
        · exact .inl h
        · have h1' : (Except.ok (s.put cwd k v fs').1, (s.put cwd k v fs').2) = (Except.ok r, f) := h1
          rw [hput] at h1'
          cases h1'
          exact putsK_cons hput (c8 t h)

/-- A store that is read is not in the directory that was empty. -/
theorem store_outside {fs : FS} (ht : fs.Tree) {l q : Loc} (hempty : fs.EmptyDir l) {c : Content} (hq : fs.node q = some (.file c)) : ¬ l <+: q := by
  intro hpre
  by_cases heq : q = l
  · rw [heq, hempty.1] at hq; cases hq
  · rw [DirToStore.empty_below ht hempty hpre heq] at hq; cases hq

theorem joinDirEachK_killed {P : PyPath} {fs : FS} (ht : fs.Tree) (hempty : fs.EmptyDir (PyPath.resolve cwd P)) {paths : List PyPath} {Ms : List (Str → Option Bytes)}
    (hin : List.Forall₂ (DirInput cwd fs) paths Ms) (done : List (Str × Bytes)) (s : DirSink) (fs' : FS) (written : List Str)
    (hst : DirState cwd P fs done s fs') (hw : ∀ k, k ∈ written ↔ k ∈ done.map (·.1)) :
    ∃ calls s' e fs'', joinDirEach cwd paths s written fs' = ((s', e), fs'') ∧ DirSink.puts cwd s calls fs' = (.ok (s', none), fs'') ∧
      (∀ x ∈ calls, ∃ M ∈ Ms, M x.1 = some x.2) ∧
      (Disjoint' Ms → (∀ M ∈ Ms, ∀ k ∈ done.map (·.1), M k = none) → ∀ M ∈ Ms, ∀ k, M k ≠ none → k ∈ calls.map (·.1)) ∧
      ∀ t, (joinDirEachK cwd paths s written).killed fs' t → (DirSink.putsK cwd s calls).killed fs' t := by
  induction hin generalizing done s fs' written with
  | nil => exact ⟨[], s, none, fs', rfl, rfl, by simp, by simp, fun t h => h⟩
  | @cons path M paths Ms h1 h2 ih =>
    obtain ⟨a, ha, -⟩ := id h1.stored
    have hout : ¬ PyPath.resolve cwd P <+: PyPath.resolve cwd path := store_outside ht hempty ha
    have hsame : fs'.node (PyPath.resolve cwd path) = fs.node (PyPath.resolve cwd path) :=
      hst.others _ fun k' _ h => hout (h ▸ List.prefix_append _ _)
    obtain ⟨o, o1, o2⟩ := openZipBytes_spec (h1.stored.congr hsame)
    have hserve : ServesWhile o.ask (fun q => ¬ PyPath.resolve cwd P <+: q) fs M := fun f hf => o2 f fun q hq => by
      subst hq
      rw [hf _ hout, hsame]
    obtain ⟨ks, b1, b2, b3⟩ := (o2 fs' fun _ _ => rfl).keys
    have hks : ∀ k ∈ ks, FileKey k ∧ (M k).isSome = true := fun k hk =>
      ⟨(h1.names k (Option.isSome_iff_ne_none.1 ((b3 k).1 hk))).1, (b3 k).1 hk⟩
    have hin1 : ∀ k, k ∈ ks ↔ M k ≠ none := fun k => by rw [b3, Option.isSome_iff_ne_none]
    obtain ⟨calls, s1, w, e, f1, c1, c2, c3, c4, c5, c6, -, c7, c8⟩ := joinDirKeysK_killed hempty hserve ks hks done s fs' written hst hw
    -- the steps before the loop over the keys change nothing
    have hopen : ∀ r f, (Killable.attempt (Killable.reading (openZipBytes (PyPath.resolve cwd path)))).run fs' = (.ok r, f) → r = .ok o ∧ f = fs' := by
      intro r f h
      have h' : (Except.ok (openZipBytes (PyPath.resolve cwd path) fs').1, (openZipBytes (PyPath.resolve cwd path) fs').2) = (Except.ok r, f) := h
      rw [o1] at h'
      cases h'
      exact ⟨rfl, rfl⟩
    have kinds : ∀ t, (joinDirEachK cwd (path :: paths) s written).killed fs' t → t = fs' ∨ (joinDirKeysK cwd o.ask ks s written).killed fs' t ∨
        (e = none ∧ (joinDirEachK cwd paths s1 w).killed f1 t) ∨ t = f1 := by
      intro t h
      rcases h with h | ⟨r, f, h1, h⟩
      · exact .inl h
      obtain ⟨rfl, rfl⟩ := hopen r f h1
      rcases h with h | ⟨x, f, h2, h⟩
      · exact .inl h
      cases h2
      beta_reduce at h
      rw [b1] at h
      rcases h with h | ⟨r, f, h3, h⟩
      · exact .inr (.inl h)
      rw [joinDirKeysK_run, c1] at h3
      cases h3
      cases e with
      | none => exact .inr (.inr (.inl ⟨rfl, h⟩))
      | some e => exact .inr (.inr (.inr h))
    cases e with
    | some e =>
      refine ⟨calls, s1, some e, f1, by simp only [joinDirEach, o1, b1, c1], c2, fun x hx => ⟨M, by simp, c5 x hx⟩, fun _ hd => ?_, fun t h => ?_⟩
      · have := c7 (fun k hk hk' => (hin1 k).1 hk (hd M (by simp) k hk')) b2
        cases this
      · rcases kinds t h with rfl | h | ⟨h, -⟩ | rfl
        · exact DirToStore.putsK_start _ _ _
        · exact c8 t h
        · cases h
        · have := putsK_append_right (c2 := []) c2 (DirToStore.putsK_start _ _ _)
          rwa [List.append_nil] at this
    | none =>
      obtain ⟨calls', s', e', fs'', d1, d2, d3, d4, d5⟩ := ih (done ++ calls) s1 f1 w c3 c4
      refine ⟨calls ++ calls', s', e', fs'', by simp only [joinDirEach, o1, b1, c1, d1], by rw [puts_append c2, d2], fun x hx => ?_, fun hdis hd M' hM' k hk => ?_, fun t h => ?_⟩
      · rcases List.mem_append.1 hx with hx | hx
        · exact ⟨M, by simp, c5 x hx⟩
        · obtain ⟨M', g1, g2⟩ := d3 x hx
          exact ⟨M', by simp [g1], g2⟩
      · simp only [Disjoint', List.pairwise_cons] at hdis
        rw [List.map_append, List.mem_append]
        rcases List.mem_cons.1 hM' with rfl | hM'
        · exact .inl (c6 rfl k ((hin1 k).2 hk))
        · refine .inr (d4 hdis.2 (fun M'' hM'' k' hk' => ?_) M' hM' k hk)
          rw [List.map_append, List.mem_append] at hk'
          rcases hk' with hk' | hk'
          · exact hd M'' (by simp [hM'']) k' hk'
          · obtain ⟨x, hx, rfl⟩ := List.mem_map.1 hk'
            exact hdis.1 M'' hM'' x.1 (by rw [c5 x hx]; simp)
      · rcases kinds t h with rfl | h | ⟨-, h⟩ | rfl
        · exact DirToStore.putsK_start _ _ _
        · exact putsK_append_left (c8 t h)
        · exact putsK_append_right c2 (d5 t h)
        · exact putsK_append_right c2 (DirToStore.putsK_start _ _ _)

/-! ## The output is not an empty directory -/

/-- Entering a directory sink whose directory is not an empty directory raises and changes nothing. -/
theorem enter_not_empty {E : FromParams.Env} {ns : Params} {l : Loc} (hl : PathIs E.cwd ns "path".toList l) {fs : FS} (ht : fs.Tree) (hnot : ¬ fs.EmptyDir l) :
    DirSink.rmdirPath E.cwd l.toPath fs = (.error .ioError, fs) ∧ DirSink.enter E.cwd (DirSink.new l.toPath) fs = (.error .ioError, fs) := by
  have hrm : DirSink.rmdirPath E.cwd l.toPath fs = (.error .ioError, fs) := by
    unfold DirSink.rmdirPath
    by_cases hnil : l = []
    · subst hnil
      rw [if_pos (.inl rfl)]
      rfl
    · obtain ⟨r1, n, r2, r3⟩ := DirToStore.place_spec hl hnil
      rw [if_neg, r1]
      · exact (rmdir_spec ht l).2 fun h => hnot h.2
      · rintro (h | h)
        · exact hnil h
        · rw [r2] at h
          exact r3 (Option.some.inj h)
  refine ⟨hrm, ?_⟩
  unfold DirSink.enter
  simp only [Prog.bind_apply, show (DirSink.new l.toPath).path = l.toPath from rfl, hrm]

theorem pathIs_unique {E : FromParams.Env} {p : Params} {k : Str} {l l' : Loc} (hp : p.WF) (h : PathIs E.cwd p k l) (h' : PathIs E.cwd p k l') : l = l' := by
  have e1 := ((Params.pathParam_spec E.cwd hp _).1 l).2 h
  have e2 := ((Params.pathParam_spec E.cwd hp _).1 l').2 h'
  rw [e1] at e2
  cases e2
  rfl

/-- Joining into something that is not an empty directory raises (`ParameterError` if there is no directory, else `OSError`), and changes nothing. -/
theorem C64_join_not_empty (E : FromParams.Env) (p : Params) (l : Loc) (hp : DirToStore.Output E p "file-map".toList l) (fs : FS) (ht : fs.Tree)
    (paths : List PyPath) (hpaths : p.pathListFromFile E.cwd "input_store_list_file".toList none fs = (.ok paths, fs)) (hnot : ¬ fs.EmptyDir l) :
    joinMain E order p fs = (.error (if fs.isDir l then .ioError else .parameterError), fs) := by
  obtain ⟨ns, mods, hT, hl⟩ := hp.typed
  obtain ⟨s1, s2⟩ := FromParams.C74_directory_sink E _ (sane_of_join hp.py hp.globals p paths) p _ ns mods (FromParams.typed_mono hT _) fs
  by_cases hdir : fs.isDir l = true
  · rw [if_pos hdir]
    rw [FS.isDir_iff] at hdir
    simp only [joinMain, Prog.bind_apply, hpaths, (s1 l hl hdir).2, joinInto, (enter_not_empty hl ht hnot).2]
  · rw [if_neg hdir]
    rw [FS.isDir_iff] at hdir
    have : ¬ ∃ l, PathIs E.cwd ns "path".toList l ∧ fs.node l = some .dir := by
      rintro ⟨l', hl', h⟩
      exact hdir (pathIs_unique (FromParams.ns_wf hT) hl hl' ▸ h)
    obtain ⟨e, he, -, k⟩ := s2 this
    obtain rfl := Params.refused_unique he (Params.refused_path (FromParams.ns_wf hT) hl)
    simp only [joinMain, Prog.bind_apply, hpaths, k]

theorem join_killed_not_empty {E : FromParams.Env} {p : Params} {l : Loc} (hp : DirToStore.Output E p "file-map".toList l) {fs s : FS} (ht : fs.Tree)
    {paths : List PyPath} (hpaths : p.pathListFromFile E.cwd "input_store_list_file".toList none fs = (.ok paths, fs)) (hnot : ¬ fs.EmptyDir l)
    (hs : (joinMainK E order p).killed fs s) : s.Tree ∧ ∀ q, s.node q = fs.node q := by
  obtain ⟨ns, mods, hT, hl⟩ := hp.typed
  obtain ⟨s1, s2⟩ := FromParams.C74_directory_sink E _ (sane_of_join hp.py hp.globals p paths) p _ ns mods (FromParams.typed_mono hT _) fs
  have refl : s = fs → s.Tree ∧ ∀ q, s.node q = fs.node q := by rintro rfl; exact ⟨ht, fun _ => rfl⟩
  have hsink : (FromParams.byteSink E p "output".toList (some (joinLocals p paths)) fs).2 = fs := by
    by_cases h : ∃ l, PathIs E.cwd ns "path".toList l ∧ fs.node l = some .dir
    · obtain ⟨l', h1, h2⟩ := h
      rw [(s1 l' h1 h2).2]
    · obtain ⟨e, -, -, k⟩ := s2 h
      rw [k]
  rcases hs with hs | ⟨paths', fs1, h1, hs⟩
  · exact refl hs
  replace h1 : p.pathListFromFile E.cwd "input_store_list_file".toList none fs = (.ok paths', fs1) := h1
  rw [hpaths] at h1
  cases h1
  rcases hs with hs | ⟨o, fs1, h1, hs⟩
  · exact DirToStore.same_of_killed_sink ht hsink hs
  replace h1 : FromParams.byteSink E p "output".toList (some (joinLocals p paths)) fs = (.ok o, fs1) := h1
  have hdir : fs.node l = some .dir := by
    by_contra hc
    have : ¬ ∃ l, PathIs E.cwd ns "path".toList l ∧ fs.node l = some .dir := by
      rintro ⟨l', hl', h⟩
      exact hc (pathIs_unique (FromParams.ns_wf hT) hl hl' ▸ h)
    obtain ⟨e, -, -, k⟩ := s2 this
    rw [k] at h1
    cases h1
  rw [(s1 l hl hdir).2] at h1
  cases h1
  obtain ⟨hrm, henter⟩ := enter_not_empty hl ht hnot
  rcases hs with ((hs | hs) | ⟨u, fs2, h2, hs⟩) | ⟨st, fs2, h2, hs⟩
  · exact refl hs
  · have : s = (DirSink.rmdirPath E.cwd l.toPath fs).2 := hs
    rw [hrm] at this
    exact refl this
  · have : DirSink.rmdirPath E.cwd l.toPath fs = (.ok u, fs2) := h2
    rw [hrm] at this; cases this
  · have h2' : DirSink.enter E.cwd (DirSink.new l.toPath) fs = (.ok st, fs2) := h2
    rw [henter] at h2'
    cases h2'

/-! ## The output is an empty directory -/

theorem JoinTorn.congr {fs s s' : FS} {l : Loc} {Ms : List (Str → Option Bytes)} (h : JoinTorn fs l Ms s) (ht : s'.Tree) (hn : ∀ q, s'.node q = s.node q) :
    JoinTorn fs l Ms s' := by
  refine ⟨ht, fun q h1 h2 h3 h4 => ?_, fun hi q h1 h2 h3 h4 => ?_, fun h1 hd M hM k b hk => ?_, fun q hq => by rw [hn]; exact h.others q hq⟩
  · rw [hn] at h4 ⊢; exact h.content q h1 h2 h3 h4
  · rw [hn] at hi h4; rw [hn]; exact h.whole hi q h1 h2 h3 h4
  · rw [hn] at h1 ⊢; exact h.all h1 hd M hM k b hk

theorem JoinTorn.start {fs s : FS} {l : Loc} {Ms : List (Str → Option Bytes)} (ht : fs.Tree) (hempty : fs.EmptyDir l) (hs : s.Tree)
    (hn : ∀ q, s.node q = fs.node q) : JoinTorn fs l Ms s := by
  refine ⟨hs, fun q h1 h2 _ h4 => ?_, fun hi => ?_, fun hi => ?_, fun q _ => hn q⟩
  · rw [hn] at h4; exact absurd (DirToStore.empty_below ht hempty h1 h2) h4
  · rw [hn] at hi; exact absurd (hempty.2 _) hi
  · rw [hn] at hi; exact absurd (hempty.2 _) hi

theorem disjoint_unique {Ms : List (Str → Option Bytes)} (hd : Disjoint' Ms) {M M' : Str → Option Bytes} (hM : M ∈ Ms) (hM' : M' ∈ Ms) {k : Str} {b b' : Bytes}
    (hb : M k = some b) (hb' : M' k = some b') : b = b' := by
  induction hd with
  | nil => cases hM
  | @cons x Ms hx _ ih =>
    rcases List.mem_cons.1 hM with rfl | h1 <;> rcases List.mem_cons.1 hM' with rfl | h2
    · rw [hb] at hb'; exact Option.some.inj hb'
    · have := hx _ h2 k (by rw [hb]; simp)
      rw [this] at hb'; cases hb'
    · have := hx _ h1 k (by rw [hb']; simp)
      rw [this] at hb; cases hb
    · exact ih h1 h2

theorem dirInput_names {fs : FS} {paths : List PyPath} {Ms : List (Str → Option Bytes)} (hin : List.Forall₂ (DirInput cwd fs) paths Ms) {M : Str → Option Bytes}
    (hM : M ∈ Ms) {k : Str} (hk : M k ≠ none) : FileKey k ∧ k ≠ "_index".toList := by
  induction hin with
  | nil => cases hM
  | cons h1 _ ih =>
    rcases List.mem_cons.1 hM with rfl | hM
    · exact h1.names k hk
    · exact ih hM

/-- One run that is killed, into an empty directory. -/
theorem join_killed_once {E : FromParams.Env} {p : Params} {l : Loc} (hp : DirToStore.Output E p "file-map".toList l) (hnil : l ≠ []) {fs s : FS} (ht : fs.Tree)
    {paths : List PyPath} (hpaths : p.pathListFromFile E.cwd "input_store_list_file".toList none fs = (.ok paths, fs)) {Ms : List (Str → Option Bytes)}
    (hin : List.Forall₂ (DirInput E.cwd fs) paths Ms) (hempty : fs.EmptyDir l) (hs : (joinMainK E order p).killed fs s) : JoinTorn fs l Ms s := by
  obtain ⟨ns, mods, hT, hl⟩ := hp.typed
  obtain ⟨hres, hname⟩ := DirToStore.place_spec hl hnil
  have e3 := ((FromParams.C74_directory_sink E _ (sane_of_join hp.py hp.globals p paths) p _ ns mods (FromParams.typed_mono hT _) fs).1 l hl hempty.1).2
  rcases hs with hs | ⟨paths', fs1, h1, hs⟩
  · have : s = fs := hs
    exact .start ht hempty (this ▸ ht) (this ▸ fun _ => rfl)
  replace h1 : p.pathListFromFile E.cwd "input_store_list_file".toList none fs = (.ok paths', fs1) := h1
  rw [hpaths] at h1
  cases h1
  rcases hs with hs | ⟨o, fs1, h1, hs⟩
  · obtain ⟨g1, g2⟩ := DirToStore.same_of_killed_sink ht (by rw [e3]) hs
    exact .start ht hempty g1 g2
  replace h1 : FromParams.byteSink E p "output".toList (some (joinLocals p paths)) fs = (.ok o, fs1) := h1
  rw [e3] at h1
  cases h1
  have hempty' : fs.EmptyDir (PyPath.resolve E.cwd l.toPath) := by rw [hres]; exact hempty
  obtain ⟨fs2, g1, g2⟩ := dirSink_enter (cwd := E.cwd) (P := l.toPath) fs ht hname hempty'
  obtain ⟨calls, s', e, fs'', c1, c2, c3, c4, c5⟩ := joinDirEachK_killed ht hempty' hin [] _ fs2 [] g2 (by simp)
  have hsession : ((DirSink.new l.toPath).sessionK E.cwd calls).killed fs s := by
    rcases hs with hs | ⟨st, fs3, h3, hs⟩
    · exact .inl hs
    have h3' : DirSink.enter E.cwd (DirSink.new l.toPath) fs = (.ok st, fs3) := h3
    rw [g1] at h3'
    cases h3'
    refine .inr ⟨_, _, h3, ?_⟩
    rcases hs with hs | ⟨r, fs3, h5, hs⟩
    · exact .inl (c5 s hs)
    · rw [joinDirEachK_run, c1] at h5
      cases h5
      refine .inr ⟨(s', none), fs'', by rw [putsK_run]; exact c2, ?_⟩
      rcases hs with hs | ⟨u, fs3, h6, hs⟩
      · exact .inl hs
      · refine .inr ⟨u, fs3, h6, ?_⟩
        cases e <;> exact hs
  obtain ⟨-, whole, -, -, hkilled⟩ := C92_killed (cwd := E.cwd) (P := l.toPath) fs ht hname hempty' calls (by
    intro x hx
    obtain ⟨M, hM, hv⟩ := c3 x hx
    exact dirInput_names hin hM (by rw [hv]; simp))
  obtain ⟨t1, t2, t3⟩ := hkilled s hsession
  rw [hres] at t2 t3
  rcases t3 with t3 | ⟨done, rest, hputs, L⟩
  · exact ⟨t1, fun q hq _ _ hne => absurd (t3 q hq) hne, fun h => absurd (t3 _ (List.prefix_append _ _)) h,
      fun h => absurd (t3 _ (List.prefix_append _ _)) h, t2⟩
  · have hdone : ∀ k b, lastPut done k = some b → ∃ M ∈ Ms, M k = some b := fun k b h =>
      c3 (k, b) (by rw [hputs]; exact List.mem_append_left _ (DirToStore.lastPut_mem h))
    have hsome : ∀ k b, (k, b) ∈ done → ∃ b', lastPut done k = some b' := fun k b h =>
      Option.isSome_iff_exists.1 ((lastPut_isSome _ _).2 (List.mem_map.2 ⟨_, h, rfl⟩))
    refine ⟨t1, fun q hq hq' hi hne => ?_, fun hindex q hq hq' hi hne => ?_, fun hindex hd M hM k b hk => ?_, t2⟩
    · rcases L.nothingElse q hq hne with e | e | ⟨k, b, hk, rfl⟩
      · exact absurd e hq'
      · exact absurd e hi
      · by_cases hcur : ∃ v, rest.head? = some (k, v)
        · obtain ⟨v, hv⟩ := hcur
          have hv' := c3 (k, v) (by rw [hputs]; exact List.mem_append_right _ (List.mem_of_mem_head? hv))
          rcases L.current k v hv with e | ⟨b', more, e1, e2⟩
          · cases hlp : lastPut done k with
            | none => rw [hlp] at e; exact absurd e hne
            | some b' =>
              rw [hlp] at e
              exact ⟨k, b', .empty, rfl, e, by rw [ByteArray.append_empty]; exact hdone k b' hlp⟩
          · exact ⟨k, b', more, rfl, e2, e1 ▸ hv'⟩
        · have hkd : (k, b) ∈ done := by
            rcases List.mem_append.1 hk with h | h
            · exact h
            · exfalso
              cases rest with
              | nil => simp at h
              | cons x xs => simp at h; exact hcur ⟨b, by simp [h]⟩
          obtain ⟨b', hb'⟩ := hsome k b hkd
          exact ⟨k, b', .empty, rfl, L.values k b' hb' fun v hv => hcur ⟨v, hv⟩, by rw [ByteArray.append_empty]; exact hdone k b' hb'⟩
    · obtain ⟨rfl, -⟩ := L.index.resolve_left hindex
      rcases L.nothingElse q hq hne with e | e | ⟨k, b, hk, rfl⟩
      · exact absurd e hq'
      · exact absurd e hi
      · obtain ⟨b', hb'⟩ := hsome k b (by simpa using hk)
        exact ⟨k, b', rfl, L.values k b' hb' (by simp), hdone k b' hb'⟩
    · obtain ⟨rfl, -⟩ := L.index.resolve_left hindex
      rw [List.append_nil] at hputs
      have hmem := c4 hd (by simp) M hM k (by rw [hk]; simp)
      rw [hputs] at hmem
      obtain ⟨⟨k', v⟩, hx, rfl⟩ := List.mem_map.1 hmem
      obtain ⟨b', hb'⟩ := hsome k' v hx
      obtain ⟨M', hM', hv⟩ := hdone k' b' hb'
      rw [disjoint_unique hd hM hM' hk hv]
      exact L.values k' b' hb' (by simp)

/-- Joining into a directory, killed any number of times at any point: nothing outside of it has changed, and what is in it are beginnings of values
that belong there, all of them whole (and none missing, if no key occurs twice) if there is any of the index.  If the directory is still empty, the next run that is not killed
does what the first would have done; otherwise every further run raises and changes nothing. -/
theorem C102_join_directory (E : FromParams.Env) (hcwd : E.cwd.Normal) (hroot : E.cwd.root ≠ []) (p : Params) (l : Loc)
    (hp : DirToStore.Output E p "file-map".toList l) (hl : l ≠ []) (hsafe : ∀ w ∈ l, TextSafe w) (fs : FS) (ht : fs.Tree) (paths : List PyPath)
    (hpaths : p.pathListFromFile E.cwd "input_store_list_file".toList none fs = (.ok paths, fs)) (Ms : List (Str → Option Bytes))
    (hin : List.Forall₂ (DirInput E.cwd fs) paths Ms) (hempty : fs.EmptyDir l) (s : FS) (hk : KilledRuns (joinMainK E order p) fs s) :
    JoinTorn fs l Ms s ∧
    (s.EmptyDir l → ∃ s' r U, joinMain E order p s = (r, s') ∧ (Disjoint' Ms → r = .ok () ∧ UnionOf Ms U) ∧
      (¬ Disjoint' Ms → r = .error .runtimeError ∧ ∀ k v, U k = some v → ∃ M ∈ Ms, M k = some v) ∧
      (∀ q, ¬ l <+: q → s'.node q = fs.node q) ∧
      ∃ m, docMapEntries E.cwd (Loc.toPath (l ++ ["_index".toList])) s' = (.ok m, s') ∧
        Zip.Serves (docMapSource readBytesFile E.cwd m s') (fun _ => True) U) ∧
    (¬ s.EmptyDir l → joinMain E order p s = (.error (if s.isDir l then .ioError else .parameterError), s)) := by
  have hwf : p.WF := by obtain ⟨_, _, hT, -⟩ := hp.typed; exact hT.wf
  have stable : ∀ s, JoinTorn fs l Ms s → p.pathListFromFile E.cwd "input_store_list_file".toList none s = (.ok paths, s) := by
    intro s h
    refine pathList_same hpaths fun q hq => ?_
    have hq' := ((Params.pathParam_spec E.cwd hwf _).1 q).1 hq
    by_cases hc : ∃ c, fs.node q = some (.file c)
    · obtain ⟨c, hc⟩ := hc
      exact h.others q (store_outside ht hempty hc)
    · exfalso
      generalize "input_store_list_file".toList = param at hq hq' hpaths
      obtain ⟨t, ht, -⟩ := hq'
      have hx := Params.privateGet_of_found hwf ht
      have hf : fs.isFile q = false := by rw [← Bool.not_eq_true, FS.isFile_iff]; exact hc
      simp only [Params.pathListFromFile, Prog.bind_apply, Prog.ofRes_apply, hx, Params.existingFile, hq, Prog.get_apply, hf] at hpaths
      cases he : fs.exists' q <;> simp [he, Prog.raise_apply] at hpaths
  have inputs : ∀ s, JoinTorn fs l Ms s → List.Forall₂ (DirInput E.cwd s) paths Ms := by
    intro s h
    refine hin.imp fun path M hM => ⟨hM.stored.congr (h.others _ ?_), hM.names⟩
    obtain ⟨a, ha, -⟩ := id hM.stored
    exact store_outside ht hempty ha
  have torn : JoinTorn fs l Ms s := by
    induction hk with
    | none => exact .start ht hempty ht fun _ => rfl
    | @again s s' _ hk ih =>
      by_cases he : s.EmptyDir l
      · have h := join_killed_once hp hl ih.tree (stable s ih) (inputs s ih) he hk
        exact ⟨h.tree, h.content, h.whole, h.all, fun q hq => by rw [h.others q hq, ih.others q hq]⟩
      · obtain ⟨g1, g2⟩ := join_killed_not_empty hp ih.tree (stable s ih) he hk
        exact ih.congr g1 g2
  refine ⟨torn, fun he => ?_, fun he => C64_join_not_empty E p l hp s torn.tree paths (stable s torn) he⟩
  obtain ⟨s', r, U, a1, a2, a3, -, a4, a5⟩ := C64_join_directory (order := order) E hcwd hroot p l hp hl hsafe s torn.tree paths (stable s torn) Ms (inputs s torn) he
  exact ⟨s', r, U, a1, a2, a3, fun q hq => by rw [a4 q hq, torn.others q hq], a5⟩

/-- A run that is killed right after it has begun to write can leave no output directory at all; then every further run raises `ParameterError`. -/
theorem C102_join_gone_counterexample (E : FromParams.Env) (p : Params) (l : Loc) (hp : DirToStore.Output E p "file-map".toList l) (hl : l ≠ []) (fs : FS)
    (ht : fs.Tree) (paths : List PyPath) (hpaths : ∀ s : FS, (∀ q, ¬ l <+: q → s.node q = fs.node q) →
      p.pathListFromFile E.cwd "input_store_list_file".toList none s = (.ok paths, s)) (hempty : fs.EmptyDir l) :
    ∃ s, KilledRuns (joinMainK E order p) fs s ∧ s.node l = none ∧ joinMain E order p s = (.error .parameterError, s) := by
  obtain ⟨ns, mods, hT, hpath⟩ := hp.typed
  obtain ⟨hres, n, hn, hn'⟩ := DirToStore.place_spec hpath hl
  have e3 := ((FromParams.C74_directory_sink E _ (sane_of_join hp.py hp.globals p paths) p _ ns mods (FromParams.typed_mono hT _) fs).1 l hpath hempty.1).2
  obtain ⟨s, a1, a2, a3⟩ := (rmdir_spec ht l).1 hl hempty
  have hrm : DirSink.rmdirPath E.cwd l.toPath fs = (.ok (), s) := by
    unfold DirSink.rmdirPath
    rw [if_neg, hres]
    · exact a1
    · rintro (h | h)
      · exact hl h
      · rw [hn] at h
        exact hn' (Option.some.inj h)
  have hgone : s.node l = none := a2.1 l (List.prefix_refl _)
  refine ⟨s, .again .none (.inr ⟨paths, fs, hpaths fs fun _ _ => rfl, .inr ⟨_, fs, e3, .inl (.inl (.inr ?_))⟩⟩), hgone, ?_⟩
  · show s = (DirSink.rmdirPath E.cwd l.toPath fs).2
    rw [hrm]
  · rw [C64_join_not_empty E p l hp s a3 paths (hpaths s fun q hq => a2.2 q hq) (fun h => by rw [h.1] at hgone; cases hgone),
      if_neg (by rw [FS.isDir_iff, hgone]; simp)]

/-! ## Examples -/

namespace CrashJoinExample
open SplitExample (home)
open FromParamsExample (env)
open StoreScriptsExample (world world_dir joinPar join_output)

example : True := by
  obtain ⟨S, -, hin⟩ := world_dir
  obtain ⟨-, -, -, -, h4, h5⟩ := world
  have hcwd : env.cwd.Normal := PyPath.parse_normal "/home".toList
  have hsafe : ∀ w ∈ PyPath.resolve home (PyPath.parse "d".toList), TextSafe w := by
    rw [show PyPath.resolve home (PyPath.parse "d".toList) = ["home".toList, "d".toList] by decide +kernel]; unfold TextSafe; decide
  have hempty : StoreScriptsExample.fs.EmptyDir ["home".toList, "d".toList] := ⟨(h5 _ (by decide)).trans rfl, fun n => (h5 _ (by simp)).trans rfl⟩
  obtain ⟨s, g1, g2, g3⟩ := C102_join_gone_counterexample (order := id) env _ _ (join_output "file-map" "d" ["in.zip"]) (by decide) StoreScriptsExample.fs h4 _
    (fun _ _ => rfl) hempty
  have := C102_join_directory (order := id) env hcwd (by decide) _ _ (join_output "file-map" "d" ["in.zip"]) (by decide) hsafe StoreScriptsExample.fs h4 _
    rfl [S] (.cons hin .nil) hempty s g1
  have := C102_join_directory (order := id) env hcwd (by decide) _ _ (join_output "file-map" "d" ["in.zip", "in.zip"]) (by decide) hsafe StoreScriptsExample.fs h4 _
    rfl [S, S] (.cons hin (.cons hin .nil)) hempty _ .none
  have := C64_join_not_empty (order := id) env _ _ (join_output "file-map" "none" ["in.zip"]) StoreScriptsExample.fs h4 _ rfl (by
    rintro ⟨h, -⟩
    have : PyPath.resolve home (PyPath.parse "none".toList) = ["home".toList, "none".toList] := by decide +kernel
    rw [this, h5 _ (by decide)] at h
    have : StoreScriptsExample.fs0.node ["home".toList, "none".toList] = none := rfl
    rw [this] at h; cases h)
  trivial

end CrashJoinExample

end Vista
