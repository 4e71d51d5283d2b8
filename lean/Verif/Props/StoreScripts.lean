import Verif.Model.StoreScripts
import Verif.Props.JoinStores
import Verif.Props.DirToStore
import Verif.Props.DocMapParams
import Verif.Spec.StoreScripts

/-!
# C64: joining into a directory; C101: the scripts on stores, from their parameters
-/
set_option linter.unusedSectionVars false
set_option linter.unusedSimpArgs false
namespace Vista
open Params (PathIs Present)

variable {order : List Str → List Str} {cwd : PyPath}

/-! ## Zip sources that are open while files are written -/

theorem openZipBytes_spec {fs : FS} {l : Loc} {M : Str → Option Bytes} (h : Stores fs l M) :
    ∃ o, openZipBytes l fs = (.ok o, fs) ∧ ServesWhile o.ask (fun q => q = l) fs M := by
  obtain ⟨src, a1, a2⟩ := zipBytesSource_spec h
  obtain ⟨a, h1, -⟩ := h
  refine ⟨⟨l, a, src⟩, by simp only [openZipBytes, Prog.bind_apply, a1, readFile, h1, Prog.pure_apply], fun fs' hk => ?_⟩
  simp only [OpenZip.ask, hk l rfl, h1, if_true]
  exact a2

/-! ## Joining into a directory -/

theorem puts_append {s s1 : DirSink} {c1 c2 : List (Str × Bytes)} {fs fs1 : FS} (h : DirSink.puts cwd s c1 fs = (.ok (s1, none), fs1)) :
    DirSink.puts cwd s (c1 ++ c2) fs = DirSink.puts cwd s1 c2 fs1 := by
  induction c1 generalizing s fs with
  | nil =>
    simp only [DirSink.puts, DirSink.putsAt, Prod.mk.injEq, Except.ok.injEq, and_true] at h
    rw [h.1, h.2]; rfl
  | cons e c1 ih =>
    obtain ⟨k, b⟩ := e
    unfold DirSink.puts at h ⊢
    rw [List.cons_append, DirSink.putsAt]
    rw [DirSink.putsAt] at h
    rcases hp : s.put cwd k b fs with ⟨r, f⟩
    rw [hp] at h
    cases r with
    | ok s' => exact ih h
    | error e => simp at h

theorem put_of_puts {s s1 : DirSink} {k : Str} {b : Bytes} {fs fs1 : FS} (h : DirSink.puts cwd s [(k, b)] fs = (.ok (s1, none), fs1)) :
    s.put cwd k b fs = (.ok s1, fs1) := by
  unfold DirSink.puts DirSink.putsAt at h
  rcases hp : s.put cwd k b fs with ⟨r, g⟩
  rw [hp] at h
  cases r with
  | ok s' =>
    simp only [DirSink.putsAt, Prod.mk.injEq, Except.ok.injEq, and_true] at h
    rw [h.1, h.2]
  | error e => simp at h

/-- What the loops have done: the same as these calls of `put`, all with entries of `M`. -/
structure DirCalls (cwd : PyPath) (P : PyPath) (fs : FS) (done : List (Str × Bytes)) (s : DirSink) (fs' : FS) (M : Str → Bytes → Prop)
    (calls : List (Str × Bytes)) (s' : DirSink) (fs'' : FS) : Prop where
  puts : DirSink.puts cwd s calls fs' = (.ok (s', none), fs'')
  state : DirState cwd P fs (done ++ calls) s' fs''
  nodup : ((done ++ calls).map (·.1)).Nodup
  sound : ∀ e ∈ calls, M e.1 e.2

theorem joinDirKeys_spec {P : PyPath} {fs : FS} (hempty : fs.EmptyDir (PyPath.resolve cwd P)) {src : FS → KVSource Bytes} {M : Str → Option Bytes}
    (hs : ServesWhile src (fun q => ¬ PyPath.resolve cwd P <+: q) fs M) (ks : List Str) (hnd : ks.Nodup)
    (hks : ∀ k ∈ ks, FileKey k ∧ (M k).isSome = true) (done : List (Str × Bytes)) (s : DirSink) (fs' : FS) (written : List Str)
    (hst : DirState cwd P fs done s fs') (hdone : (done.map (·.1)).Nodup) (hw : ∀ k, k ∈ written ↔ k ∈ done.map (·.1)) :
    ((∀ k ∈ ks, k ∉ done.map (·.1)) → ∃ calls s' fs'', joinDirKeys cwd src ks s written fs' = ((s', written ++ ks, none), fs'') ∧
      DirCalls cwd P fs done s fs' (fun k b => M k = some b) calls s' fs'' ∧ calls.map (·.1) = ks) ∧
    ((¬ ∀ k ∈ ks, k ∉ done.map (·.1)) → ∃ calls s' w' fs'', joinDirKeys cwd src ks s written fs' = ((s', w', some .runtimeError), fs'') ∧
      DirCalls cwd P fs done s fs' (fun k b => M k = some b) calls s' fs'') := by
  induction ks generalizing done s fs' written with
  | nil =>
    refine ⟨fun _ => ⟨[], s, fs', by simp [joinDirKeys], ⟨rfl, by simpa using hst, by simpa using hdone, by simp⟩, rfl⟩, fun h => by simp at h⟩
  | cons k ks ih =>
    obtain ⟨hk, hm⟩ := hks k (by simp)
    obtain ⟨v, hv⟩ := Option.isSome_iff_exists.1 hm
    simp only [List.nodup_cons] at hnd
    by_cases hfree : k ∈ done.map (·.1)
    · refine ⟨fun h => absurd hfree (h k (by simp)), fun _ => ⟨[], s, written, fs', ?_, ⟨rfl, by simpa using hst, by simpa using hdone, by simp⟩⟩⟩
      simp only [joinDirKeys, (hw k).2 hfree, if_true]
    · obtain ⟨s1, f1, b1, b2⟩ := dirSink_puts fs hempty [(k, v)] (by simpa using hk) done s fs' hst
      have hput := put_of_puts b1
      have hserve := hs fs' fun q hq => hst.others q fun k' _ h => hq (h ▸ List.prefix_append _ _)
      have hnw : k ∉ written := fun h => hfree ((hw k).1 h)
      have hstep : joinDirKeys cwd src (k :: ks) s written fs' = joinDirKeys cwd src ks s1 (written ++ [k]) f1 := by
        simp only [joinDirKeys, hnw, if_false, (hserve.present k v hv).1, hput]
      have hdone1 : ((done ++ [(k, v)]).map (·.1)).Nodup := by
        rw [List.map_append, List.nodup_append]
        refine ⟨hdone, by simp, ?_⟩
        rintro a ha b hb rfl
        simp only [List.map_cons, List.map_nil, List.mem_singleton] at hb
        exact hfree (hb ▸ ha)
      obtain ⟨i1, i2⟩ := ih hnd.2 (fun k' hk' => hks k' (by simp [hk'])) (done ++ [(k, v)]) s1 f1 (written ++ [k]) b2 hdone1 (by
        intro k'
        simp only [List.mem_append, hw, List.map_append, List.map_cons, List.map_nil])
      have grow : ∀ calls s' fs'', DirCalls cwd P fs (done ++ [(k, v)]) s1 f1 (fun k b => M k = some b) calls s' fs'' →
          DirCalls cwd P fs done s fs' (fun k b => M k = some b) ((k, v) :: calls) s' fs'' := by
        intro calls s' fs'' h
        refine ⟨?_, by simpa using h.state, by simpa using h.nodup, ?_⟩
        · have := puts_append (c2 := calls) b1
          rw [List.singleton_append] at this
          rw [this, h.puts]
        · intro e he
          rcases List.mem_cons.1 he with rfl | he
          · exact hv
          · exact h.sound e he
      have hrest : (∀ k' ∈ k :: ks, k' ∉ done.map (·.1)) ↔ ∀ k' ∈ ks, k' ∉ (done ++ [(k, v)]).map (·.1) := by
        simp only [List.map_append, List.map_cons, List.map_nil, List.mem_append, List.mem_singleton, List.mem_cons, forall_eq_or_imp, not_or]
        constructor
        · rintro ⟨-, h⟩ k' hk'
          exact ⟨h k' hk', fun he => by rw [he] at hk'; exact hnd.1 hk', by simp⟩
        · intro h
          exact ⟨hfree, fun k' hk' => (h k' hk').1⟩
      constructor
      · intro hall
        obtain ⟨calls, s', fs'', c1, c2, c3⟩ := i1 (hrest.1 hall)
        exact ⟨(k, v) :: calls, s', fs'', by rw [hstep, c1]; simp, grow _ _ _ c2, by simp [c3]⟩
      · intro hno
        obtain ⟨calls, s', w', fs'', c1, c2⟩ := i2 fun h => hno (hrest.2 h)
        exact ⟨(k, v) :: calls, s', w', fs'', by rw [hstep, c1], grow _ _ _ c2⟩

/-- The input is a store with these entries; the keys can be file names. -/
structure DirInput (cwd : PyPath) (fs : FS) (path : PyPath) (M : Str → Option Bytes) : Prop where
  stored : Stores fs (PyPath.resolve cwd path) M
  names : ∀ k, M k ≠ none → FileKey k ∧ k ≠ "_index".toList

theorem joinDirEach_spec {P : PyPath} {fs : FS} (ht : fs.Tree) (hempty : fs.EmptyDir (PyPath.resolve cwd P)) {paths : List PyPath} {Ms : List (Str → Option Bytes)}
    (hin : List.Forall₂ (DirInput cwd fs) paths Ms) (done : List (Str × Bytes)) (s : DirSink) (fs' : FS) (written : List Str)
    (hst : DirState cwd P fs done s fs') (hdone : (done.map (·.1)).Nodup) (hw : ∀ k, k ∈ written ↔ k ∈ done.map (·.1)) :
    (Disjoint' Ms → (∀ M ∈ Ms, ∀ k ∈ done.map (·.1), M k = none) → ∃ calls s' fs'', joinDirEach cwd paths s written fs' = ((s', none), fs'') ∧
      DirCalls cwd P fs done s fs' (fun k b => ∃ M ∈ Ms, M k = some b) calls s' fs'' ∧ ∀ M ∈ Ms, ∀ k, M k ≠ none → k ∈ calls.map (·.1)) ∧
    ((¬ Disjoint' Ms ∨ ¬ ∀ M ∈ Ms, ∀ k ∈ done.map (·.1), M k = none) → ∃ calls s' fs'',
      joinDirEach cwd paths s written fs' = ((s', some .runtimeError), fs'') ∧
      DirCalls cwd P fs done s fs' (fun k b => ∃ M ∈ Ms, M k = some b) calls s' fs'') := by
  induction hin generalizing done s fs' written with
  | nil =>
    refine ⟨fun _ _ => ⟨[], s, fs', rfl, ⟨rfl, by simpa using hst, by simpa using hdone, by simp⟩, by simp⟩, fun h => ?_⟩
    rcases h with h | h
    · exact absurd (by simp [Disjoint']) h
    · simp at h
  | @cons path M paths Ms h1 h2 ih =>
    obtain ⟨a, ha, -⟩ := id h1.stored
    have hout : ¬ PyPath.resolve cwd P <+: PyPath.resolve cwd path := by
      intro hpre
      obtain ⟨he1, he2⟩ := hempty
      by_cases heq : PyPath.resolve cwd path = PyPath.resolve cwd P
      · rw [heq, he1] at ha; simp at ha
      · obtain ⟨t, ht'⟩ := hpre
        cases t with
        | nil => rw [List.append_nil] at ht'; exact heq ht'.symm
        | cons x t =>
          have hchild : PyPath.resolve cwd P ++ [x] <+: PyPath.resolve cwd path := ⟨t, by rw [← ht']; simp⟩
          by_cases hc : PyPath.resolve cwd P ++ [x] = PyPath.resolve cwd path
          · rw [← hc, he2 x] at ha; simp at ha
          · have := ht.dir_of_prefix hchild hc (by rw [ha]; simp)
            rw [he2 x] at this; simp at this
    have hsame : fs'.node (PyPath.resolve cwd path) = fs.node (PyPath.resolve cwd path) :=
      hst.others _ fun k' _ h => hout (h ▸ List.prefix_append _ _)
    obtain ⟨o, o1, o2⟩ := openZipBytes_spec (h1.stored.congr hsame)
    have hserve : ServesWhile o.ask (fun q => ¬ PyPath.resolve cwd P <+: q) fs M := fun f hf => o2 f fun q hq => by
      subst hq
      rw [hf _ hout, hsame]
    obtain ⟨ks, b1, b2, b3⟩ := (o2 fs' fun _ _ => rfl).keys
    have hks : ∀ k ∈ ks, FileKey k ∧ (M k).isSome = true := fun k hk =>
      ⟨(h1.names k (Option.isSome_iff_ne_none.1 ((b3 k).1 hk))).1, (b3 k).1 hk⟩
    obtain ⟨c1, c2⟩ := joinDirKeys_spec hempty hserve ks b2 hks done s fs' written hst hdone hw
    have hfree : (∀ k ∈ ks, k ∉ done.map (·.1)) ↔ ∀ k ∈ done.map (·.1), M k = none := by
      constructor
      · intro h k hk
        by_contra hm
        exact h k ((b3 k).2 (Option.isSome_iff_ne_none.2 hm)) hk
      · intro h k hk hk'
        exact (Option.isSome_iff_ne_none.1 ((b3 k).1 hk)) (h k hk')
    by_cases hd : ∀ k ∈ done.map (·.1), M k = none
    · obtain ⟨calls, s1, f1, d1, d2, d3⟩ := c1 (hfree.2 hd)
      have hstep : joinDirEach cwd (path :: paths) s written fs' = joinDirEach cwd paths s1 (written ++ ks) f1 := by
        simp only [joinDirEach, o1, b1, d1]
      have hin1 : ∀ k, k ∈ ks ↔ M k ≠ none := fun k => by rw [b3, Option.isSome_iff_ne_none]
      obtain ⟨i1, i2⟩ := ih (done ++ calls) s1 f1 (written ++ ks) d2.state d2.nodup (by
        intro k
        rw [List.map_append, List.mem_append, List.mem_append, d3, hw])
      have grow : ∀ calls' s' fs'', DirCalls cwd P fs (done ++ calls) s1 f1 (fun k b => ∃ M' ∈ Ms, M' k = some b) calls' s' fs'' →
          DirCalls cwd P fs done s fs' (fun k b => ∃ M' ∈ M :: Ms, M' k = some b) (calls ++ calls') s' fs'' := by
        intro calls' s' fs'' h
        refine ⟨by rw [puts_append d2.puts, h.puts], by simpa using h.state, by simpa using h.nodup, fun e he => ?_⟩
        rcases List.mem_append.1 he with he | he
        · exact ⟨M, by simp, d2.sound e he⟩
        · obtain ⟨M', g1, g2⟩ := h.sound e he
          exact ⟨M', by simp [g1], g2⟩
      have hsplit : (∀ M' ∈ Ms, ∀ k ∈ (done ++ calls).map (·.1), M' k = none) ↔
          (∀ M' ∈ Ms, ∀ k ∈ done.map (·.1), M' k = none) ∧ ∀ M' ∈ Ms, ∀ k, M k ≠ none → M' k = none := by
        simp only [List.map_append, List.mem_append, d3, hin1]
        constructor
        · intro h
          exact ⟨fun M' hM' k hk => h M' hM' k (.inl hk), fun M' hM' k hk => h M' hM' k (.inr hk)⟩
        · rintro ⟨g1, g2⟩ M' hM' k (hk | hk)
          · exact g1 M' hM' k hk
          · exact g2 M' hM' k hk
      constructor
      · intro hdis hall
        simp only [Disjoint', List.pairwise_cons] at hdis
        obtain ⟨calls', s', fs'', e1, e2, e3⟩ := i1 hdis.2 (hsplit.2 ⟨fun M' hM' => hall M' (by simp [hM']), hdis.1⟩)
        refine ⟨calls ++ calls', s', fs'', by rw [hstep, e1], grow _ _ _ e2, fun M' hM' k hk => ?_⟩
        rw [List.map_append, List.mem_append]
        rcases List.mem_cons.1 hM' with rfl | hM'
        · rw [d3]; exact .inl ((hin1 k).2 hk)
        · exact .inr (e3 M' hM' k hk)
      · intro hbad
        obtain ⟨calls', s', fs'', e1, e2⟩ := i2 (by
          by_contra hno
          simp only [not_or, not_not] at hno
          obtain ⟨g1, g2⟩ := hsplit.1 hno.2
          rcases hbad with hbad | hbad
          · exact hbad (by simp only [Disjoint', List.pairwise_cons]; exact ⟨g2, hno.1⟩)
          · refine hbad fun M' hM' k hk => ?_
            rcases List.mem_cons.1 hM' with rfl | hM'
            · exact hd k hk
            · exact g1 M' hM' k hk)
        exact ⟨calls ++ calls', s', fs'', by rw [hstep, e1], grow _ _ _ e2⟩
    · obtain ⟨calls, s1, w1, f1, d1, d2⟩ := c2 fun h => hd (hfree.1 h)
      have hstep : joinDirEach cwd (path :: paths) s written fs' = ((s1, some .runtimeError), f1) := by
        simp only [joinDirEach, o1, b1, d1]
      have hcalls : DirCalls cwd P fs done s fs' (fun k b => ∃ M' ∈ M :: Ms, M' k = some b) calls s1 f1 :=
        ⟨d2.puts, d2.state, d2.nodup, fun e he => ⟨M, by simp, d2.sound e he⟩⟩
      exact ⟨fun _ h => absurd (h M (by simp)) hd, fun _ => ⟨calls, s1, f1, hstep, hcalls⟩⟩

theorem lastPut_of_nodup {V : Type} {puts : List (Str × V)} (h : (puts.map (·.1)).Nodup) {k : Str} {b : V} (hm : (k, b) ∈ puts) : lastPut puts k = some b := by
  have hs : (lastPut puts k).isSome = true := (lastPut_isSome puts k).2 (List.mem_map.2 ⟨_, hm, rfl⟩)
  obtain ⟨b', hb'⟩ := Option.isSome_iff_exists.1 hs
  have hm' := DirToStore.lastPut_mem hb'
  have : b' = b := by
    have e1 := (dictGet_iff h k b').2 hm'
    have e2 := (dictGet_iff h k b).2 hm
    rw [e1] at e2
    exact Option.some.inj e2
  rw [hb', this]

/-- Joining into an empty directory: if no key occurs in two inputs, a source made of the index in the directory serves exactly the entries of
the inputs; otherwise the script raises `RuntimeError`, and the index serves some of them.  Nothing changes outside the directory. -/
theorem C64_join_directory (E : FromParams.Env) (hcwd : E.cwd.Normal) (hroot : E.cwd.root ≠ []) (p : Params) (l : Loc)
    (hp : DirToStore.Output E p "file-map".toList l) (hl : l ≠ []) (hsafe : ∀ w ∈ l, TextSafe w) (fs : FS) (ht : fs.Tree) (paths : List PyPath)
    (hpaths : p.pathListFromFile E.cwd "input_store_list_file".toList none fs = (.ok paths, fs)) (Ms : List (Str → Option Bytes))
    (hin : List.Forall₂ (DirInput E.cwd fs) paths Ms) (hempty : fs.EmptyDir l) :
    ∃ fs' r U, joinMain E order p fs = (r, fs') ∧ (Disjoint' Ms → r = .ok () ∧ UnionOf Ms U) ∧
      (¬ Disjoint' Ms → r = .error .runtimeError ∧ ∀ k v, U k = some v → ∃ M ∈ Ms, M k = some v) ∧
      fs'.Tree ∧ (∀ q, ¬ l <+: q → fs'.node q = fs.node q) ∧
      ∃ m, docMapEntries E.cwd (Loc.toPath (l ++ ["_index".toList])) fs' = (.ok m, fs') ∧
        Zip.Serves (docMapSource readBytesFile E.cwd m fs') (fun _ => True) U := by
  obtain ⟨ns, mods, hT, hpath⟩ := hp.typed
  obtain ⟨s0, -, hl0⟩ := id hpath
  obtain ⟨r1, r2⟩ := DirToStore.resolve_parts E.cwd (PyPath.parse s0)
  rw [← hl0] at r1 r2
  have hnormal : l.toPath.Normal := by
    refine ⟨.inr (.inl rfl), fun w hw => ?_⟩
    exact (absolute_normal hcwd (PyPath.parse_normal s0)).parts w (r1 w hw)
  have hres : PyPath.resolve E.cwd l.toPath = l := resolve_toPath E.cwd r2
  have hindex : (l.toPath.div (PyPath.parse "_index".toList)) = Loc.toPath (l ++ ["_index".toList]) := by
    rw [div_fileKey index_key]; rfl
  have hname : ∃ n, l.toPath.parts.getLast? = some n ∧ n ≠ ['.', '.'] := by
    rcases nil_or_snoc l with h | ⟨r, n, rfl⟩
    · exact absurd h hl
    · exact ⟨n, by simp [Loc.toPath], fun h => r2 (by rw [h]; simp)⟩
  have hempty' : fs.EmptyDir (PyPath.resolve E.cwd l.toPath) := by rw [hres]; exact hempty
  obtain ⟨fs2, e1, e2⟩ := dirSink_enter (cwd := E.cwd) fs ht hname hempty'
  have hsink := ((FromParams.C74_directory_sink E _ (sane_of_join hp.py hp.globals p paths) p _ ns mods (FromParams.typed_mono hT _) fs).1 l hpath hempty.1).2
  obtain ⟨j1, j2⟩ := joinDirEach_spec ht hempty' hin [] _ fs2 [] e2 (by simp) (by simp)
  have hkey : ∀ k, (∃ M ∈ Ms, M k ≠ none) → FileKey k ∧ k ≠ "_index".toList := by
    intro k
    clear j1 j2 hpaths hsink
    induction hin with
    | nil => simp
    | cons h1 h2 ih =>
      rintro ⟨M', hM', hk⟩
      rcases List.mem_cons.1 hM' with rfl | hM'
      · exact h1.names k hk
      · exact ih ⟨M', hM', hk⟩
  -- what comes after the loops
  have finish : ∀ calls s' fs'' e, joinDirEach E.cwd paths (DirSink.new l.toPath) [] fs2 = ((s', e), fs'') →
      DirCalls E.cwd l.toPath fs [] (DirSink.new l.toPath) fs2 (fun k b => ∃ M ∈ Ms, M k = some b) calls s' fs'' →
      ∃ fs', joinMain E order p fs = (raised e, fs') ∧ fs'.Tree ∧ (∀ q, ¬ l <+: q → fs'.node q = fs.node q) ∧
        ∃ m, docMapEntries E.cwd (Loc.toPath (l ++ ["_index".toList])) fs' = (.ok m, fs') ∧
          Zip.Serves (docMapSource readBytesFile E.cwd m fs') (fun _ => True) (lastPut calls) := by
    intro calls s' fs'' e he hc
    obtain ⟨fs', g1, g2, g3, m, g4, g5⟩ := C62_bytes hcwd hroot hnormal (by
      intro w hw
      exact hsafe w (by simpa [PyPath.absolute, Loc.toPath] using hw)) fs ht hname hempty' calls (by
        intro x hx
        obtain ⟨M, hM, hv⟩ := hc.sound x hx
        exact hkey x.1 ⟨M, hM, by rw [hv]; simp⟩)
    rw [hres] at g3
    rw [hindex] at g4
    have hexit : s'.exit E.cwd fs'' = (.ok (), fs') := by
      simp only [DirSink.session, Prog.bind_apply, e1, hc.puts] at g1
      rcases hx : s'.exit E.cwd fs'' with ⟨r, f⟩
      rw [hx] at g1
      cases r with
      | ok u => simp only [Prog.pure_apply, Prod.mk.injEq, true_and] at g1; rw [g1]
      | error e => simp at g1
    refine ⟨fs', ?_, g2, g3, m, g4, g5⟩
    simp only [joinMain, Prog.bind_apply, hpaths, hsink, joinInto, e1, joinDirLoop, he, hexit]
    cases e <;> rfl
  by_cases hd : Disjoint' Ms
  · obtain ⟨calls, s', fs'', c1, c2, c3⟩ := j1 hd (by simp)
    obtain ⟨fs', g1, g2, g3, g4⟩ := finish calls s' fs'' none c1 c2
    refine ⟨fs', _, _, g1, fun _ => ⟨rfl, fun k v => ⟨fun h => ?_, ?_⟩⟩, fun h => absurd hd h, g2, g3, g4⟩
    · exact c2.sound _ (DirToStore.lastPut_mem h)
    · rintro ⟨M, hM, hv⟩
      have hk := c3 M hM k (by rw [hv]; simp)
      obtain ⟨⟨k', b⟩, hb, rfl⟩ := List.mem_map.1 hk
      obtain ⟨M', hM', hb'⟩ := c2.sound _ hb
      have : some b = some v := by
        simp only at hb' hv
        by_cases hMM : M' = M
        · rw [← hb', ← hv, hMM]
        · exfalso
          have key : ∀ (l : List (Str → Option Bytes)), Disjoint' l → M ∈ l → M' ∈ l → False := by
            intro l hl
            induction hl with
            | nil => intro h; cases h
            | @cons x l hx hl' ih =>
              intro hm hm'
              rcases List.mem_cons.1 hm with e | h1
              · rcases List.mem_cons.1 hm' with e' | h2
                · exact hMM (e'.trans e.symm)
                · have hz := hx M' h2 k' (by rw [← e, hv]; simp)
                  rw [hz] at hb'; simp at hb'
              · rcases List.mem_cons.1 hm' with e' | h2
                · have hz := hx M h1 k' (by rw [← e', hb']; simp)
                  rw [hz] at hv; simp at hv
                · exact ih h1 h2
          exact key Ms hd hM hM'
      rw [lastPut_of_nodup (by simpa using c2.nodup) hb, this]
  · obtain ⟨calls, s', fs'', c1, c2⟩ := j2 (.inl hd)
    obtain ⟨fs', g1, g2, g3, g4⟩ := finish calls s' fs'' _ c1 c2
    exact ⟨fs', _, _, g1, fun h => absurd h hd, fun _ => ⟨rfl, fun k v h => c2.sound _ (DirToStore.lastPut_mem h)⟩, g2, g3, g4⟩

/-! ## The sources of the scripts -/

theorem serves_documents {m : List (Str × Str)} (hnd : (m.map (·.1)).Nodup) {items : List (Str × PyPath)}
    (hm : ∀ k s, (k, s) ∈ m ↔ ∃ before q after, items = before ++ (k, q) :: after ∧ k ∉ after.map (·.1) ∧ s = q.render)
    (hnormal : ∀ k q, Documents items k q → q.Normal) {M : Str → Option Bytes} {fs : FS}
    (h1 : ∀ k q, Documents items k q → ∃ b, fs.node (PyPath.resolve cwd q) = some (.file (.data b)) ∧ M k = some b)
    (h2 : ∀ k, M k ≠ none → ∃ q, Documents items k q) : Zip.Serves (docMapSource readBytesFile cwd m fs) PlainKey M := by
  have hmem : ∀ k, k ∈ m.map (·.1) ↔ (M k).isSome = true := by
    intro k
    simp only [List.mem_map, Option.isSome_iff_ne_none]
    constructor
    · rintro ⟨⟨k', s⟩, hs, rfl⟩
      obtain ⟨b, q, a, e1, e2, -⟩ := (hm _ _).1 hs
      obtain ⟨v, -, hv⟩ := h1 _ q ⟨b, a, e1, e2⟩
      simp only at hv ⊢
      rw [hv]; simp
    · intro hk
      obtain ⟨q, b, a, e1, e2⟩ := h2 k hk
      exact ⟨(k, q.render), (hm _ _).2 ⟨b, q, a, e1, e2, rfl⟩, rfl⟩
  refine ⟨⟨m.map (·.1), rfl, hnd, hmem⟩, fun k v hv => ?_, fun k _ hk => ?_⟩
  · obtain ⟨q, b, a, e1, e2⟩ := h2 k (by rw [hv]; simp)
    have hget := (dictGet_iff hnd k q.render).2 ((hm _ _).2 ⟨b, q, a, e1, e2, rfl⟩)
    obtain ⟨w, g1, g2⟩ := h1 k q ⟨b, a, e1, e2⟩
    rw [hv, Option.some.injEq] at g2
    subst g2
    have hread : filesOf cwd fs q.render = .ok v := by
      rw [filesOf, PyPath.parse_render (hnormal k q ⟨b, a, e1, e2⟩)]
      simp only [readData, readFile, Prog.bind_apply, g1, Prog.pure_apply]
    simp [docMapSource, pathMapping, hget, readBytesFile, hread, bind, Except.bind]
  · have hget : dictGet m k = none := by
      cases hg : dictGet m k with
      | none => rfl
      | some s =>
        have := (hmem k).1 (List.mem_map.2 ⟨_, (dictGet_iff hnd k s).1 hg, rfl⟩)
        rw [hk] at this; simp at this
    simp [docMapSource, pathMapping, hget]

theorem documents_normal {ls : List Str} {items : List (Str × PyPath)}
    (h : List.Forall₂ (fun l e => ∃ a b, TwoFields l a b ∧ e = (a, PyPath.parse b)) ls items) (k : Str) (q : PyPath) (hd : Documents items k q) : q.Normal := by
  obtain ⟨b, a, rfl, -⟩ := hd
  have : ∀ e ∈ b ++ (k, q) :: a, PyPath.Normal e.2 := by
    generalize b ++ (k, q) :: a = xs at h
    intro e he
    induction h with
    | nil => cases he
    | cons h1 h2 ih =>
      rcases List.mem_cons.1 he with rfl | he
      · obtain ⟨x, y, -, rfl⟩ := h1
        exact PyPath.parse_normal y
      · exact ih he
  exact this (k, q) (by simp)

/-- Both functions that make a source of bytes from parameters give, after entering it, one that serves the entries as long as the files are
not changed. -/
theorem input_spec (w : FromParams.Which) (hw : w = .byteSource ∨ w = .byteLinearSource) {E : FromParams.Env} (hpy : FromParams.Understands E.py)
    (hg : ((FromParams.ownGlobals ++ E.rest).map (·.1)).Nodup) {p : Params} {fs : FS} {from_ : Loc → Prop} {M : Str → Option Bytes}
    (h : InputIs E p fs from_ M) :
    ∃ s, (do let o ← w.run E p "input".toList none; enterByteSource o : Prog ByteSource) fs = (.ok s, fs) ∧
      ServesWhile (ByteSource.ask E.cwd s) from_ fs M := by
  have hE : FromParams.Sane E none := ⟨hpy, hg, by simp, by simp⟩
  cases h with
  | @zip ns mods l _ hT hl hM =>
    obtain ⟨a1, a2, -⟩ := FromParams.C74_zip_bytes E none hE p _ ns mods hT fs l hl M hM
    obtain ⟨o, o1, o2⟩ := openZipBytes_spec hM
    have a : w.run E p "input".toList none fs = (.ok (.zipSource false l), fs) := by
      rcases hw with rfl | rfl
      · exact a1
      · exact a2
    exact ⟨.zip o, by simp only [Prog.bind_apply, a, enterByteSource, o1, Prog.pure_apply], o2⟩
  | @documents ns mods l t ls items _ hT hl ht hls hitems h1 h2 =>
    obtain ⟨m, a1, a2, a3⟩ := (((FromParams.C74_document_map w E none hE false p _ ns mods hT fs).1 l t ls hl ht hls).1 items hitems).1 (by
      rcases hw with rfl | rfl <;> simp)
    refine ⟨.map m, by simp only [Prog.bind_apply, a1, enterByteSource, Prog.pure_apply], fun fs' hk => ?_⟩
    refine serves_documents a2 a3 (documents_normal hitems) (fun k q hq => ?_) h2
    obtain ⟨b, e1, e2⟩ := h1 k q hq
    exact ⟨b, by rw [hk _ ⟨k, q, hq, rfl⟩]; exact e1, e2⟩

theorem present_of_found {p : Params} {name : Str} {v : PVal} {i : Int} (hf : Params.Found p name .none v) (hc : Params.CountsAs v i) :
    Present p name := by
  have hv : v ≠ .none := by rintro rfl; cases hc
  rcases hf with h | ⟨-, h, -⟩
  · exact ⟨v, hv, h⟩
  · exact absurd rfl h

/-! ## The whole scripts -/

/-- Splitting into even slices, from the parameters: exactly as described by `C63_even_split`, for the store described by the namespace `input`,
which is still there afterwards.  The input must not be among the files written. -/
theorem C101_even_split (E : FromParams.Env) (hpy : FromParams.Understands E.py) (hg : ((FromParams.ownGlobals ++ E.rest).map (·.1)).Nodup)
    (horder : ∀ l, (order l).Perm l) (shuffle : PVal → List Str → List Str) (hshuffle : ∀ s l, (shuffle s l).Perm l) (p : Params) (dir : Loc) (n : Nat)
    (seed : PVal) (hp : EvenParams E.cwd p dir n seed) (hno : ¬ Present p "explicit_split".toList) (fs : FS) (hf : EvenPlace fs dir n)
    (from_ : Loc → Prop) (M : Str → Option Bytes) (hin : InputIs E p fs from_ M) (hkeys : ∀ k, M k ≠ none → PlainKey k)
    (hapart : ∀ q, from_ q → EvenKept dir n q) :
    ∃ fs' ks sorted slice, splitScript E order shuffle p fs = (.ok (), fs') ∧ EvenAfter fs dir n fs' ∧ (∀ q, from_ q → fs'.node q = fs.node q) ∧
      (∀ j, j < n → Stores fs' (dir ++ [(toString j).toList ++ ".zip".toList]) (slice j)) ∧ EvenSlices n M slice ∧
      KeysOf M sorted ∧ sorted.Pairwise (fun a b => strLe a b = true) ∧ (seed = .none → ks = sorted) ∧ (seed ≠ .none → ks = shuffle seed sorted) ∧
      KeysOf M ks ∧ Dealt n ks M slice := by
  obtain ⟨s, hs, hserve⟩ := input_spec .byteLinearSource (.inr rfl) hpy hg hin
  obtain ⟨v, hv, hc⟩ := hp.slices
  have hmain := (C65_main (order := order) (cwd := E.cwd) _ (ByteSource.ask E.cwd) shuffle p hp.wf fs).1 s fs hs (present_of_found hv hc) hno
  obtain ⟨fs', ks, sorted, slice, a1, a2, a3⟩ := C63_even_split order horder shuffle hshuffle E.cwd (ByteSource.ask E.cwd s) M
    (fun k hk => hkeys k (Option.isSome_iff_ne_none.1 hk)) p dir n seed hp fs hf (hserve.mono hapart)
  exact ⟨fs', ks, sorted, slice, by rw [← a1]; exact hmain, a2, fun q hq => a2.others q (hapart q hq), a3⟩

/-- Splitting by lists of keys, from the parameters: exactly as described by `C65_explicit_split`. -/
theorem C101_explicit_split (E : FromParams.Env) (hpy : FromParams.Understands E.py) (hg : ((FromParams.ownGlobals ++ E.rest).map (·.1)).Nodup)
    (horder : ∀ l, (order l).Perm l) (shuffle : PVal → List Str → List Str) (p : Params) (jobs : List Job) (must : Bool)
    (hp : ExplicitParams E.cwd p jobs must) (hno : ¬ Present p "num_slices".toList) (fs : FS) (hplace : JobsPlace fs jobs)
    (hplain : ∀ job ∈ jobs, ∀ k ∈ job.wanted, PlainKey k) (from_ : Loc → Prop) (M : Str → Option Bytes) (hin : InputIs E p fs from_ M)
    (hapart : ∀ q, from_ q → ∀ job ∈ jobs, ¬ q <+: job.out) (hall : ∀ job ∈ jobs, ∀ k ∈ job.wanted, M k ≠ none) :
    ∃ fs', JobsAfter fs jobs M fs' ∧ (∀ q, from_ q → fs'.node q = fs.node q) ∧
      ((must = true → ∀ k, M k ≠ none → ∃ job ∈ jobs, k ∈ job.wanted) → splitScript E order shuffle p fs = (.ok (), fs')) ∧
      (must = true → (¬ ∀ k, M k ≠ none → ∃ job ∈ jobs, k ∈ job.wanted) → splitScript E order shuffle p fs = (.error .runtimeError, fs')) := by
  obtain ⟨s, hs, hserve⟩ := input_spec .byteLinearSource (.inr rfl) hpy hg hin
  obtain ⟨ns, hns, -⟩ := hp.jobs
  have hpres : Present p "explicit_split".toList := ⟨ns.toVal, by simp [Params.toVal], by
    rw [show splitOn '.' "explicit_split".toList = ["explicit_split".toList] by decide +kernel]; exact hns⟩
  have hmain := (C65_main (order := order) (cwd := E.cwd) _ (ByteSource.ask E.cwd) shuffle p hp.wf fs).2.1 s fs hs hpres hno
  obtain ⟨fs', a1, a2, a3⟩ := C65_explicit_split horder p jobs must hp fs (hserve.mono hapart) hplace hplain
    (fun j hj k hk => Option.isSome_iff_ne_none.2 (hall j hj k hk))
  simp only [Option.isSome_iff_ne_none] at a2 a3
  exact ⟨fs', a1, fun q hq => a1.others q (hapart q hq), fun h => by rw [← a2 h]; exact hmain, fun h h' => by rw [← a3 h h']; exact hmain⟩

/-- Splitting with both of `num_slices` and `explicit_split`, or neither: `ParameterError`; so does splitting or sampling without an input file (see `Refused`).
Nothing changes. -/
theorem C101_errors (E : FromParams.Env) (hpy : FromParams.Understands E.py) (hg : ((FromParams.ownGlobals ++ E.rest).map (·.1)).Nodup)
    (shuffle : PVal → List Str → List Str) (shuffle' : Int → List Str → Res (List Str)) (p : Params) (hwf : p.WF) (fs : FS) :
    ((Present p "num_slices".toList ↔ Present p "explicit_split".toList) → splitScript E order shuffle p fs = (.error .parameterError, fs)) ∧
    (∀ ns mods, FromParams.Typed E none p "input".toList ns "zip".toList mods →
      (¬ ∃ l, PathIs E.cwd ns "path".toList l ∧ ∃ c, fs.node l = some (.file c)) →
      ∃ e, Params.Refused ns "path".toList .none e ∧ downsampleScript E order shuffle' p fs = (.error e, fs) ∧
        (¬ (Present p "num_slices".toList ↔ Present p "explicit_split".toList) → splitScript E order shuffle p fs = (.error e, fs))) := by
  have hE : FromParams.Sane E none := ⟨hpy, hg, by simp, by simp⟩
  refine ⟨(C65_main _ _ shuffle p hwf fs).2.2.2, fun ns mods hT hno => ?_⟩
  obtain ⟨e, he, -, -, a1, a2⟩ := (FromParams.C74_zip_source E none hE p _ ns mods hT fs).2 hno
  have b1 : (do let o ← FromParams.byteLinearSource E p; enterByteSource o : Prog ByteSource) fs = (.error e, fs) := by
    simp only [Prog.bind_apply, a2]
  have b2 : (do let o ← FromParams.byteSource E p; enterByteSource o : Prog ByteSource) fs = (.error e, fs) := by
    simp only [Prog.bind_apply, a1]
  exact ⟨e, he, (C66_errors shuffle' p hwf fs).1 _ _ b2, (C65_main _ _ shuffle p hwf fs).2.2.1 _ _ b1⟩

/-- Sampling, from the parameters: the output has as many of the entries as asked for, or all if there are fewer. -/
theorem C101_downsample (E : FromParams.Env) (hpy : FromParams.Understands E.py) (hg : ((FromParams.ownGlobals ++ E.rest).map (·.1)).Nodup)
    (horder : ∀ l, (order l).Perm l) (shuffle : Int → List Str → Res (List Str)) (hshuffle : ∀ s l, ∃ l', shuffle s l = .ok l' ∧ l'.Perm l) (p : Params)
    (n : Nat) (seed : Int) (out : Loc) (hp : SampleParams E.cwd p n seed out) (fs : FS) (ht : fs.Tree) (hfree : ¬ fs.Blocked out.dropLast)
    (hdir : fs.node out ≠ some .dir) (from_ : Loc → Prop) (M : Str → Option Bytes) (hin : InputIs E p fs from_ M)
    (hkeys : ∀ k, M k ≠ none → PlainKey k) (hapart : ∀ q, from_ q → ¬ q <+: out) :
    ∃ fs' S ks, downsampleScript E order shuffle p fs = (.ok (), fs') ∧ OneAfter fs out S fs' ∧ (∀ q, from_ q → fs'.node q = fs.node q) ∧
      KeysOf M ks ∧ SampleOf M (min n ks.length) S := by
  obtain ⟨s, hs, hserve⟩ := input_spec .byteSource (.inl rfl) hpy hg hin
  obtain ⟨ks, k1, -⟩ := (hserve fs fun _ _ => rfl).keys
  obtain ⟨l', l1, l2⟩ := hshuffle seed ks
  obtain ⟨fs', S, a1, a2, a3, a4, -⟩ := C66_downsample (source := (do let o ← FromParams.byteSource E p; enterByteSource o : Prog ByteSource)) horder shuffle
    s M (fun k hk => hkeys k (Option.isSome_iff_ne_none.1 hk)) ks p n seed out hp l' l1 l2 fs ht hs k1 (hserve.mono hapart) hfree hdir
  exact ⟨fs', S, ks, a1, a2, fun q hq => a2.others q (hapart q hq), a4, a3⟩

/-- Splitting and then joining with the list of slices the split has written gives the store back. -/
theorem C101_split_and_join (E : FromParams.Env) (horder : ∀ l, (order l).Perm l) (shuffle : PVal → List Str → List Str)
    (hshuffle : ∀ s l, (shuffle s l).Perm l) (p : Params) (dir : Loc) (n : Nat) (seed : PVal) (hp : EvenParams E.cwd p dir n seed)
    (hno : ¬ Present p "explicit_split".toList) (fs : FS) (hf : EvenPlace fs dir n) (from_ : Loc → Prop) (M : Str → Option Bytes)
    (hin : InputIs E p fs from_ M) (hkeys : ∀ k, M k ≠ none → PlainKey k) (hapart : ∀ q, from_ q → EvenKept dir n q)
    (hnames : ∀ w ∈ dir, Params.PlainName w ∧ ∀ c ∈ w, isLineBreak c = false) (p' : Params) (out : Loc) (hp' : DirToStore.Output E p' "zip".toList out)
    (hlist : PathIs E.cwd p' "input_store_list_file".toList (dir ++ ["_slices.txt".toList])) (hfree : ¬ fs.Blocked out.dropLast)
    (hdir : fs.node out ≠ some .dir) (hout : ¬ dir <+: out) (hout' : ¬ out <+: dir) :
    ∃ fs1 fs2, splitScript E order shuffle p fs = (.ok (), fs1) ∧ joinMain E order p' fs1 = (.ok (), fs2) ∧ Stores fs2 out M := by
  obtain ⟨s, hs, hserve⟩ := input_spec .byteLinearSource (.inr rfl) hp'.py hp'.globals hin
  obtain ⟨v, hv, hc⟩ := hp.slices
  have hmain := (C65_main (order := order) (cwd := E.cwd) _ (ByteSource.ask E.cwd) shuffle p hp.wf fs).1 s fs hs (present_of_found hv hc) hno
  obtain ⟨fs1, fs2, a1, a2, a3⟩ := C64_join_after_split horder E shuffle hshuffle (ByteSource.ask E.cwd s) M
    (fun k hk => hkeys k (Option.isSome_iff_ne_none.1 hk)) p dir n seed hp fs hf (hserve.mono hapart) hnames p' out hp' hlist hfree hdir hout hout'
  exact ⟨fs1, fs2, by rw [← a1]; exact hmain, a2, a3⟩

/-- An input of the documented type `file-map`: the script reports success, and all slices are empty, whatever the document map and its files
hold. -/
theorem C101_file_map_counterexample (E : FromParams.Env) (hpy : FromParams.Understands E.py) (hg : ((FromParams.ownGlobals ++ E.rest).map (·.1)).Nodup)
    (horder : ∀ l, (order l).Perm l) (shuffle : PVal → List Str → List Str) (hshuffle : ∀ s l, (shuffle s l).Perm l) (p : Params) (ns : Params)
    (mods : List Str) (hT : FromParams.Typed E none p "input".toList ns "file-map".toList mods) (dir : Loc) (n : Nat) (seed : PVal)
    (hp : EvenParams E.cwd p dir n seed) (hno : ¬ Present p "explicit_split".toList) (fs : FS) (hf : EvenPlace fs dir n) :
    ∃ fs', splitScript E order shuffle p fs = (.ok (), fs') ∧
      ∀ j, j < n → Stores fs' (dir ++ [(toString j).toList ++ ".zip".toList]) fun _ => none := by
  have hE : FromParams.Sane E none := ⟨hpy, hg, by simp, by simp⟩
  obtain ⟨-, -, -, a1, -, a2⟩ := FromParams.C74_file_map_counterexample E none hE p _ ns mods hT fs
  have hs : (do let o ← FromParams.byteLinearSource E p; enterByteSource o : Prog ByteSource) fs = (.ok (.map []), fs) := by
    simp only [Prog.bind_apply, a1, enterByteSource, Prog.pure_apply]
  obtain ⟨v, hv, hc⟩ := hp.slices
  have hmain := (C65_main (order := order) (cwd := E.cwd) _ (ByteSource.ask E.cwd) shuffle p hp.wf fs).1 _ fs hs (present_of_found hv hc) hno
  obtain ⟨fs', ks, sorted, slice, b1, b2, b3, b4, -⟩ := C63_even_split order horder shuffle hshuffle E.cwd (ByteSource.ask E.cwd (.map [])) (fun _ => none)
    (by simp) p dir n seed hp fs hf (fun f _ => ⟨(a2 f).keys, (a2 f).present, fun k _ h => (a2 f).absent k trivial h⟩)
  refine ⟨fs', by rw [← b1]; exact hmain, fun j hj => ?_⟩
  have : slice j = fun _ => none := by
    funext k
    cases h : slice j k with
    | none => rfl
    | some v => exact absurd (b4.sound j k v hj h) (by simp)
  rw [← this]
  exact b3 j hj

/-- The same for sampling: success, and an empty store. -/
theorem C101_file_map_sample_counterexample (E : FromParams.Env) (hpy : FromParams.Understands E.py)
    (hg : ((FromParams.ownGlobals ++ E.rest).map (·.1)).Nodup) (horder : ∀ l, (order l).Perm l) (shuffle : Int → List Str → Res (List Str))
    (hshuffle : ∀ s l, ∃ l', shuffle s l = .ok l' ∧ l'.Perm l) (p : Params) (ns : Params) (mods : List Str)
    (hT : FromParams.Typed E none p "input".toList ns "file-map".toList mods) (n : Nat) (seed : Int) (out : Loc) (hp : SampleParams E.cwd p n seed out)
    (fs : FS) (ht : fs.Tree) (hfree : ¬ fs.Blocked out.dropLast) (hdir : fs.node out ≠ some .dir) :
    ∃ fs', downsampleScript E order shuffle p fs = (.ok (), fs') ∧ OneAfter fs out (fun _ => none) fs' := by
  have hE : FromParams.Sane E none := ⟨hpy, hg, by simp, by simp⟩
  obtain ⟨-, -, a0, -, -, a2⟩ := FromParams.C74_file_map_counterexample E none hE p _ ns mods hT fs
  have hs : (do let o ← FromParams.byteSource E p; enterByteSource o : Prog ByteSource) fs = (.ok (.map []), fs) := by
    simp only [Prog.bind_apply, a0, enterByteSource, Prog.pure_apply]
  have hserve : ServesWhile (ByteSource.ask E.cwd (.map [])) (fun q => ¬ q <+: out) fs (fun _ => none) :=
    fun f _ => ⟨(a2 f).keys, (a2 f).present, fun k _ h => (a2 f).absent k trivial h⟩
  obtain ⟨ks, k1, -⟩ := (hserve fs fun _ _ => rfl).keys
  obtain ⟨l', l1, l2⟩ := hshuffle seed ks
  obtain ⟨fs', S, b1, b2, b3, -⟩ := C66_downsample (source := (do let o ← FromParams.byteSource E p; enterByteSource o : Prog ByteSource)) horder shuffle
    (.map []) (fun _ => none) (by simp) ks p n seed out hp l' l1 l2 fs ht hs k1 hserve hfree hdir
  have : S = fun _ => none := by
    funext k
    cases h : S k with
    | none => rfl
    | some v => exact absurd (b3.1 k v h) (by simp)
  exact ⟨fs', b1, this ▸ b2⟩

/-! ## Examples -/

namespace StoreScriptsExample
open SplitExample (home memory entries serves_memory entries_plain keysAt)
open ExplicitExample (raisedBy)
open JoinExample (typed_of)
open FromParamsExample (env understands)

/-- A namespace with a type and a path. -/
def ns (name t o : String) : Params := ⟨[name.toList], [("type".toList, .str t.toList), ("path".toList, .str o.toList)]⟩
theorem ns_wf (name t o : String) : (ns name t o).WF := flat_wf _ _ (by simp only [List.map_cons, List.map_nil]; decide) (by simp [PVal.isParams, PVal.isMapping])

/-- A file with text, an empty directory, a document map. -/
def fs0 : FS := SplitExample.fs ++ [(["home".toList, "d".toList], .dir), (["home".toList, "m".toList], .file (.data (encodeUtf8 "k\t/home/f\n".toList))),
  (["home".toList, "k1".toList], .file (.data (encodeUtf8 "a\n".toList)))]
def make : Params := ⟨[], [("num_to_sample".toList, .int 3), ("output_zip_path".toList, .str "in.zip".toList)]⟩
theorem make_wf : make.WF := flat_wf _ _ (by decide) (by decide)
/-- With a zip store of three entries. -/
def fs : FS := (downsample id (fun _ l => .ok l) home (Prog.pure ()) (fun _ _ => memory entries) make fs0).2

theorem world : ∃ S, Stores fs ["home".toList, "in.zip".toList] S ∧ (∀ k, S k ≠ none → (∃ v, (dictGet entries k).map encodeUtf8 = some v)) ∧
    S "a".toList ≠ none ∧ fs.Tree ∧ ∀ q, ¬ q <+: ["home".toList, "in.zip".toList] → fs.node q = fs0.node q := by
  obtain ⟨fs', S, a1, a2, a3, a4, a5⟩ := C66_downsample (order := id) (cwd := home) (source := Prog.pure ()) (ask := fun _ _ => memory entries)
    (fun _ => .refl _) (fun _ l => .ok l) () _ entries_plain _ make 3 0 ["home".toList, "in.zip".toList] {
      wf := make_wf
      num := ⟨.int 3, (((Params.C47_positive_integer _ make_wf _ .none).1 _).1 rfl).1, .int 3⟩
      positive := by decide
      seed := ⟨.int 0, (((Params.C47_integer _ make_wf _ none (.int 0)).1 _).1 rfl).1, .int 0⟩
      out := ((Params.pathParam_spec home make_wf _).1 _).1 rfl } _ rfl (.refl _) fs0 (tree_of_check (by decide +kernel)) rfl rfl
    (fun _ _ => serves_memory entries (by decide) _) (not_blocked_of_check (by decide +kernel)) (not_dir_of_check (by decide +kernel))
  have hfs : fs = fs' := by rw [fs, a1]
  rw [hfs]
  refine ⟨S, a2.stored, fun k hk => ?_, ?_, a2.tree, a2.others⟩
  · obtain ⟨v, hv⟩ := Option.ne_none_iff_exists'.1 hk
    exact ⟨v, a3.1 k v hv⟩
  · rw [← Option.isSome_iff_ne_none, ← a5.2]; decide

theorem world_plain {S : Str → Option Bytes} (h : ∀ k, S k ≠ none → (∃ v, (dictGet entries k).map encodeUtf8 = some v)) (k : Str) (hk : S k ≠ none) : PlainKey k := by
  obtain ⟨v, hv⟩ := h k hk
  exact entries_plain k (by rw [hv]; rfl)

/-- Parameters with an input. -/
def par (t o : String) (rest : Entries) : Params := ⟨[], ("input".toList, (ns "input" t o).toVal) :: rest⟩

theorem par_wf (t o : String) (rest : Entries) (h1 : ("input".toList :: rest.map (·.1)).Nodup) (h2 : ∀ e ∈ rest, '.' ∉ e.1)
    (h3 : ∀ e ∈ rest, PVal.WF e.2) : (par t o rest).WF := by
  refine .params (by simpa [par] using h1) ?_ ?_
  · intro e he
    rcases List.mem_cons.1 he with rfl | he
    · simp
    · exact h2 e he
  · intro e he
    rcases List.mem_cons.1 he with rfl | he
    · exact ns_wf _ _ _
    · exact h3 e he

theorem par_typed {t o : String} {rest : Entries} (h : (par t o rest).WF) : FromParams.Typed env none (par t o rest) "input".toList (ns "input" t o) t.toList [] :=
  typed_of h (ns_wf _ _ _) (by decide +kernel) (.step (List.mem_cons_self ..) (.here _)) (.step (List.mem_cons_self ..) (.here _)) rfl rfl

def evenPar (t o : String) : Params := par t o [("output_dir".toList, .str "o".toList), ("num_slices".toList, .int 2)]
theorem evenPar_wf (t o : String) : (evenPar t o).WF := par_wf _ _ _ (by decide) (by decide) (by
  intro e he
  simp only [List.mem_cons, List.not_mem_nil, or_false] at he
  rcases he with rfl | rfl <;> exact .leaf ⟨rfl, rfl⟩)

theorem even_params (t o : String) : EvenParams env.cwd (evenPar t o) ["home".toList, "o".toList] 2 .none where
  wf := evenPar_wf t o
  dir := ((Params.pathParam_spec home (evenPar_wf t o) _).1 _).1 rfl
  slices := ⟨.int 2, (((Params.C47_positive_integer _ (evenPar_wf t o) "num_slices".toList .none).1 _).1 rfl).1, .int 2⟩
  positive := by decide
  seed := .inl ⟨rfl, by rw [← Params.contains_present (evenPar_wf t o)]; exact Bool.eq_false_iff.1 rfl⟩

theorem even_no (t o : String) : ¬ Present (evenPar t o) "explicit_split".toList := by
  rw [← Params.contains_present (evenPar_wf t o)]; exact Bool.eq_false_iff.1 rfl

theorem even_place : EvenPlace fs ["home".toList, "o".toList] 2 where
  tree := by obtain ⟨_, _, _, _, h, _⟩ := world; exact h
  free := not_blocked_of_check (by decide +kernel)
  list := not_dir_of_check (by decide +kernel)
  slices j hj := by
    obtain rfl | rfl : j = 0 ∨ j = 1 := by omega
    all_goals exact not_dir_of_check (by decide +kernel)

theorem kept (q : Loc) (h : q = ["home".toList, "in.zip".toList] ∨ q = ["home".toList, "f".toList]) : EvenKept ["home".toList, "o".toList] 2 q := by
  rcases h with rfl | rfl <;> exact ⟨by decide, by decide, fun j _ h => by simp at h⟩

/-- A zip store. -/
theorem zip_input {S : Str → Option Bytes} (h : Stores fs ["home".toList, "in.zip".toList] S) {rest : Entries} (hwf : (par "zip" "in.zip" rest).WF) :
    InputIs env (par "zip" "in.zip" rest) fs (fun q => q = ["home".toList, "in.zip".toList]) S :=
  .zip (par_typed hwf) (((Params.pathParam_spec home (ns_wf _ _ _) _).1 _).1 rfl) h

/-- A document map. -/
theorem map_input {rest : Entries} (hwf : (par "_doc_id_binary_source_from_params" "m" rest).WF) :
    ∃ from_ M, InputIs env (par "_doc_id_binary_source_from_params" "m" rest) fs from_ M ∧ (∀ k, M k ≠ none ↔ k = "k".toList) ∧
      ∀ q, from_ q → q = ["home".toList, "f".toList] := by
  obtain ⟨_, _, _, _, _, hsame⟩ := world
  have hd : ∀ k q, Documents [("k".toList, PyPath.parse "/home/f".toList)] k q ↔ k = "k".toList ∧ q = PyPath.parse "/home/f".toList := by
    intro k q
    constructor
    · rintro ⟨b, a, h, -⟩
      cases b with
      | nil => simp only [List.nil_append, List.cons.injEq, Prod.mk.injEq] at h; exact ⟨h.1.1.symm, h.1.2.symm⟩
      | cons x b => simp at h
    · rintro ⟨rfl, rfl⟩; exact ⟨[], [], rfl, by simp⟩
  refine ⟨_, fun k => if k = "k".toList then some (encodeUtf8 []) else none, .documents (t := "k\t/home/f\n".toList) (ls := ["k\t/home/f\n".toList])
    (items := [("k".toList, PyPath.parse "/home/f".toList)]) (par_typed hwf) (((Params.pathParam_spec home (ns_wf _ _ _) _).1 _).1 rfl)
    ((hsame _ (by decide)).trans rfl) ?_
    (.cons ⟨"k".toList, "/home/f".toList, ?_, rfl⟩ .nil) ?_ ?_, ?_, ?_⟩
  · have := isLines_textLines (universalNewlines "k\t/home/f\n".toList)
    rw [show textLines (universalNewlines "k\t/home/f\n".toList) = ["k\t/home/f\n".toList] by decide +kernel] at this
    exact this
  · refine ⟨"k".toList, "/home/f\n".toList, rfl, by decide, by decide, ?_, ?_⟩
    · exact stripped_strip _
    · exact stripped_strip _
  · intro k q h
    obtain ⟨rfl, rfl⟩ := (hd k q).1 h
    exact ⟨encodeUtf8 [], (hsame _ (by decide)).trans rfl, by simp⟩
  · intro k h
    have hk : k = "k".toList := by by_contra hk; exact h (if_neg hk)
    exact ⟨_, (hd _ _).2 ⟨hk, rfl⟩⟩
  · intro k
    by_cases hk : k = "k".toList
    · simp [hk]
    · exact ⟨fun h => absurd (if_neg hk) h, fun h => absurd h hk⟩
  · rintro q ⟨k, r, h, rfl⟩
    rw [((hd k r).1 h).2]
    decide +kernel

/-- Splitting a zip store, and a document map. -/
example : True := by
  obtain ⟨S, h1, h2, -⟩ := world
  have := C101_even_split (order := id) env understands (by decide) (fun _ => .refl _) (fun _ => List.reverse) (fun _ l => l.reverse_perm) _ _ 2 _
    (even_params "zip" "in.zip") (even_no _ _) fs even_place _ S (zip_input h1 (evenPar_wf _ _)) (world_plain h2) (fun q hq => kept q (.inl hq))
  obtain ⟨from_, M, g1, g2, g3⟩ := map_input (evenPar_wf _ _)
  have := C101_even_split (order := id) env understands (by decide) (fun _ => .refl _) (fun _ => List.reverse) (fun _ l => l.reverse_perm) _ _ 2 _
    (even_params _ _) (even_no _ _) fs even_place _ M g1 (fun k hk => by rw [(g2 k).1 hk]; constructor <;> decide) (fun q hq => kept q (.inr (g3 q hq)))
  trivial

example : keysAt ["home".toList, "o".toList, "0.zip".toList] (splitScript env id (fun _ => id) (evenPar "zip" "in.zip") fs) =
    some ["a".toList, "c".toList] := by decide +kernel
example : keysAt ["home".toList, "o".toList, "0.zip".toList] (splitScript env id (fun _ => id) (evenPar "_doc_id_binary_source_from_params" "m") fs) =
    some ["k".toList] := by decide +kernel
/-- A document map named by the type `file-map`. -/
example : keysAt ["home".toList, "o".toList, "0.zip".toList] (splitScript env id (fun _ => id) (evenPar "file-map" "m") fs) = some [] := by decide +kernel
example := C101_file_map_counterexample (order := id) env understands (by decide) (fun _ => .refl _) (fun _ => id) (fun _ l => .refl l) _ _ _
  (par_typed (evenPar_wf "file-map" "m")) _ 2 _ (even_params _ _) (even_no _ _) fs even_place

/-! ### By lists of keys -/

def one : Params := ⟨["explicit_split".toList, "one".toList], [("keys_file".toList, .str "k1".toList), ("output_file".toList, .str "o1.zip".toList)]⟩
theorem one_wf : one.WF := flat_wf _ _ (by decide) (by decide)
def explicit : Params := ⟨["explicit_split".toList], [("one".toList, one.toVal)]⟩
def explicitPar : Params := par "zip" "in.zip" [("explicit_split".toList, explicit.toVal), ("must_be_exhaustive".toList, .bool false)]
theorem explicitPar_wf : explicitPar.WF := par_wf _ _ _ (by decide) (by decide) (by
  intro e he
  simp only [List.mem_cons, List.not_mem_nil, or_false] at he
  rcases he with rfl | rfl
  · refine .params (by decide) (by decide) fun e he => ?_
    rw [explicit, List.mem_singleton] at he
    subst he; exact one_wf
  · exact .leaf ⟨rfl, rfl⟩)
def job : Job := ⟨["home".toList, "k1".toList], ["a".toList], ["home".toList, "o1.zip".toList]⟩

theorem explicit_params : ExplicitParams env.cwd explicitPar [job] false where
  wf := explicitPar_wf
  jobs := by
    refine ⟨explicit, .step (List.mem_cons_of_mem _ (List.mem_cons_self ..)) (.here _), ?_,
      .cons ⟨one_wf, ((Params.pathParam_spec home one_wf _).1 _).1 rfl, ((Params.pathParam_spec home one_wf _).1 _).1 rfl⟩ .nil⟩
    intro k q hq
    simp only [explicit, List.mem_cons, List.not_mem_nil, or_false, Prod.mk.injEq] at hq
    rw [hq.2, ← Params.hashable_iff]; rfl
  must := (((Params.C47_boolean_and_list explicitPar explicitPar_wf "must_be_exhaustive".toList (.bool true)).1 (.bool false)).1 rfl).1

theorem jobs_place : JobsPlace fs [job] where
  tree := by obtain ⟨_, _, _, _, h, _⟩ := world; exact h
  listed j hj := by
    obtain ⟨_, _, _, _, _, hsame⟩ := world
    simp only [List.mem_cons, List.not_mem_nil, or_false] at hj
    subst hj
    exact ExplicitExample.listed "a\n" ["a".toList] _ _ ((hsame _ (by decide)).trans rfl) (by decide +kernel) (by decide +kernel)
  free j hj := by
    simp only [List.mem_cons, List.not_mem_nil, or_false] at hj
    subst hj
    exact ⟨not_blocked_of_check (by decide +kernel), not_dir_of_check (by decide +kernel)⟩
  apart := by simp
  keep := by
    intro a ha b hb
    simp only [List.mem_cons, List.not_mem_nil, or_false] at ha hb
    subst ha; subst hb
    simp [job]

example : True := by
  obtain ⟨S, h1, h2, h3, -⟩ := world
  have := C101_explicit_split (order := id) env understands (by decide) (fun _ => .refl _) (fun _ => id) _ _ _ explicit_params
    (by rw [← Params.contains_present explicitPar_wf]; exact Bool.eq_false_iff.1 rfl) fs jobs_place
    (by
      intro j hj k hk
      simp only [List.mem_cons, List.not_mem_nil, or_false] at hj
      subst hj
      simp only [job, List.mem_cons, List.not_mem_nil, or_false] at hk
      subst hk; constructor <;> decide) _ S (zip_input h1 explicitPar_wf)
    (by
      intro q hq j hj
      simp only [List.mem_cons, List.not_mem_nil, or_false] at hj
      subst hj; subst hq
      decide)
    (by
      intro j hj k hk
      simp only [List.mem_cons, List.not_mem_nil, or_false] at hj
      subst hj
      simp only [job, List.mem_cons, List.not_mem_nil, or_false] at hk
      subst hk; exact h3)
  trivial
example : keysAt ["home".toList, "o1.zip".toList] (splitScript env id (fun _ => id) explicitPar fs) = some ["a".toList] := by decide +kernel

/-! ### Errors -/

example := ((C101_errors (order := id) env understands (by decide) (fun _ => id) (fun _ l => .ok l) (par "zip" "none.zip" [])
  (par_wf _ _ _ (by decide) (by decide) (by simp)) fs).2 _ _ (par_typed (par_wf _ _ _ (by decide) (by decide) (by simp))) (by
    rintro ⟨l, h1, c, h2⟩
    have := ((Params.pathParam_spec home (ns_wf "input" "zip" "none.zip") "path".toList).1 l).2 h1
    obtain ⟨_, _, _, _, _, hsame⟩ := world
    have hl : l = ["home".toList, "none.zip".toList] := Except.ok.inj (this.symm.trans rfl)
    rw [hl, hsame _ (by decide), show fs0.node ["home".toList, "none.zip".toList] = none from rfl] at h2
    cases h2))
example : raisedBy (splitScript env id (fun _ => id) (par "zip" "in.zip" []) fs) = some .parameterError := by decide +kernel

/-! ### Sampling -/

def samplePar (t o : String) : Params := par t o [("num_to_sample".toList, .int 2), ("output_zip_path".toList, .str "s/out.zip".toList)]
theorem samplePar_wf (t o : String) : (samplePar t o).WF := par_wf _ _ _ (by decide) (by decide) (by
  intro e he
  simp only [List.mem_cons, List.not_mem_nil, or_false] at he
  rcases he with rfl | rfl <;> exact .leaf ⟨rfl, rfl⟩)
theorem sample_params (t o : String) : SampleParams env.cwd (samplePar t o) 2 0 ["home".toList, "s".toList, "out.zip".toList] where
  wf := samplePar_wf t o
  num := ⟨.int 2, (((Params.C47_positive_integer _ (samplePar_wf t o) _ .none).1 _).1 rfl).1, .int 2⟩
  positive := by decide
  seed := ⟨.int 0, (((Params.C47_integer _ (samplePar_wf t o) _ none (.int 0)).1 _).1 rfl).1, .int 0⟩
  out := ((Params.pathParam_spec home (samplePar_wf t o) _).1 _).1 rfl

example : True := by
  obtain ⟨S, h1, h2, h3, h4, h5⟩ := world
  have := C101_downsample (order := id) env understands (by decide) (fun _ => .refl _) (fun _ l => .ok l.reverse) (fun _ l => ⟨_, rfl, l.reverse_perm⟩)
    _ _ _ _ (sample_params "zip" "in.zip") fs h4 (not_blocked_of_check (by decide +kernel)) (not_dir_of_check (by decide +kernel)) _ S (zip_input h1 (samplePar_wf _ _))
    (world_plain h2) (by rintro q rfl; decide)
  trivial
example : keysAt ["home".toList, "s".toList, "out.zip".toList] (downsampleScript env id (fun _ l => .ok l.reverse) (samplePar "zip" "in.zip") fs) =
    some ["c".toList, "a".toList] := by decide +kernel

example : True := by
  obtain ⟨_, _, _, _, h4, _⟩ := world
  have := C101_file_map_sample_counterexample (order := id) env understands (by decide) (fun _ => .refl _) (fun _ l => .ok l)
    (fun _ l => ⟨_, rfl, .refl _⟩) _ _ _ (par_typed (samplePar_wf "file-map" "m")) _ _ _ (sample_params _ _) fs h4
    (not_blocked_of_check (by decide +kernel)) (not_dir_of_check (by decide +kernel))
  trivial
example : keysAt ["home".toList, "s".toList, "out.zip".toList] (downsampleScript env id (fun _ l => .ok l) (samplePar "file-map" "m") fs) = some [] := by
  decide +kernel

/-! ### Splitting and joining -/

example : True := by
  obtain ⟨S, h1, h2, h3, h4, h5⟩ := world
  have := C101_split_and_join (order := id) env (fun _ => .refl _) (fun _ => List.reverse) (fun _ l => l.reverse_perm) _ _ 2 _
    (even_params "zip" "in.zip") (even_no _ _) fs even_place _ S (zip_input h1 (evenPar_wf _ _)) (world_plain h2) (fun q hq => kept q (.inl hq))
    (by
      intro w hw
      simp only [List.mem_cons, List.not_mem_nil, or_false] at hw
      rcases hw with rfl | rfl <;> refine ⟨⟨by decide, by decide, by decide, by decide⟩, by decide⟩) JoinExample.joinPar _ JoinExample.join_params
    (((Params.pathParam_spec home JoinExample.joinPar_wf _).1 _).1 rfl) (not_blocked_of_check (by decide +kernel)) (not_dir_of_check (by decide +kernel))
    (by decide) (by decide)
  trivial

/-! ### Joining -/

/-- The parameters: stores given in a list, and the namespace `output`. -/
def joinPar (t o : String) (ins : List String) : Params :=
  ⟨[], [("input_store_list_file".toList, .list (ins.map fun i => .str i.toList)), ("output".toList, (ns "output" t o).toVal)]⟩

theorem joinPar_wf (t o : String) (ins : List String) : (joinPar t o ins).WF := by
  refine .params (by simp [joinPar]) (by simp [joinPar]) fun e he => ?_
  simp only [joinPar, List.mem_cons, List.not_mem_nil, or_false] at he
  rcases he with rfl | rfl
  · exact .leaf ⟨rfl, rfl⟩
  · exact ns_wf _ _ _

theorem join_output (t o : String) (ins : List String) : DirToStore.Output env (joinPar t o ins) t.toList (PyPath.resolve home (PyPath.parse o.toList)) where
  py := understands
  globals := by decide
  typed := ⟨ns "output" t o, [],
    typed_of (joinPar_wf _ _ _) (ns_wf _ _ _) (by decide +kernel) (.step (.tail _ (.head _)) (.here _)) (.step (List.mem_cons_self ..) (.here _)) rfl rfl,
    ((Params.pathParam_spec home (ns_wf _ _ _) _).1 _).1 rfl⟩

theorem world_dir : ∃ S, S ≠ (fun _ => none) ∧ DirInput home fs (PyPath.parse "in.zip".toList) S := by
  obtain ⟨S, h1, h2, h3, h4, h5⟩ := world
  have h6 : DirInput home fs (PyPath.parse "in.zip".toList) S := ⟨h1, fun k hk => by
    obtain ⟨v, hv⟩ := h2 k hk
    have : k = "a".toList ∨ k = "b".toList ∨ k = "c".toList := by
      have := (dictGet_isSome_iff entries k).1 (by cases h : dictGet entries k <;> simp_all)
      simp only [entries, List.map_cons, List.map_nil, List.mem_cons, List.not_mem_nil, or_false] at this
      rcases this with h | h | h
      · exact .inr (.inl h)
      · exact .inl h
      · exact .inr (.inr h)
    rcases this with rfl | rfl | rfl <;> refine ⟨⟨by decide, by decide, by decide, by decide, by unfold TextSafe; decide, ?_, ?_⟩, by decide⟩ <;>
      · intro c hc
        cases hc
        decide⟩
  exact ⟨S, fun h => by rw [h] at h3; simp at h3, h6⟩

example : True := by
  obtain ⟨S, h1, h2, h3, h4, h5⟩ := world
  have hin : DirInput home fs (PyPath.parse "in.zip".toList) S := ⟨h1, fun k hk => by
    obtain ⟨v, hv⟩ := h2 k hk
    have : k = "a".toList ∨ k = "b".toList ∨ k = "c".toList := by
      have := (dictGet_isSome_iff entries k).1 (by cases h : dictGet entries k <;> simp_all)
      simp only [entries, List.map_cons, List.map_nil, List.mem_cons, List.not_mem_nil, or_false] at this
      rcases this with h | h | h
      · exact .inr (.inl h)
      · exact .inl h
      · exact .inr (.inr h)
    rcases this with rfl | rfl | rfl <;> refine ⟨⟨by decide, by decide, by decide, by decide, by unfold TextSafe; decide, ?_, ?_⟩, by decide⟩ <;>
      · intro c hc
        cases hc
        decide⟩
  have hcwd : env.cwd.Normal := PyPath.parse_normal "/home".toList
  have hsafe : ∀ w ∈ PyPath.resolve home (PyPath.parse "d".toList), TextSafe w := by
    rw [show PyPath.resolve home (PyPath.parse "d".toList) = ["home".toList, "d".toList] by decide +kernel]; unfold TextSafe; decide
  have hempty : fs.EmptyDir ["home".toList, "d".toList] := ⟨(h5 _ (by decide)).trans rfl, fun n => (h5 _ (by simp)).trans rfl⟩
  have := C64_join_directory (order := id) env hcwd (by decide) _ _ (join_output "file-map" "d" ["in.zip"]) (by decide) hsafe fs h4 _
    rfl [S] (.cons hin .nil) hempty
  have := C64_join_directory (order := id) env hcwd (by decide) _ _ (join_output "file-map" "d" ["in.zip", "in.zip"]) (by decide) hsafe fs h4 _
    rfl [S, S] (.cons hin (.cons hin .nil)) hempty
  have := C64_own_input_counterexample (order := id) (fun _ => .refl _) env _ _ (join_output "zip" "in.zip" ["in.zip"]) fs h4 [] [] (PyPath.parse "in.zip".toList)
    rfl [] .nil (by simp [Disjoint']) (not_blocked_of_check (by decide +kernel)) (not_dir_of_check (by decide +kernel)) (by simp) (by decide +kernel)
  have := ((C64_errors (order := id) env (joinPar "zip" "in.zip/out.zip" ["in.zip"]) fs).2 _ _ _ rfl understands (by decide) h4
    (join_output "zip" "in.zip/out.zip" ["in.zip"]).typed.choose_spec.choose_spec.1).1
  trivial
example : keysAt ["home".toList, "in.zip".toList] (.ok (), (joinMain env id (joinPar "zip" "in.zip" ["in.zip"]) fs).2) = some [] := by decide +kernel
example : raisedBy (joinMain env id (joinPar "file-map" "d" ["in.zip", "in.zip"]) fs) = some .runtimeError := by decide +kernel
example : raisedBy (joinMain env id (joinPar "file-map" "d" ["in.zip"]) fs) = none := by decide +kernel
example : raisedBy (joinMain env id (joinPar "zip" "in.zip/out.zip" ["in.zip"]) fs) = some .ioError := by decide +kernel

end StoreScriptsExample

end Vista
