import Verif.Model.JoinStores
import Verif.Spec.DirToStore
import Verif.Props.ExplicitSplit
import Verif.Props.FromParams

/-!
# C64: joining stores; C66: sampling from a store
-/
set_option linter.unusedSectionVars false
set_option linter.unusedSimpArgs false
namespace Vista
open Params (PathIs)

variable {order : List Str → List Str} {cwd : PyPath}

/-! ## Joining -/

/-- The keys `ks` of `M` added to `W`. -/
def added (W M : Str → Option Bytes) (ks : List Str) : Str → Option Bytes := fun k => if k ∈ ks then M k else W k

theorem added_nil (W M : Str → Option Bytes) : added W M [] = W := by funext k; simp [added]

theorem joinKeys_spec {src : KVSource Bytes} {M : Str → Option Bytes} (hs : Zip.Serves src PlainKey M) (ks : List Str) (o : ZipOut) (written : List Str)
    (W : Str → Option Bytes) (hr : Ready order o W) (hw : ∀ k, k ∈ written ↔ (W k).isSome = true) (hnd : ks.Nodup)
    (hks : ∀ k ∈ ks, PlainKey k ∧ (M k).isSome = true) :
    ((∀ k ∈ ks, W k = none) → ∃ o' written', joinKeys src ks o written = (o', written', none) ∧ o'.loc = o.loc ∧ Ready order o' (added W M ks) ∧
      ∀ k, k ∈ written' ↔ (added W M ks k).isSome = true) ∧
    ((¬ ∀ k ∈ ks, W k = none) → ∃ o' written' W', joinKeys src ks o written = (o', written', some .runtimeError) ∧ o'.loc = o.loc ∧ Ready order o' W' ∧
      ∀ k v, W' k = some v → W k = some v ∨ M k = some v) := by
  induction ks generalizing o written W with
  | nil => exact ⟨fun _ => ⟨o, written, rfl, rfl, by rw [added_nil]; exact hr, by rw [added_nil]; exact hw⟩, fun h => by simp at h⟩
  | cons k ks ih =>
    obtain ⟨hk, hm⟩ := hks k (by simp)
    obtain ⟨v, hv⟩ := Option.isSome_iff_exists.1 hm
    simp only [List.nodup_cons] at hnd
    by_cases hfree : W k = none
    · have hnw : k ∉ written := by rw [hw, hfree]; simp
      obtain ⟨p1, -, p2⟩ := hr.put hk v
      obtain ⟨p3, p4⟩ := p2 hfree
      have hstep : joinKeys src (k :: ks) o written = joinKeys src ks (o.put k v).1 (written ++ [k]) := by
        simp only [joinKeys, hnw, if_false, (hs.present k v hv).1, p3]
      have hw' : ∀ k', k' ∈ written ++ [k] ↔ ((fun k' => if k' = k then some v else W k') k').isSome = true := by
        intro k'
        by_cases h : k' = k
        · simp [h]
        · simp [h, hw]
      obtain ⟨i1, i2⟩ := ih (o.put k v).1 (written ++ [k]) _ p4 hw' hnd.2 fun k' hk' => hks k' (by simp [hk'])
      have hrest : (∀ k' ∈ ks, (if k' = k then some v else W k') = none) ↔ ∀ k' ∈ ks, W k' = none := by
        constructor <;> intro h k' hk' <;> have := h k' hk' <;> have hne : k' ≠ k := fun he => hnd.1 (he ▸ hk')
        · simpa [hne] using this
        · simpa [hne] using this
      have hadd : added (fun k' => if k' = k then some v else W k') M ks = added W M (k :: ks) := by
        funext k'
        by_cases h : k' ∈ ks
        · simp [added, h]
        · by_cases h' : k' = k
          · subst h'; simp [added, h, hv]
          · simp [added, h, h']
      constructor
      · intro hall
        obtain ⟨o', w', a1, a2, a3, a4⟩ := i1 (hrest.2 fun k' hk' => hall k' (by simp [hk']))
        rw [hadd] at a3 a4
        exact ⟨o', w', by rw [hstep, a1], a2.trans p1, a3, a4⟩
      · intro hno
        obtain ⟨o', w', W', a1, a2, a3, a4⟩ := i2 (fun h => hno fun k' hk' => by
          rcases List.mem_cons.1 hk' with rfl | hk'
          · exact hfree
          · exact hrest.1 h k' hk')
        refine ⟨o', w', W', by rw [hstep, a1], a2.trans p1, a3, fun k' v' hv' => ?_⟩
        rcases a4 k' v' hv' with h | h
        · by_cases he : k' = k
          · subst he
            simp only [if_true] at h
            exact .inr (hv.trans h)
          · simp only [he, if_false] at h
            exact .inl h
        · exact .inr h
    · have hin : k ∈ written := by rw [hw]; exact Option.isSome_iff_ne_none.2 hfree
      refine ⟨fun h => absurd (h k (by simp)) hfree, fun _ => ⟨o, written, W, by simp [joinKeys, hin], rfl, hr, fun _ _ h => .inl h⟩⟩

/-- The input is a store with these entries, all with plain keys. -/
structure Input (cwd : PyPath) (fs : FS) (path : PyPath) (M : Str → Option Bytes) : Prop where
  stored : Stores fs (PyPath.resolve cwd path) M
  plain : ∀ k, M k ≠ none → PlainKey k

theorem joinEach_spec {fs : FS} {paths : List PyPath} {Ms : List (Str → Option Bytes)} (hin : List.Forall₂ (Input cwd fs) paths Ms) (o : ZipOut)
    (written : List Str) (W : Str → Option Bytes) (hr : Ready order o W) (hw : ∀ k, k ∈ written ↔ (W k).isSome = true) :
    (Disjoint' (W :: Ms) → ∃ o' U, joinEach cwd fs paths o written = (o', none) ∧ o'.loc = o.loc ∧ Ready order o' U ∧ UnionOf (W :: Ms) U) ∧
    (Disjoint' Ms → ¬ Disjoint' (W :: Ms) → ∃ o' W', joinEach cwd fs paths o written = (o', some .runtimeError) ∧ o'.loc = o.loc ∧ Ready order o' W' ∧
      ∀ k v, W' k = some v → ∃ M ∈ W :: Ms, M k = some v) ∧
    (¬ Disjoint' Ms → ∃ o' W', joinEach cwd fs paths o written = (o', some .runtimeError) ∧ o'.loc = o.loc ∧ Ready order o' W' ∧
      ∀ k v, W' k = some v → ∃ M ∈ W :: Ms, M k = some v) := by
  induction hin generalizing o written W with
  | nil =>
    refine ⟨fun _ => ⟨o, W, rfl, rfl, hr, fun k v => by simp⟩, fun _ h => absurd (by simp [Disjoint']) h, fun h => absurd (by simp [Disjoint']) h⟩
  | @cons path M paths Ms h1 h2 ih =>
    obtain ⟨src, a1, a2⟩ := zipBytesSource_spec h1.stored
    obtain ⟨ks, b1, b2, b3⟩ := a2.keys
    have hks : ∀ k ∈ ks, PlainKey k ∧ (M k).isSome = true := fun k hk =>
      ⟨h1.plain k (Option.isSome_iff_ne_none.1 ((b3 k).1 hk)), (b3 k).1 hk⟩
    obtain ⟨c1, c2⟩ := joinKeys_spec a2 ks o written W hr hw b2 hks
    have hfree : (∀ k ∈ ks, W k = none) ↔ ∀ k, W k ≠ none → M k = none := by
      constructor
      · intro h k hk
        by_contra hm
        exact hk (h k ((b3 k).2 (Option.isSome_iff_ne_none.2 hm)))
      · intro h k hk
        by_contra hw'
        exact (Option.isSome_iff_ne_none.1 ((b3 k).1 hk)) (h k hw')
    by_cases hd : ∀ k, W k ≠ none → M k = none
    · obtain ⟨o', w', d1, d2, d3, d4⟩ := c1 (hfree.2 hd)
      have hstep : joinEach cwd fs (path :: paths) o written = joinEach cwd fs paths o' w' := by
        simp only [joinEach, a1, joinOne, b1, d1]
      have hboth : ∀ k v, added W M ks k = some v ↔ W k = some v ∨ M k = some v := by
        intro k v
        by_cases hk : k ∈ ks
        · have hn : W k = none := hfree.2 hd k hk
          simp [added, hk, hn]
        · have hn : M k = none := by
            rw [b3] at hk; simpa using hk
          simp [added, hk, hn]
      have hdis : Disjoint' (added W M ks :: Ms) ↔ Disjoint' Ms ∧ (∀ M' ∈ Ms, ∀ k, W k ≠ none → M' k = none) ∧ (∀ M' ∈ Ms, ∀ k, M k ≠ none → M' k = none) := by
        simp only [Disjoint', List.pairwise_cons]
        have hne : ∀ k, added W M ks k ≠ none ↔ W k ≠ none ∨ M k ≠ none := by
          intro k
          simp only [Option.ne_none_iff_exists', hboth, exists_or]
        constructor
        · rintro ⟨e1, e2⟩
          exact ⟨e2, fun M' hM' k hk => e1 M' hM' k ((hne k).2 (.inl hk)), fun M' hM' k hk => e1 M' hM' k ((hne k).2 (.inr hk))⟩
        · rintro ⟨e1, e2, e3⟩
          refine ⟨fun M' hM' k hk => ?_, e1⟩
          rcases (hne k).1 hk with h | h
          · exact e2 M' hM' k h
          · exact e3 M' hM' k h
      obtain ⟨i1, i2, i3⟩ := ih o' w' _ d3 d4
      have hsub : ∀ k v, (∃ M' ∈ added W M ks :: Ms, M' k = some v) → ∃ M' ∈ W :: M :: Ms, M' k = some v := by
        intro k v h
        simp only [List.mem_cons, exists_eq_or_imp, hboth, or_assoc] at h ⊢
        exact h
      have full : Disjoint' (W :: M :: Ms) ↔ Disjoint' (added W M ks :: Ms) := by
        rw [hdis]
        simp only [Disjoint', List.pairwise_cons, List.mem_cons, forall_eq_or_imp]
        exact ⟨fun ⟨⟨_, h2⟩, h3, h4⟩ => ⟨h4, h2, h3⟩, fun ⟨h4, h2, h3⟩ => ⟨⟨hd, h2⟩, h3, h4⟩⟩
      refine ⟨fun h => ?_, fun _ h => ?_, fun h => ?_⟩
      · obtain ⟨o'', U, e1, e2, e3, e4⟩ := i1 (full.1 h)
        refine ⟨o'', U, by rw [hstep, e1], e2.trans d2, e3, fun k v => ?_⟩
        rw [e4]
        simp only [List.mem_cons, exists_eq_or_imp, hboth, or_assoc]
      · rw [hstep]
        have h' := fun h' => h (full.2 h')
        by_cases hMs : Disjoint' Ms
        · obtain ⟨o'', W', e1, e2, e3, e4⟩ := i2 hMs h'
          exact ⟨o'', W', e1, e2.trans d2, e3, fun k v hv => hsub k v (e4 k v hv)⟩
        · obtain ⟨o'', W', e1, e2, e3, e4⟩ := i3 hMs
          exact ⟨o'', W', e1, e2.trans d2, e3, fun k v hv => hsub k v (e4 k v hv)⟩
      · rw [hstep]
        by_cases hMs : Disjoint' Ms
        · obtain ⟨o'', W', e1, e2, e3, e4⟩ := i2 hMs (fun h' => h (by
            have := hdis.1 h'
            simp only [Disjoint', List.pairwise_cons]
            exact ⟨this.2.2, this.1⟩))
          exact ⟨o'', W', e1, e2.trans d2, e3, fun k v hv => hsub k v (e4 k v hv)⟩
        · obtain ⟨o'', W', e1, e2, e3, e4⟩ := i3 hMs
          exact ⟨o'', W', e1, e2.trans d2, e3, fun k v hv => hsub k v (e4 k v hv)⟩
    · obtain ⟨o', w', W', d1, d2, d3, d4⟩ := c2 (fun h => hd (hfree.1 h))
      have hstep : joinEach cwd fs (path :: paths) o written = (o', some .runtimeError) := by
        simp only [joinEach, a1, joinOne, b1, d1]
      have d4' : ∀ k v, W' k = some v → ∃ M' ∈ W :: M :: Ms, M' k = some v := fun k v hv => by
        simp only [List.mem_cons, exists_eq_or_imp]
        rcases d4 k v hv with h | h
        · exact .inl h
        · exact .inr (.inl h)
      refine ⟨fun h => ?_, fun _ _ => ⟨o', W', hstep, d2, d3, d4'⟩, fun _ => ⟨o', W', hstep, d2, d3, d4'⟩⟩
      simp only [Disjoint', List.pairwise_cons, List.mem_cons, forall_eq_or_imp] at h
      exact absurd h.1.1 hd

theorem sane_of_join {E : FromParams.Env} (hpy : FromParams.Understands E.py) (hg : ((FromParams.ownGlobals ++ E.rest).map (·.1)).Nodup) (p : Params)
    (paths : List PyPath) : FromParams.Sane E (some (joinLocals p paths)) where
  py := hpy
  globals := hg
  context c hc := by
    rw [← Option.some.inj hc]
    show ["params".toList, "input_paths".toList, "keys_written".toList].Nodup
    decide
  unshadowed c hc := by
    rw [← Option.some.inj hc]
    show ∀ n ∈ FromParams.ownGlobals.map (·.1), n ∉ ["params".toList, "input_paths".toList, "keys_written".toList]
    decide

theorem FromParams.typed_mono {E : FromParams.Env} {p : Params} {name : Str} {ns : Params} {s : Str} {mods : List Str}
    (h : FromParams.Typed E none p name ns s mods) (ec : Option Entries) : FromParams.Typed E ec p name ns s mods :=
  { h with importable := fun k t ht hk hno => h.importable k t ht hk fun hm => hno (by
      simp only [Option.getD_none, List.append_nil] at hm
      rw [List.map_append]
      exact List.mem_append_left _ hm) }

/-- The script, when the list of inputs can be read and there is room for the output (a zip store): what it does with the opened output, and
what leaving it later does. -/
theorem join_run (horder : ∀ l, (order l).Perm l) {E : FromParams.Env} {p : Params} {out : Loc} (hp : DirToStore.Output E p "zip".toList out)
    {fs : FS} (ht : fs.Tree) {paths : List PyPath} (hpaths : p.pathListFromFile E.cwd "input_store_list_file".toList none fs = (.ok paths, fs))
    (hfree : ¬ fs.Blocked out.dropLast) (hdir : fs.node out ≠ some .dir) :
    ∃ o fs1, joinMain E order p fs = (joinEach E.cwd fs1 paths o []).1.leave (joinEach E.cwd fs1 paths o []).2 fs1 ∧ o.loc = out ∧
      Ready order o (fun _ => none) ∧ (∀ q, ¬ q <+: out → fs1.node q = fs.node q) ∧ fs1.node out = some (.file (.data .empty)) ∧
      ∀ (o' : ZipOut) (M' : Str → Option Bytes) (e : Option Exc), o'.loc = out → Ready order o' M' →
        ∃ fs', o'.leave e fs1 = (raised e, fs') ∧ OneAfter fs out M' fs' := by
  obtain ⟨ns, mods, hT, hout⟩ := hp.typed
  obtain ⟨fs1, a2, a3, -, a1⟩ := (FromParams.C74_zip_sink E _ (sane_of_join hp.py hp.globals p paths) p _ ns mods (FromParams.typed_mono hT _) fs ht).1
    out hout hfree
  obtain ⟨o, fs2, b1, b2, b3, b4, b5, b6⟩ := open_spec order a2 a3 hdir
  refine ⟨o, fs2, ?_, b2, b3, b4, b5, b6 horder⟩
  simp only [joinMain, Prog.bind_apply, hpaths, a1, joinInto, b1, Prog.get_apply]

/-- Opening the output changes none of the inputs, unless it is one. -/
theorem input_same {fs fs1 : FS} {out : Loc} {paths : List PyPath} {Ms : List (Str → Option Bytes)} (hin : List.Forall₂ (Input cwd fs) paths Ms)
    (hfree : ¬ fs.Blocked out.dropLast) (hkeep : ∀ path ∈ paths, PyPath.resolve cwd path ≠ out)
    (hsame : ∀ q, ¬ q <+: out → fs1.node q = fs.node q) : List.Forall₂ (Input cwd fs1) paths Ms := by
  induction hin with
  | nil => exact .nil
  | @cons path M paths Ms h1 h2 ih =>
    refine .cons ⟨h1.stored.congr (hsame _ fun hpre => ?_), h1.plain⟩ (ih fun q hq => hkeep q (by simp [hq]))
    obtain ⟨a, ha, -⟩ := h1.stored
    exact hfree ⟨_, _, prefix_dropLast hpre (hkeep path (by simp)), ha⟩

theorem joinEach_append {fs : FS} {before after : List PyPath} {path : PyPath} {o' : ZipOut} {e : Exc}
    (hread : (zipBytesSource (PyPath.resolve cwd path) fs).1 = .error e) (o : ZipOut) (w : List Str) (h : joinEach cwd fs before o w = (o', none)) :
    joinEach cwd fs (before ++ path :: after) o w = (o', some e) := by
  induction before generalizing o w with
  | nil =>
    simp only [joinEach, Prod.mk.injEq, and_true] at h
    subst h
    simp only [List.nil_append, joinEach, hread]
  | cons q ps ih =>
    simp only [joinEach] at h
    simp only [List.cons_append, joinEach]
    cases hq : (zipBytesSource (PyPath.resolve cwd q) fs).1 with
    | error e => rw [hq] at h; simp at h
    | ok src =>
      rw [hq] at h
      simp only at h ⊢
      rcases hj : joinOne src.asSource o w with ⟨o1, w1, e1⟩
      rw [hj] at h
      cases e1 with
      | none => exact ih o1 w1 h
      | some e => simp at h

/-- If no key occurs in two inputs, the output has exactly the entries of the inputs, and nothing else has changed except for the
directories made for it; otherwise the script raises `RuntimeError`, and the output has some entries of the inputs.  The output must not be one
of the inputs. -/
theorem C64_join (horder : ∀ l, (order l).Perm l) (E : FromParams.Env) (p : Params) (out : Loc) (hp : DirToStore.Output E p "zip".toList out) (fs : FS) (ht : fs.Tree)
    (paths : List PyPath) (hpaths : p.pathListFromFile E.cwd "input_store_list_file".toList none fs = (.ok paths, fs))
    (Ms : List (Str → Option Bytes)) (hin : List.Forall₂ (Input E.cwd fs) paths Ms) (hfree : ¬ fs.Blocked out.dropLast)
    (hdir : fs.node out ≠ some .dir) (hkeep : ∀ path ∈ paths, PyPath.resolve E.cwd path ≠ out) :
    (Disjoint' Ms → ∃ fs' U, joinMain E order p fs = (.ok (), fs') ∧ UnionOf Ms U ∧ OneAfter fs out U fs') ∧
    (¬ Disjoint' Ms → ∃ fs' W, joinMain E order p fs = (.error .runtimeError, fs') ∧ OneAfter fs out W fs' ∧
      ∀ k v, W k = some v → ∃ M ∈ Ms, M k = some v) := by
  obtain ⟨o, fs1, a1, a2, a3, a4, -, a5⟩ := join_run horder hp ht hpaths hfree hdir
  have hin1 : List.Forall₂ (Input E.cwd fs1) paths Ms := input_same hin hfree hkeep a4
  obtain ⟨j1, -, j3⟩ := joinEach_spec (order := order) hin1 o [] (fun _ => none) a3 (by simp)
  constructor
  · intro hd
    obtain ⟨o', U, b1, b2, b3, b4⟩ := j1 (by
      simp only [Disjoint', List.pairwise_cons]
      exact ⟨fun _ _ k hk => absurd rfl hk, hd⟩)
    obtain ⟨fs', c1, c2⟩ := a5 o' U none (b2.trans a2) b3
    refine ⟨fs', U, by rw [a1]; simp only [b1, c1, raised], fun k v => ?_, c2⟩
    rw [b4]; simp
  · intro hd
    obtain ⟨o', W, b1, b2, b3, b4⟩ := j3 hd
    obtain ⟨fs', c1, c2⟩ := a5 o' W (some .runtimeError) (b2.trans a2) b3
    exact ⟨fs', W, by rw [a1]; simp only [b1, c1, raised], c2, fun k v hv => by simpa using b4 k v hv⟩

theorem unionOf_slices {n : Nat} {M : Str → Option Bytes} {slice : Nat → Str → Option Bytes} (h : EvenSlices n M slice) {U : Str → Option Bytes}
    (hU : UnionOf ((List.range n).map slice) U) : U = M := by
  funext k
  apply Option.ext
  intro v
  rw [hU]
  simp only [List.mem_map, List.mem_range]
  constructor
  · rintro ⟨_, ⟨j, hj, rfl⟩, hv⟩; exact h.sound j k v hj hv
  · intro hv
    obtain ⟨j, hj, hv'⟩ := h.complete k v hv
    exact ⟨_, ⟨j, hj, rfl⟩, hv'⟩

theorem joinWith_snoc (c : Char) (ws : List Str) (w : Str) : ∃ pre, joinWith c (ws ++ [w]) = pre ++ w := by
  by_cases h : ws = []
  · exact ⟨[], by simp [h, joinWith]⟩
  · exact ⟨joinWith c ws ++ [c], by rw [joinWith_append h (by simp)]; simp [joinWith]⟩

/-- Joining the first slices of a split, by a list of just these. -/
theorem join_slices (horder : ∀ l, (order l).Perm l) {E : FromParams.Env} {dir : Loc} {n : Nat} {slice : Nat → Str → Option Bytes}
    (hnames : ∀ w ∈ dir, Params.PlainName w ∧ ∀ c ∈ w, isLineBreak c = false)
    {p' : Params} {out : Loc} (hp' : DirToStore.Output E p' "zip".toList out) (hlist : PathIs E.cwd p' "input_store_list_file".toList (dir ++ ["_slices.txt".toList]))
    {fs1 : FS} (ht : fs1.Tree) (hcontent : fs1.node (dir ++ ["_slices.txt".toList]) = some (.file (.data (encodeUtf8 (joinWith '\n'
      ((List.range n).map fun j => '/' :: joinWith '/' (dir ++ [(toString j).toList ++ ".zip".toList])))))))
    (hstored : ∀ j, j < n → Stores fs1 (dir ++ [(toString j).toList ++ ".zip".toList]) (slice j))
    (hkeys : ∀ j, j < n → ∀ k v, slice j k = some v → PlainKey k) (hdis : Disjoint' ((List.range n).map slice))
    (hfree : ¬ fs1.Blocked out.dropLast) (hdir : fs1.node out ≠ some .dir) (hout : ¬ dir <+: out) :
    ∃ fs2 U, joinMain E order p' fs1 = (.ok (), fs2) ∧ UnionOf ((List.range n).map slice) U ∧ OneAfter fs1 out U fs2 := by
  have hwf' : p'.WF := by obtain ⟨_, _, hT, -⟩ := hp'.typed; exact hT.wf
  have hslicename : ∀ j : Nat, Params.PlainName ((toString j).toList ++ ".zip".toList) ∧
      ∀ c ∈ (toString j).toList ++ ".zip".toList, isLineBreak c = false := by
    intro j
    have hs : (toString j).toList = Nat.toDigits 10 j := Nat.toList_repr
    have hd : ∀ c ∈ Nat.toDigits 10 j, c.isDigit = true := fun c hc => Nat.isDigit_of_mem_toDigits (by omega) (by omega) hc
    have hcs : ∀ c ∈ (toString j).toList ++ ".zip".toList, c ≠ '/' ∧ isLineBreak c = false := by
      intro c hc
      rcases List.mem_append.1 hc with hc | hc
      · rw [hs] at hc
        have := hd c hc
        simp only [Char.isDigit, Bool.and_eq_true, decide_eq_true_eq, ge_iff_le, UInt32.le_iff_toNat_le] at this
        have h1 : (48 : Nat) ≤ c.toNat := this.1
        have h2 : c.toNat ≤ 57 := this.2
        refine ⟨?_, ?_⟩
        · rintro rfl; revert h1; decide
        · rw [Bool.eq_false_iff, ne_eq, isLineBreak]
          simp only [Bool.or_eq_true, Bool.and_eq_true, decide_eq_true_eq, beq_iff_eq]
          omega
      · have : ∀ c ∈ ".zip".toList, c ≠ '/' ∧ isLineBreak c = false := by decide
        exact this c hc
    have hlen : ((toString j).toList ++ ".zip".toList).length ≥ 4 := by simp
    refine ⟨⟨?_, ?_, ?_, fun hm => (hcs _ hm).1 rfl⟩, fun c hc => (hcs c hc).2⟩ <;> intro h <;> rw [h] at hlen <;> simp at hlen
  have hall : ∀ j, ∀ w ∈ slicePath dir j, Params.PlainName w ∧ ∀ c ∈ w, isLineBreak c = false := by
    intro j w hw
    rcases List.mem_append.1 hw with hw | hw
    · exact hnames w hw
    · rw [List.mem_singleton.1 hw]; exact hslicename j
  have hpaths : p'.pathListFromFile E.cwd "input_store_list_file".toList none fs1 = (.ok (((List.range n).map (slicePath dir)).map Loc.toPath), fs1) := by
    refine Params.C79_path_list_lines E.cwd p' hwf' _ fs1 _ hlist _ ?_ ?_
    · intro q hq
      simp only [List.mem_map] at hq
      obtain ⟨_, ⟨j, -, rfl⟩, rfl⟩ := hq
      have hrender : (Loc.toPath (slicePath dir j)).render = '/' :: joinWith '/' (slicePath dir j) := by simp [Loc.toPath, PyPath.render]
      refine ⟨⟨.inr (.inl rfl), fun w hw => ⟨(hall j w hw).1.1, (hall j w hw).1.2.1, (hall j w hw).1.2.2.2⟩⟩, ?_⟩
      rw [hrender]
      refine ⟨?_, by simp, by simp, by simp; decide, ?_⟩
      · intro c hc
        rcases List.mem_cons.1 hc with rfl | hc
        · decide
        · rcases mem_joinWith hc with h | ⟨w, hw, hc⟩
          · rw [h]; decide
          · exact (hall j w hw).2 c hc
      · intro c hc
        have hlast : ('/' :: joinWith '/' (slicePath dir j)).getLast? = some 'p' := by
          obtain ⟨pre, hpre⟩ := joinWith_snoc '/' dir ((toString j).toList ++ ".zip".toList)
          rw [slicePath, hpre, show ".zip".toList = ".zi".toList ++ ['p'] by decide +kernel]
          rw [show '/' :: (pre ++ ((toString j).toList ++ (".zi".toList ++ ['p']))) = ('/' :: (pre ++ ((toString j).toList ++ ".zi".toList))) ++ ['p'] by simp]
          exact List.getLast?_concat
        rw [hlast, Option.some.injEq] at hc
        subst hc; decide
    · rw [hcontent]
      simp [slicePath, Loc.toPath, PyPath.render, Function.comp_def]
  have hdd : ∀ j, ['.', '.'] ∉ slicePath dir j := fun j hm => (hall j _ hm).1.2.2.1 rfl
  have hin : List.Forall₂ (Input E.cwd fs1) (((List.range n).map (slicePath dir)).map Loc.toPath) ((List.range n).map slice) := by
    rw [List.map_map, List.forall₂_map_left_iff, List.forall₂_map_right_iff, List.forall₂_same]
    intro j hj
    refine ⟨?_, fun k hk => ?_⟩
    · simp only [Function.comp, resolve_toPath E.cwd (hdd j)]
      exact hstored j (List.mem_range.1 hj)
    · obtain ⟨v, hv⟩ := Option.ne_none_iff_exists'.1 hk
      exact hkeys j (List.mem_range.1 hj) k v hv
  obtain ⟨fs2, U, b1, b2, b3⟩ := (C64_join horder E p' out hp' fs1 ht _ hpaths _ hin hfree hdir (by
    intro q hq
    simp only [List.mem_map] at hq
    obtain ⟨_, ⟨j, -, rfl⟩, rfl⟩ := hq
    rw [resolve_toPath E.cwd (hdd j)]
    rintro rfl
    exact hout (List.prefix_append _ _))).1 hdis
  exact ⟨fs2, U, b1, b2, b3⟩

/-- Splitting a store and joining the slices (with the list of slices the split has written) gives the store back. -/
theorem C64_join_after_split (horder : ∀ l, (order l).Perm l) (E : FromParams.Env) (shuffle : PVal → List Str → List Str) (hshuffle : ∀ s l, (shuffle s l).Perm l)
    (src : FS → KVSource Bytes) (M : Str → Option Bytes) (hkeys : ∀ k, (M k).isSome = true → PlainKey k)
    (p : Params) (dir : Loc) (n : Nat) (seed : PVal) (hp : EvenParams E.cwd p dir n seed) (fs : FS) (hf : EvenPlace fs dir n)
    (hs : ServesWhile src (EvenKept dir n) fs M)
    (hnames : ∀ w ∈ dir, Params.PlainName w ∧ ∀ c ∈ w, isLineBreak c = false)
    (p' : Params) (out : Loc) (hp' : DirToStore.Output E p' "zip".toList out) (hlist : PathIs E.cwd p' "input_store_list_file".toList (dir ++ ["_slices.txt".toList]))
    (hfree : ¬ fs.Blocked out.dropLast) (hdir : fs.node out ≠ some .dir) (hout : ¬ dir <+: out) (hout' : ¬ out <+: dir) :
    ∃ fs1 fs2, evenSplit order shuffle E.cwd src p fs = (.ok (), fs1) ∧ joinMain E order p' fs1 = (.ok (), fs2) ∧ Stores fs2 out M := by
  obtain ⟨fs1, ks, sorted, slice, a1, a2, a3, a4, -⟩ := C63_even_split order horder shuffle hshuffle E.cwd src M hkeys p dir n seed hp fs hf hs
  have hdis : Disjoint' ((List.range n).map slice) := by
    rw [Disjoint', List.pairwise_map]
    refine List.Pairwise.imp_of_mem (fun {i j} hi hj hij k hk => ?_) (List.pairwise_lt_range (n := n))
    by_contra hk'
    have := a4.disjoint i j k (List.mem_range.1 hi) (List.mem_range.1 hj) hk hk'
    omega
  have hsame : ∀ q, ¬ dir <+: q → ¬ q <+: dir → fs1.node q = fs.node q := fun q h1 h2 =>
    a2.others q ⟨h2, by rintro rfl; exact h1 (List.prefix_append _ _), by rintro j - rfl; exact h1 (List.prefix_append _ _)⟩
  have hfree1 : ¬ fs1.Blocked out.dropLast := by
    rintro ⟨q, c, hq, hc⟩
    by_cases hqd : q <+: dir
    · rw [a2.dirs q hqd] at hc; simp at hc
    · have : ¬ dir <+: q := fun h => hout ((h.trans hq).trans (List.dropLast_prefix _))
      rw [hsame q this hqd] at hc
      exact hfree ⟨q, c, hq, hc⟩
  obtain ⟨fs2, U, b1, b2, b3⟩ := join_slices horder hnames hp' hlist a2.tree a2.list a3
    (fun j hj k v hv => hkeys k (by rw [a4.sound j k v hj hv]; rfl)) hdis hfree1 (by rw [hsame out hout hout']; exact hdir) hout
  exact ⟨fs1, fs2, a1, b1, unionOf_slices a4 b2 ▸ b3.stored⟩

/-- An input that is not there: `OSError`; one that is not a zip file: an exception.  The output holds what came before. -/
theorem C64_missing_input (horder : ∀ l, (order l).Perm l) (E : FromParams.Env) (p : Params) (out : Loc) (hp : DirToStore.Output E p "zip".toList out) (fs : FS) (ht : fs.Tree)
    (before after : List PyPath) (path : PyPath)
    (hpaths : p.pathListFromFile E.cwd "input_store_list_file".toList none fs = (.ok (before ++ path :: after), fs))
    (Ms : List (Str → Option Bytes)) (hin : List.Forall₂ (Input E.cwd fs) before Ms) (hd : Disjoint' Ms) (hfree : ¬ fs.Blocked out.dropLast)
    (hdir : fs.node out ≠ some .dir) (hkeep : ∀ path ∈ before, PyPath.resolve E.cwd path ≠ out)
    (hpath : ¬ PyPath.resolve E.cwd path <+: out) (hno : ¬ ∃ c, fs.node (PyPath.resolve E.cwd path) = some (.file c)) :
    ∃ fs' U, joinMain E order p fs = (.error .ioError, fs') ∧ UnionOf Ms U ∧ OneAfter fs out U fs' := by
  obtain ⟨o, fs1, a1, a2, a3, a4, -, a5⟩ := join_run horder hp ht hpaths hfree hdir
  have hin1 : List.Forall₂ (Input E.cwd fs1) before Ms := input_same hin hfree hkeep a4
  have hread : (zipBytesSource (PyPath.resolve E.cwd path) fs1).1 = .error .ioError := by
    have : fs1.node (PyPath.resolve E.cwd path) = fs.node (PyPath.resolve E.cwd path) := a4 _ hpath
    simp only [zipBytesSource, Prog.bind_apply]
    cases hn : fs.node (PyPath.resolve E.cwd path) with
    | none => simp [readFile, this, hn]
    | some nd =>
      cases nd with
      | dir => simp [readFile, this, hn]
      | file c => exact absurd ⟨c, hn⟩ hno
  obtain ⟨j1, -, -⟩ := joinEach_spec (order := order) hin1 o [] (fun _ => none) a3 (by simp)
  obtain ⟨o', U, b1, b2, b3, b4⟩ := j1 (by
      simp only [Disjoint', List.pairwise_cons]
      exact ⟨fun _ _ k hk => absurd rfl hk, hd⟩)
  obtain ⟨fs', c1, c2⟩ := a5 o' U (some .ioError) (b2.trans a2) b3
  refine ⟨fs', U, by rw [a1]; simp only [joinEach_append hread o [] b1, c1, raised], fun k v => ?_, c2⟩
  rw [b4]; simp

/-- The documentation does not forbid that the output is one of the inputs.  Then the script raises an exception (`BadZipFile`), and the
output has only what the inputs listed before had: what it had itself is lost. -/
theorem C64_own_input_counterexample (horder : ∀ l, (order l).Perm l) (E : FromParams.Env) (p : Params) (out : Loc)
    (hp : DirToStore.Output E p "zip".toList out) (fs : FS) (ht : fs.Tree) (before after : List PyPath) (path : PyPath)
    (hpaths : p.pathListFromFile E.cwd "input_store_list_file".toList none fs = (.ok (before ++ path :: after), fs))
    (Ms : List (Str → Option Bytes)) (hin : List.Forall₂ (Input E.cwd fs) before Ms) (hd : Disjoint' Ms) (hfree : ¬ fs.Blocked out.dropLast)
    (hdir : fs.node out ≠ some .dir) (hkeep : ∀ path ∈ before, PyPath.resolve E.cwd path ≠ out) (hown : PyPath.resolve E.cwd path = out) :
    ∃ fs' U, joinMain E order p fs = (.error .other, fs') ∧ UnionOf Ms U ∧ OneAfter fs out U fs' := by
  obtain ⟨o, fs1, a1, a2, a3, a4, a6, a5⟩ := join_run horder hp ht hpaths hfree hdir
  have hin1 : List.Forall₂ (Input E.cwd fs1) before Ms := input_same hin hfree hkeep a4
  have hread : (zipBytesSource (PyPath.resolve E.cwd path) fs1).1 = .error .other := by
    simp only [zipBytesSource, Prog.bind_apply, readFile, hown, a6, Prog.raise_apply]
  obtain ⟨j1, -, -⟩ := joinEach_spec (order := order) hin1 o [] (fun _ => none) a3 (by simp)
  obtain ⟨o', U, b1, b2, b3, b4⟩ := j1 (by
      simp only [Disjoint', List.pairwise_cons]
      exact ⟨fun _ _ k hk => absurd rfl hk, hd⟩)
  obtain ⟨fs', c1, c2⟩ := a5 o' U (some .other) (b2.trans a2) b3
  refine ⟨fs', U, by rw [a1]; simp only [joinEach_append hread o [] b1, c1, raised], fun k v => ?_, c2⟩
  rw [b4]; simp

/-- If the list of inputs cannot be read, what that raises; no path for the output, `ParameterError` (see `Refused`); a file in its way, `OSError`.  Nothing
changes. -/
theorem C64_errors (E : FromParams.Env) (p : Params) (fs : FS) :
    (∀ e, p.pathListFromFile E.cwd "input_store_list_file".toList none fs = (.error e, fs) → joinMain E order p fs = (.error e, fs)) ∧
    (∀ paths ns mods, p.pathListFromFile E.cwd "input_store_list_file".toList none fs = (.ok paths, fs) → FromParams.Understands E.py →
      ((FromParams.ownGlobals ++ E.rest).map (·.1)).Nodup → fs.Tree → FromParams.Typed E none p "output".toList ns "zip".toList mods →
      ((¬ ∃ out, PathIs E.cwd ns "path".toList out) → ∃ e, Params.Refused ns "path".toList .none e ∧ joinMain E order p fs = (.error e, fs)) ∧
      (∀ out, PathIs E.cwd ns "path".toList out → fs.Blocked out.dropLast → joinMain E order p fs = (.error .ioError, fs))) := by
  refine ⟨fun e he => by simp only [joinMain, Prog.bind_apply, he], fun paths ns mods hpaths hpy hg ht hT => ?_⟩
  obtain ⟨-, k2, k3⟩ := FromParams.C74_zip_sink E _ (sane_of_join hpy hg p paths) p _ ns mods (FromParams.typed_mono hT _) fs ht
  exact ⟨fun h => by
      obtain ⟨e, he, -, k⟩ := k3 h
      exact ⟨e, he, by simp only [joinMain, Prog.bind_apply, hpaths, k]⟩,
    fun out h h' => by simp only [joinMain, Prog.bind_apply, hpaths, (k2 out h h').2]⟩

/-! ## Sampling -/

theorem sampleKeys_spec {src : KVSource Bytes} {M : Str → Option Bytes} (hs : Zip.Serves src PlainKey M) (ks : List Str) (o : ZipOut)
    (done : List Str) (hr : Ready order o (restrict M done)) (hnd : (done ++ ks).Nodup) (hks : ∀ k ∈ ks, PlainKey k ∧ (M k).isSome = true) :
    ∃ o', sampleKeys src ks o = (o', none) ∧ o'.loc = o.loc ∧ Ready order o' (restrict M (done ++ ks)) := by
  induction ks generalizing o done with
  | nil => exact ⟨o, rfl, rfl, by simpa using hr⟩
  | cons k ks ih =>
    obtain ⟨hk, hm⟩ := hks k (by simp)
    obtain ⟨v, hv⟩ := Option.isSome_iff_exists.1 hm
    have hfresh : k ∉ done := fun h => (List.nodup_append.1 hnd).2.2 k h k (by simp) rfl
    obtain ⟨p1, -, p2⟩ := hr.put hk v
    obtain ⟨p3, p4⟩ := p2 (by simp [restrict, hfresh])
    obtain ⟨o', a1, a2, a3⟩ := ih (o.put k v).1 (done ++ [k]) (by rw [restrict_snoc hv]; exact p4) (by simpa using hnd)
      fun k' hk' => hks k' (by simp [hk'])
    exact ⟨o', by simp only [sampleKeys, (hs.present k v hv).1, p3, a1], a2.trans p1, by simpa using a3⟩

/-- The parameters of the script. -/
structure SampleParams (cwd : PyPath) (p : Params) (n : Nat) (seed : Int) (out : Loc) : Prop where
  wf : p.WF
  num : ∃ v, Params.Found p "num_to_sample".toList .none v ∧ Params.CountsAs v n
  positive : 0 < n
  seed : ∃ v, Params.Found p "random_seed".toList (.int 0) v ∧ Params.CountsAs v seed
  out : PathIs cwd p "output_zip_path".toList out

variable {σ : Type} {source : Prog σ} {ask : σ → FS → KVSource Bytes}

theorem downsample_start {p : Params} {n : Nat} {seed : Int} {out : Loc} (hp : SampleParams cwd p n seed out) (shuffle : Int → List Str → Res (List Str))
    {s : σ} {ks : List Str} {fs : FS} (hsrc : source fs = (.ok s, fs)) (hk : (ask s fs).keys = .ok (some ks)) :
    downsample order shuffle cwd source ask p fs = match shuffle seed ks with
      | .error e => (.error e, fs)
      | .ok l => (do
        let out ← p.creatableFile cwd "output_zip_path".toList
        let o ← ZipOut.enter order out
        let fs ← Prog.get
        (sampleKeys (ask s fs) (l.take (min n ks.length)) o).1.leave (sampleKeys (ask s fs) (l.take (min n ks.length)) o).2 : Prog Unit) fs := by
  obtain ⟨v, hv, hn⟩ := hp.num
  obtain ⟨w, hw, hs⟩ := hp.seed
  have h1 := ((Params.C47_positive_integer p hp.wf "num_to_sample".toList .none).1 v).2 ⟨hv, n, hn, by have := hp.positive; omega⟩
  have h2 := ((Params.C47_integer p hp.wf "random_seed".toList none (.int 0)).1 w).2 ⟨hw, seed, hs, by simp⟩
  have hs' : (Params.asInt w).getD 0 = seed := by rw [(Params.asInt_iff w seed).2 hs]; rfl
  simp only [downsample, Prog.bind_apply, Prog.ofRes_apply, Prog.get_apply, hsrc, hk, h1, h2, hs', asInt_getD hn]
  cases shuffle seed ks with
  | error e => rfl
  | ok l => rfl

/-- The output is a sample of the store: as many keys as asked for, or all of them if there are fewer, with their values; which ones,
is decided by the shuffle with the seed.  Nothing else changes, except for the directories made for the output. -/
theorem C66_downsample (horder : ∀ l, (order l).Perm l) (shuffle : Int → List Str → Res (List Str)) (s : σ) (M : Str → Option Bytes)
    (hkeys : ∀ k, (M k).isSome = true → PlainKey k) (ks : List Str)
    (p : Params) (n : Nat) (seed : Int) (out : Loc) (hp : SampleParams cwd p n seed out) (l : List Str) (hl : shuffle seed ks = .ok l)
    (hperm : l.Perm ks) (fs : FS) (ht : fs.Tree) (hsrc : source fs = (.ok s, fs)) (hk : (ask s fs).keys = .ok (some ks))
    (hs : ServesWhile (ask s) (fun q => ¬ q <+: out) fs M) (hfree : ¬ fs.Blocked out.dropLast) (hdir : fs.node out ≠ some .dir) :
    ∃ fs' S, downsample order shuffle cwd source ask p fs = (.ok (), fs') ∧ OneAfter fs out S fs' ∧ SampleOf M (min n ks.length) S ∧ KeysOf M ks ∧
      KeysOf S (l.take n) := by
  obtain ⟨ks', k1, k2, k3⟩ := (hs fs fun _ _ => rfl).keys
  rw [hk] at k1
  simp only [Except.ok.injEq, Option.some.injEq] at k1
  subst k1
  have htake : l.take (min n ks.length) = l.take n := by
    rw [← hperm.length_eq, List.take_eq_take_iff, Nat.min_assoc, Nat.min_self]
  have hmem : ∀ k ∈ l.take n, (M k).isSome = true := fun k hk' => (k3 k).1 (hperm.mem_iff.1 (List.mem_of_mem_take hk'))
  have hnd : (l.take n).Nodup := (hperm.nodup_iff.2 k2).sublist (List.take_sublist _ _)
  obtain ⟨fs1, a1, a2, a3⟩ := (Params.C73_creatable_file cwd p hp.wf "output_zip_path".toList fs ht).1 out hp.out hfree
  obtain ⟨o, fs2, b1, b2, b3, b4, -, b5⟩ := open_spec order a2 a3 hdir
  obtain ⟨o', c1, c2, c3⟩ := sampleKeys_spec (order := order) (hs fs2 b4) (l.take n) o [] (by rw [restrict_nil]; exact b3) (by simpa using hnd)
    fun k hk' => ⟨hkeys k (hmem k hk'), hmem k hk'⟩
  obtain ⟨fs', d1, d2⟩ := b5 horder o' _ none (c2.trans b2) c3
  have hkeysS : KeysOf (restrict M ([] ++ l.take n)) (l.take n) := by
    refine ⟨hnd, fun k => ?_⟩
    simp only [List.nil_append, restrict]
    split
    · rename_i h; simp [h, hmem k h]
    · rename_i h; simp [h]
  refine ⟨fs', _, ?_, d2, ⟨fun k v hv => ?_, l.take n, hkeysS, ?_⟩, ⟨k2, k3⟩, hkeysS⟩
  · rw [downsample_start hp shuffle hsrc hk, hl]
    simp only [Prog.bind_apply, Prog.get_apply, a1, b1, htake, c1, d1, raised]
  · simp only [restrict] at hv
    split at hv
    · exact hv
    · simp at hv
  · rw [List.length_take, hperm.length_eq]

/-- From Python 3.11 on, `random.shuffle` does not accept the argument the script gives it: the script always fails with `TypeError`,
and writes nothing. -/
theorem C66_python311_counterexample (s : σ) (ks : List Str) (p : Params) (n : Nat) (seed : Int)
    (out : Loc) (hp : SampleParams cwd p n seed out) (fs : FS) (hsrc : source fs = (.ok s, fs)) (hk : (ask s fs).keys = .ok (some ks)) :
    downsample order (fun _ _ => .error .typeError) cwd source ask p fs = (.error .typeError, fs) := by
  rw [downsample_start hp _ hsrc hk]

/-- A source that cannot be made or entered: what that raises.  A source that cannot list its keys is a `TypeError`; a `num_to_sample` that is
not a positive integer, or a seed that is not an integer, a `ParameterError` (see `Refused`); nothing is written. -/
theorem C66_errors (shuffle : Int → List Str → Res (List Str)) (p : Params) (h : p.WF) (fs : FS) :
    (∀ e fs', source fs = (.error e, fs') → downsample order shuffle cwd source ask p fs = (.error e, fs')) ∧
    (∀ s fs', source fs = (.ok s, fs') → (ask s fs').keys = .ok none → downsample order shuffle cwd source ask p fs = (.error .typeError, fs')) ∧
    (∀ s fs' ks, source fs = (.ok s, fs') → (ask s fs').keys = .ok (some ks) →
      ((¬ ∃ v i, Params.Found p "num_to_sample".toList .none v ∧ Params.CountsAs v i ∧ i > 0) ∨
        (¬ ∃ v i, Params.Found p "random_seed".toList (.int 0) v ∧ Params.CountsAs v i)) →
      ∃ e, (Params.Refused p "num_to_sample".toList .none e ∨ Params.Refused p "random_seed".toList (.int 0) e) ∧
        downsample order shuffle cwd source ask p fs = (.error e, fs')) := by
  refine ⟨fun e fs' hsrc => by simp only [downsample, Prog.bind_apply, hsrc],
    fun s fs' hsrc hk => by simp only [downsample, Prog.bind_apply, Prog.ofRes_apply, Prog.get_apply, hsrc, hk, Prog.raise_apply],
    fun s fs' ks hsrc hk hbad => ?_⟩
  obtain ⟨n1, n2⟩ := Params.C47_positive_integer p h "num_to_sample".toList .none
  obtain ⟨s1, s2⟩ := Params.C47_integer p h "random_seed".toList none (.int 0)
  cases hn : p.positiveInteger "num_to_sample".toList with
  | error e =>
    exact ⟨e, .inl (n2 e hn), by simp only [downsample, Prog.bind_apply, Prog.ofRes_apply, Prog.get_apply, hsrc, hk, hn]⟩
  | ok v =>
    obtain ⟨hv, i, hi, hpos⟩ := (n1 v).1 hn
    cases hs : p.integer "random_seed".toList none (.int 0) with
    | error e =>
      exact ⟨e, .inr (s2 e hs), by simp only [downsample, Prog.bind_apply, Prog.ofRes_apply, Prog.get_apply, hsrc, hk, hn, hs]⟩
    | ok w =>
      obtain ⟨hw, j, hj, -⟩ := (s1 w).1 hs
      rcases hbad with hbad | hbad
      · exact absurd ⟨v, i, hv, hi, hpos⟩ hbad
      · exact absurd ⟨w, j, hw, hj⟩ hbad

/-! ## Examples -/

namespace JoinExample
open SplitExample
open ExplicitExample (raisedBy)

def joinPar : Params := ⟨[], [("input_store_list_file".toList, .str "o/_slices.txt".toList),
  ("output".toList, .params ["output".toList] [("type".toList, .str "zip".toList), ("path".toList, .str "out.zip".toList)])]⟩

theorem ns_wf : (Params.mk ["output".toList] [("type".toList, .str "zip".toList), ("path".toList, .str "out.zip".toList)]).WF :=
  flat_wf _ _ (by decide) (by decide)

theorem joinPar_wf : joinPar.WF := by
  refine .params (by decide) (by decide) fun e he => ?_
  simp only [joinPar, List.mem_cons, List.not_mem_nil, or_false] at he
  rcases he with rfl | rfl
  · exact .leaf ⟨rfl, rfl⟩
  · exact ns_wf

/-- A namespace with a type and without a value or imports. -/
theorem typed_of {p ns : Params} {name t : Str} (hp : p.WF) (hn : ns.WF) (hname : splitOn '.' name = [name]) (hf : p.toVal.Reaches [name] ns.toVal)
    (ht : ns.toVal.Reaches ["type".toList] (.str t)) (hv : ns.contains "value".toList = false) (hi : ns.contains "import".toList = false) :
    FromParams.Typed FromParamsExample.env none p name ns t [] where
  wf := hp
  found := hname ▸ hf
  type := ht
  noValue := by rw [← Params.contains_present hn, hv]; simp
  imports := by
    refine .inr ⟨rfl, ?_⟩
    have h := Params.contains_present hn "import".toList
    rw [hi, Params.Present, show splitOn '.' "import".toList = ["import".toList] by decide +kernel] at h
    exact fun hx => absurd (h.2 hx) (by simp)
  importable := by simp

theorem join_params : DirToStore.Output FromParamsExample.env joinPar "zip".toList ["home".toList, "out.zip".toList] where
  py := FromParamsExample.understands
  globals := by decide
  typed := ⟨⟨["output".toList], [("type".toList, .str "zip".toList), ("path".toList, .str "out.zip".toList)]⟩, [],
    typed_of joinPar_wf ns_wf (by decide +kernel) (.step (.tail _ (.head _)) (.here _)) (.step (List.mem_cons_self ..) (.here _)) rfl rfl,
    ((Params.pathParam_spec home ns_wf _).1 _).1 rfl⟩

/-- The hypotheses of `C64_join_after_split` (and so those of `C64_join`) hold of a store with three keys. -/
example := C64_join_after_split (order := id) (fun _ => .refl _) FromParamsExample.env (fun _ => List.reverse) (fun _ l => l.reverse_perm)
  (fun _ => memory entries) _ entries_plain _ _ 2 _ even_params fs even_place (fun _ _ => serves_memory entries (by decide) _) (by
    intro w hw
    simp only [List.mem_cons, List.not_mem_nil, or_false] at hw
    rcases hw with rfl | rfl <;> refine ⟨⟨by decide, by decide, by decide, by decide⟩, by decide⟩) joinPar _ join_params
  (((Params.pathParam_spec home joinPar_wf _).1 _).1 rfl) (not_blocked_of_check (by decide +kernel)) (not_dir_of_check (by decide +kernel))
  (by decide) (by decide)

/-- Splitting, then joining. -/
def roundTrip : Res Unit × FS :=
  joinMain FromParamsExample.env id joinPar (evenSplit id (fun _ => List.reverse) home (fun _ => memory entries) (par []) fs).2
example : keysAt ["home".toList, "out.zip".toList] roundTrip = some ["a".toList, "c".toList, "b".toList] := by decide +kernel
/-- The same store twice. -/
def twice : Params := ⟨[], [("input_store_list_file".toList, .list [.str "o/1.zip".toList, .str "o/1.zip".toList])] ++ joinPar.data.tail⟩
example : raisedBy (joinMain FromParamsExample.env id twice (evenSplit id (fun _ => List.reverse) home (fun _ => memory entries) (par []) fs).2) =
    some .runtimeError := by decide +kernel

def samplePar : Params := ⟨[], [("num_to_sample".toList, .int 2), ("output_zip_path".toList, .str "s/out.zip".toList)]⟩
theorem samplePar_wf : samplePar.WF := flat_wf _ _ (by decide) (by decide)

theorem sample_params : SampleParams home samplePar 2 0 ["home".toList, "s".toList, "out.zip".toList] where
  wf := samplePar_wf
  num := ⟨.int 2, (((Params.C47_positive_integer _ samplePar_wf _ .none).1 _).1 rfl).1, .int 2⟩
  positive := by decide
  seed := ⟨.int 0, (((Params.C47_integer _ samplePar_wf _ none (.int 0)).1 _).1 rfl).1, .int 0⟩
  out := ((Params.pathParam_spec home samplePar_wf _).1 _).1 rfl

example := C66_downsample (order := id) (cwd := home) (source := Prog.pure ()) (ask := fun _ _ => memory entries) (fun _ => .refl _)
  (fun _ l => .ok l.reverse) () _ entries_plain _ _ _ _ _ sample_params _ rfl (List.reverse_perm _) fs (tree_of_check (by decide +kernel)) rfl rfl
  (fun _ _ => serves_memory entries (by decide) _) (not_blocked_of_check (by decide +kernel)) (not_dir_of_check (by decide +kernel))
example : keysAt ["home".toList, "s".toList, "out.zip".toList]
    (downsample id (fun _ l => .ok l.reverse) home (Prog.pure ()) (fun _ _ => memory entries) samplePar fs) = some ["c".toList, "a".toList] := by
  decide +kernel
example := C66_python311_counterexample (order := id) (source := Prog.pure ()) (ask := fun _ _ => memory entries) () _ _ _ _ _ sample_params fs rfl rfl

end JoinExample
end Vista
