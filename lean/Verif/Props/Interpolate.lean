import Verif.Proofs.InterpolateFinish

/-!
# C50, C51: interpolation of `%name%` placeholders
-/
set_option linter.unusedSectionVars false
set_option linter.unusedSimpArgs false
namespace Vista
namespace Interp
open PVal Params

section
variable {word : Char → Bool}

/-- `interpolate` in terms of the graph. -/
theorem interpolate_eq {file ctx : Params} (hf : file.pfx = []) (hc : ctx.pfx = []) {nodes edges g}
    (hg : gather word (store0 file) file.namespacedItems = .ok (nodes, edges)) (hd : Digraph.new nodes edges = .ok g) :
    (∀ e named, g.topologicalSort.raised = some (e, named) → interpolate word file ctx = .error e) ∧
    (g.topologicalSort.raised = Option.none → interpolate word file ctx =
      (g.topologicalSort.yielded.reverse.foldlM (stepNode word ctx) (store0 file)).bind (finish file)) := by
  unfold store0 at *
  constructor
  · intro e named h
    simp only [interpolate, hf, hc, List.isEmpty_nil, checkArg, if_true, hg, hd, bind, Except.bind, h]
  · intro h
    simp only [interpolate, hf, hc, List.isEmpty_nil, checkArg, if_true, hg, hd, bind, Except.bind, h]

/-- Everything known when the run of the loop ends. -/
theorem interpolated_of_built (hw : word '%' = false) {file ctx R : Params} {L : List Str} {σ : Store} (ht : file.Tree) (hctx : ctx.Tree)
    (hp : Plan word (store0 file) L) (hi : Inv word (store0 file) ctx L σ) (hb : Built σ [] root R.toVal) : Interpolated word file ctx R := by
  have henv : Env file σ := ⟨ht, hi.ev, hi.valid⟩
  have hroot : CellOK file root := ⟨by simp [root], fun p e => by
    simp only [root, Cell.ns.injEq] at e; subst e; exact ⟨_, _, reaches_root file⟩⟩
  have hRt : R.Tree := hb.tree henv hroot
  -- everything in the file is in the result, made from what is stored there
  have hreach : ∀ q v, file.toVal.Reaches q v → ∃ u, R.toVal.Reaches q u ∧ Built σ q (if q = [] then .ns [] else at? σ q) u := by
    intro q v hv
    have := Built.reaches henv q [] file.pfx file.data R.toVal v (reaches_root file) hv hb
    simpa using this
  have hnspath : ∀ q pfx es, file.toVal.Reaches q (.params pfx es) → ∃ w, R.toVal.Reaches q w ∧ Built σ q (.ns q) w := by
    intro q pfx es hv
    obtain ⟨u, h1, h2⟩ := hreach q _ hv
    refine ⟨u, h1, ?_⟩
    by_cases hq : q = []
    · subst hq; simpa using h2
    · obtain ⟨c, hc, hc'⟩ := henv.stored hq hv
      rcases hc' with ⟨s, hs⟩ | rfl
      · simp at hs
      · simpa [hq, at?, hc, cellOf, isParams] using h2
  have hns : SameNamespaces file R := by
    intro q pfx es hv
    obtain ⟨w, h1, h2⟩ := hnspath q pfx es hv
    obtain ⟨es', rfl, hk, -⟩ := h2.ns henv hv
    exact ⟨_, _, h1, hk⟩
  have hsim : ∀ q, SimAt σ R q := by
    intro q c hc
    obtain ⟨hq, v, hv, -⟩ := henv.in_file hc
    obtain ⟨u, h1, h2⟩ := hreach q v hv
    have h2' : Built σ q c u := by simpa [hq, at?, hc] using h2
    refine ⟨u, h1, ?_⟩
    have hok := henv.cellOK hc
    cases c with
    | val w => rw [h2'.val (hok.1 w rfl)]; rfl
    | ns p =>
      obtain ⟨pfx, es, hp⟩ := hok.2 p rfl
      obtain ⟨w, h3, h4⟩ := hnspath p pfx es hp
      exact ⟨w, h3, Built.norm henv hok h2' h4⟩
  refine ⟨hRt, ?_, hns, ?_, ?_⟩
  · obtain ⟨es, he, -⟩ := hb.ns henv (reaches_root file)
    simp only [toVal, PVal.params.injEq] at he
    exact he.1
  · intro q v hv hl hs
    have hq : q ≠ [] := by
      rintro rfl
      have := reaches_nil.1 hv
      subst this
      exact absurd hl.1 (by simp [toVal, isParams])
    obtain ⟨u, h1, h2⟩ := hreach q v hv
    obtain ⟨c, hc, hc'⟩ := henv.stored hq hv
    rcases hc' with ⟨s, rfl⟩ | rfl
    · exact absurd rfl (hs s)
    · have : cellOf q v = .val v := by simp [cellOf, hl.1]
      rw [this] at hc
      have h2' : Built σ q (.val v) u := by simpa [hq, at?, hc] using h2
      have := h2'.val (.leaf hl)
      exact this ▸ h1
  · intro q s hv
    have hq : q ≠ [] := by
      rintro rfl
      have := reaches_nil.1 hv
      simp [toVal] at this
    have h0 : dictGet (store0 file) q = some (.val (.str s)) := (store0_get ht q _).2 ⟨hq, _, hv, rfl⟩
    obtain ⟨c, hc, hint⟩ : ∃ c, dictGet σ q = some c ∧ interpolated word σ ctx s = .ok c := by
      by_cases hl : ∃ n ∈ L, splitOn '.' n = q
      · obtain ⟨n, hn, rfl⟩ := hl
        exact hi.done n hn s h0
      · have hno : ¬ ∃ m, Mentions word s m := fun ⟨m, hm⟩ => hl (hp.covers q s m h0 hm).1
        exact ⟨_, (hi.todo q fun n hn e => hl ⟨n, hn, e⟩).trans h0, interpolated_plain hw _ _ _ hno⟩
    obtain ⟨u, hu, hs⟩ := hsim q c hc
    refine ⟨u, hu, ?_⟩
    exact (replaced_iff hw henv hctx hRt hns s (fun m hm => (hp.covers q s m h0 hm).2) (fun m _ => hsim _)).1 c u hint hs
      (PVal.Tree.reaches hRt hu)

/-- When interpolation succeeds, the result is a correct interpolation: namespaces and their keys are kept, parameters that are
not strings are unchanged, and every string has its placeholders replaced by the *final* values of the parameters they name. -/
theorem C50_interpolated (hw : word '%' = false) (file ctx R : Params) (hf : file.Loaded) (hctx : ctx.Tree)
    (hnl : NoneThroughLeaf word file) (h : interpolate word file ctx = .ok R) : Interpolated word file ctx R := by
  have hpfx : file.pfx = [] := ((loaded_iff file).1 hf).inv.1
  have hcpfx : ctx.pfx = [] := by
    by_contra hne
    have : ctx.pfx.isEmpty = false := by cases hp : ctx.pfx with
      | nil => exact absurd hp hne
      | cons => rfl
    simp [interpolate, hpfx, checkArg, this, bind, Except.bind] at h
  obtain ⟨nodes, edges, g, h1, h2, h3, h4, h5⟩ := plan hw hf hnl
  obtain ⟨e1, e2⟩ := interpolate_eq (word := word) (ctx := ctx) hpfx hcpfx h1 h2
  cases hr : g.topologicalSort.raised with
  | some x => rw [e1 x.1 x.2 hr] at h; simp at h
  | none =>
    rw [e2 hr] at h
    have ht : file.Tree := ((loaded_iff file).1 hf).tree
    cases hfold : g.topologicalSort.yielded.reverse.foldlM (stepNode word ctx) (store0 file) with
    | error e => simp [hfold, Except.bind] at h
    | ok σ =>
      simp only [hfold, Except.bind] at h
      have hinv := run_inv hw (store0_closed ht) hctx (h5 hr) _ [] _ σ (by simp) (.start word (store0_valid ht) ctx) hfold
      exact interpolated_of_built hw ht hctx (h5 hr) hinv (finish_ok ⟨ht, hinv.ev, hinv.valid⟩ hpfx h)

/-- If there is a correct interpolation and the placeholders are not cyclic, interpolation succeeds, with the same content. -/
theorem interpolate_complete (hw : word '%' = false) (file ctx R : Params) (hf : file.Loaded) (hctx : ctx.Tree) (hcp : ctx.pfx = [])
    (hnl : NoneThroughLeaf word file) (hcy : ¬ Cyclic word file) (hI : Interpolated word file ctx R) :
    ∃ R', interpolate word file ctx = .ok R' ∧ R'.asNestedDicts = R.asNestedDicts := by
  have hpfx : file.pfx = [] := ((loaded_iff file).1 hf).inv.1
  have ht : file.Tree := ((loaded_iff file).1 hf).tree
  obtain ⟨nodes, edges, g, h1, h2, h3, h4, h5⟩ := plan hw hf hnl
  obtain ⟨e1, e2⟩ := interpolate_eq (word := word) (ctx := ctx) hpfx hcp h1 h2
  have hr : g.topologicalSort.raised = Option.none := by
    by_contra hne
    exact hcy (h3.1 hne)
  obtain ⟨σ, hfold, hinv, hsim⟩ := run_back hw ht hctx (h5 hr) hI g.topologicalSort.yielded.reverse [] (store0 file) (by simp) (.start word (store0_valid ht) ctx) (by
    rintro q (⟨n, hn, -⟩ | hq)
    · simp at hn
    · exact settled_start hw ht hctx hI hq)
  have henv : Env file σ := ⟨ht, hinv.ev, hinv.valid⟩
  have hroot : CellOK file root := ⟨by simp [root], fun p e => by
    simp only [root, Cell.ns.injEq] at e; subst e; exact ⟨_, _, reaches_root file⟩⟩
  obtain ⟨d, hd, hnorm⟩ := unroll_sim henv hI.tree hI.namespaces hsim _ root R.toVal hroot ⟨_, .here _, rfl⟩ (Nat.lt_succ_self _)
  have hd' := unroll_fuel henv _ root d [] (σ.length + 1) hroot (by simp) (by simp) (by simp) (by simp) hd
  obtain ⟨R', hR', hfv⟩ := finish_complete henv hpfx hd'
  refine ⟨R', by rw [e2 hr, hfold]; exact hR', ?_⟩
  obtain ⟨u, hu, hut, hun, -⟩ := fromVal_mixed (unroll_mixed henv _ _ _ hroot hd') []
  rw [hfv, Except.ok.injEq] at hu
  subst hu
  have := hun.trans hnorm
  rw [← dictify_eq_norm hut, ← dictify_eq_norm hI.tree] at this
  simpa [dictify, toVal, asNestedDicts] using this

/-- Placeholders form a cycle iff interpolation raises `ParameterInterpolationError`. -/
theorem C51_cyclic (hw : word '%' = false) (file ctx : Params) (hf : file.Loaded) (hctx : ctx.Tree) (hcp : ctx.pfx = [])
    (hnl : NoneThroughLeaf word file) :
    interpolate word file ctx = .error .parameterInterpolationError ↔ Cyclic word file := by
  have hpfx : file.pfx = [] := ((loaded_iff file).1 hf).inv.1
  have ht : file.Tree := ((loaded_iff file).1 hf).tree
  obtain ⟨nodes, edges, g, h1, h2, h3, h4, h5⟩ := plan hw hf hnl
  obtain ⟨e1, e2⟩ := interpolate_eq (word := word) (ctx := ctx) hpfx hcp h1 h2
  rw [← h3]
  cases hr : g.topologicalSort.raised with
  | some x => simp [e1 x.1 x.2 hr, h4 x.1 x.2 hr]
  | none =>
    simp only [ne_eq, not_true_eq_false, iff_false]
    rw [e2 hr]
    intro h
    cases hfold : g.topologicalSort.yielded.reverse.foldlM (stepNode word ctx) (store0 file) with
    | error e =>
      simp only [hfold, Except.bind, Except.error.injEq] at h
      have := run_error hw hctx ht (h5 hr) _ [] _ e (by simp) (.start word (store0_valid ht) ctx) hfold
      rw [h] at this; simp at this
    | ok σ =>
      simp only [hfold, Except.bind] at h
      have hinv := run_inv hw (store0_closed ht) hctx (h5 hr) _ [] _ σ (by simp) (.start word (store0_valid ht) ctx) hfold
      have := finish_error ⟨ht, hinv.ev, hinv.valid⟩ hpfx h
      simp at this

/-- The specification determines the result: every correct interpolation has the content of the one returned. -/
theorem C50_unique (hw : word '%' = false) (file ctx R R' : Params) (hf : file.Loaded) (hctx : ctx.Tree) (hcp : ctx.pfx = [])
    (hnl : NoneThroughLeaf word file) (h : interpolate word file ctx = .ok R) (hI : Interpolated word file ctx R') :
    R'.asNestedDicts = R.asNestedDicts := by
  have hcy : ¬ Cyclic word file := fun hc => by
    rw [(C51_cyclic hw file ctx hf hctx hcp hnl).2 hc] at h
    simp at h
  obtain ⟨R1, h1, h2⟩ := interpolate_complete hw file ctx R' hf hctx hcp hnl hcy hI
  rw [h, Except.ok.injEq] at h1
  rw [h1, h2]

/-- Interpolation succeeds iff the placeholders are not cyclic and there is a correct interpolation. -/
theorem C51_success (hw : word '%' = false) (file ctx : Params) (hf : file.Loaded) (hctx : ctx.Tree) (hcp : ctx.pfx = [])
    (hnl : NoneThroughLeaf word file) :
    (∃ R, interpolate word file ctx = .ok R) ↔ ¬ Cyclic word file ∧ ∃ R, Interpolated word file ctx R := by
  constructor
  · rintro ⟨R, h⟩
    refine ⟨fun hc => ?_, R, C50_interpolated hw file ctx R hf hctx hnl h⟩
    rw [(C51_cyclic hw file ctx hf hctx hcp hnl).2 hc] at h
    simp at h
  · rintro ⟨hc, R, hI⟩
    obtain ⟨R', h, -⟩ := interpolate_complete hw file ctx R hf hctx hcp hnl hc hI
    exact ⟨R', h⟩

/-- Otherwise it raises: `ParameterInterpolationError` for a cycle, `ParameterError` or (for a namespace that would contain itself)
`RecursionError`; in particular never the `RuntimeError` "This should be impossible". -/
theorem C51_errors (hw : word '%' = false) (file ctx : Params) (hf : file.Loaded) (hctx : ctx.Tree) (hcp : ctx.pfx = [])
    (hnl : NoneThroughLeaf word file) (e : Exc) (h : interpolate word file ctx = .error e) :
    e = .parameterInterpolationError ∨ e = .parameterError ∨ e = .recursionError := by
  have hpfx : file.pfx = [] := ((loaded_iff file).1 hf).inv.1
  have ht : file.Tree := ((loaded_iff file).1 hf).tree
  obtain ⟨nodes, edges, g, h1, h2, h3, h4, h5⟩ := plan hw hf hnl
  obtain ⟨e1, e2⟩ := interpolate_eq (word := word) (ctx := ctx) hpfx hcp h1 h2
  cases hr : g.topologicalSort.raised with
  | some x =>
    rw [e1 x.1 x.2 hr, Except.error.injEq] at h
    exact .inl (h ▸ h4 x.1 x.2 hr)
  | none =>
    rw [e2 hr] at h
    cases hfold : g.topologicalSort.yielded.reverse.foldlM (stepNode word ctx) (store0 file) with
    | error e' =>
      simp only [hfold, Except.bind, Except.error.injEq] at h
      exact .inr (.inl (h ▸ run_error hw hctx ht (h5 hr) _ [] _ e' (by simp) (.start word (store0_valid ht) ctx) hfold))
    | ok σ =>
      simp only [hfold, Except.bind] at h
      have hinv := run_inv hw (store0_closed ht) hctx (h5 hr) _ [] _ σ (by simp) (.start word (store0_valid ht) ctx) hfold
      exact .inr (.inr (finish_error ⟨ht, hinv.ev, hinv.valid⟩ hpfx h))

/-- `m` is not the name of anything in the file or the context. -/
def Unknown (file ctx : Params) (m : Str) : Prop :=
  (¬ ∃ v, file.toVal.Reaches (splitOn '.' m) v) ∧ ¬ ∃ v, ctx.toVal.Reaches (splitOn '.' m) v

theorem expands_mentions {f : Str → Str → Prop} {s t m : Str} (hw : word '%' = false) (h : Expands word f s t) (hm : Mentions word s m) : ∃ x, f m x := by
  induction h with
  | done => exact absurd rfl hm.ne_nil
  | @placeholder s n rest w t hs hf _ ih =>
    cases hm with
    | here h' => obtain ⟨rfl, -⟩ := starts_unique hw hs h'; exact ⟨_, hf⟩
    | later h' h'' => obtain ⟨-, rfl⟩ := starts_unique hw hs h'; exact ih h''
    | char h' _ => exact absurd ⟨_, _, hs⟩ h'
  | @char c s t hs _ ih =>
    cases hm with
    | here h' => exact absurd ⟨_, _, h'⟩ hs
    | later h' _ => exact absurd ⟨_, _, h'⟩ hs
    | char _ h'' => exact ih h''

/-- A placeholder that names nothing in the file or the context makes interpolation fail. -/
theorem C51_unresolved (hw : word '%' = false) (file ctx : Params) (hf : file.Loaded) (hctx : ctx.Tree)
    (hnl : NoneThroughLeaf word file) (path : List Str) (s m : Str) (hs : file.toVal.Reaches path (.str s)) (hm : Mentions word s m)
    (hu : Unknown file ctx m) : ∃ e, interpolate word file ctx = .error e := by
  have ht : file.Tree := ((loaded_iff file).1 hf).tree
  cases h : interpolate word file ctx with
  | error e => exact ⟨e, rfl⟩
  | ok R =>
    exfalso
    have hI := C50_interpolated hw file ctx R hf hctx hnl h
    have hno : ∀ u, ¬ FinalValue file ctx R m u := by
      rintro u (⟨hr, -⟩ | ⟨-, hr⟩)
      · obtain ⟨v, hv⟩ := reaches_back ht (PVal.Tree.wf hI.tree) hI.namespaces _ (splitOn_ne_nil _ _) (clear_of_mentions ht hnl hs hm) u hr
        exact hu.1 ⟨v, hv⟩
      · exact hu.2 ⟨u, hr⟩
    obtain ⟨w, -, ⟨m', u, hst, hfin, -⟩ | ⟨-, t, -, he⟩⟩ := hI.strings path s hs
    · cases hm with
      | here h' => obtain ⟨rfl, -⟩ := starts_unique hw hst h'; exact hno u hfin
      | later h' h'' => obtain ⟨-, rfl⟩ := starts_unique hw hst h'; exact absurd rfl h''.ne_nil
      | char h' _ => exact h' ⟨_, _, hst⟩
    · obtain ⟨x, hx⟩ := expands_mentions hw he hm
      exact hno _ hx

/-- A placeholder inside a longer string that names a non-string parameter of the file which counts as true (a number, a list, a
namespace, …) makes interpolation fail. -/
theorem C51_embedded (hw : word '%' = false) (file ctx : Params) (hf : file.Loaded) (hctx : ctx.Tree)
    (hnl : NoneThroughLeaf word file) (path : List Str) (s m : Str) (hs : file.toVal.Reaches path (.str s)) (hm : Mentions word s m)
    (hlong : s ≠ '%' :: (m ++ ['%'])) (v : PVal) (hv : file.toVal.Reaches (splitOn '.' m) v) (hvt : (dictify v).truthy = true)
    (hns : ∀ t, v ≠ .str t) : ∃ e, interpolate word file ctx = .error e := by
  have ht : file.Tree := ((loaded_iff file).1 hf).tree
  cases h : interpolate word file ctx with
  | error e => exact ⟨e, rfl⟩
  | ok R =>
    exfalso
    have hI := C50_interpolated hw file ctx R hf hctx hnl h
    -- the value in the result is not a string
    obtain ⟨u, hu, hprov, hnot⟩ : ∃ u, R.toVal.Reaches (splitOn '.' m) u ∧ Provides file R m u ∧ ∀ t, u ≠ .str t := by
      rcases v.shape with hl | ⟨es, rfl⟩ | ⟨pfx, es, rfl⟩
      · have := hI.others _ v hv hl hns
        rw [dictify_leaf hl] at hvt
        exact ⟨v, this, ⟨this, .inl ⟨hl.1, truthy_iff.1 hvt⟩⟩, hns⟩
      · exact absurd (PVal.Tree.reaches ht hv).not_mapping (by simp [isMapping])
      · obtain ⟨pfx', es', hr, hk⟩ := hI.namespaces _ pfx es hv
        refine ⟨_, hr, ⟨hr, .inr ⟨_, _, rfl, .inl ?_⟩⟩, by simp⟩
        rintro rfl
        have : es = [] := by
          have := congrArg List.length hk
          simp only [List.map_nil, List.length_nil, List.length_map] at this
          exact List.length_eq_zero_iff.1 this.symm
        subst this
        simp [dictify, dictifyEntries, PVal.truthy] at hvt
    obtain ⟨w, -, ⟨m', u', hst, hfin, -⟩ | ⟨-, t, -, he⟩⟩ := hI.strings path s hs
    · cases hm with
      | here h' => obtain ⟨rfl, -⟩ := starts_unique hw hst h'; exact hlong (by rw [hst.2])
      | later h' h'' => obtain ⟨-, rfl⟩ := starts_unique hw hst h'; exact absurd rfl h''.ne_nil
      | char h' _ => exact h' ⟨_, _, hst⟩
    · obtain ⟨x, hx⟩ := expands_mentions hw he hm
      rcases hx with ⟨hr, -⟩ | ⟨hno, -⟩
      · exact hnot x (reaches_unique (PVal.Tree.wf hI.tree) hu hr)
      · exact hno ⟨u, hprov⟩

/-- Only top-level parameters can be interpolated, and only in a top-level context. -/
theorem C51_top_level (file ctx : Params) (h : file.pfx ≠ [] ∨ ctx.pfx ≠ []) : interpolate word file ctx = .error .valueError := by
  have key : ∀ l : List Str, l ≠ [] → l.isEmpty = false := fun l hl => by cases l with | nil => exact absurd rfl hl | cons => rfl
  by_cases hf : file.pfx = []
  · have := key _ (h.resolve_left (fun h => h hf))
    simp [interpolate, hf, checkArg, this, bind, Except.bind]
  · have := key _ hf
    simp [interpolate, checkArg, this, bind, Except.bind]

end

/-! ## Concrete cases, and what goes wrong -/

/-- A decidable sufficient condition for `NoneThroughLeaf`. -/
def throughLeafFree (word : Char → Bool) (file : Params) : Bool :=
  file.namespacedItems.all fun e => match e.2 with
    | .str s => (placeholders word s).all fun m => (List.range (splitOn '.' m).length).all fun i =>
        match Params.follow false .none file.toVal ((splitOn '.' m).take i) with
        | .ok v => v.isParams
        | .error _ => true
    | _ => true

theorem noneThroughLeaf_of {word : Char → Bool} (hw : word '%' = false) {file : Params} (hf : file.Loaded) (h : throughLeafFree word file = true) :
    NoneThroughLeaf word file := by
  have ht : file.Tree := ((loaded_iff file).1 hf).tree
  intro path s m hr hm a b v hab hb hv
  have hne : path ≠ [] := by
    rintro rfl
    have := reaches_nil.1 hr
    simp [toVal] at this
  have hs := splitOn_joinWith hne (reaches_dotfree (PVal.Tree.wf ht) hr)
  have hitem := (C43_items file hf (joinWith '.' path) (.str s)).2 ⟨hs.symm ▸ hr, rfl⟩
  have h1 := List.all_eq_true.1 h _ hitem
  have h2 := List.all_eq_true.1 h1 m ((placeholders_iff hw s m).2 hm)
  have h3 := List.all_eq_true.1 h2 a.length (by
    rw [hab, List.mem_range, List.length_append]
    have := List.length_pos_iff.2 hb
    omega)
  rw [hab, List.take_left, follow_ok (PVal.Tree.wf ht) hv] at h3
  exact h3

mutual
/-- Equality of parameter values as a program (only for the concrete cases below). -/
def _root_.Vista.PVal.same (v w : PVal) : Bool :=
  match v, w with
  | .none, .none => true
  | .bool a, .bool b => a == b
  | .int a, .int b => a == b
  | .float a, .float b => a == b
  | .str a, .str b => a == b
  | .path a, .path b => a == b
  | .bytes a, .bytes b => a == b
  | .obj a, .obj b => a == b
  | .list xs, .list ys => sameList xs ys
  | .dict es, .dict fs => sameEntries es fs
  | .params p es, .params q fs => p == q && sameEntries es fs
  | _, _ => false
termination_by structural v
def sameEntry (e f : Str × PVal) : Bool :=
  match e, f with
  | (k, v), (l, w) => k == l && v.same w
termination_by structural e
def sameList (xs ys : List PVal) : Bool :=
  match xs, ys with
  | [], [] => true
  | x :: xs, y :: ys => x.same y && sameList xs ys
  | _, _ => false
termination_by structural xs
def sameEntries (es fs : Entries) : Bool :=
  match es, fs with
  | [], [] => true
  | e :: es, f :: fs => sameEntry e f && sameEntries es fs
  | _, _ => false
termination_by structural es
end

/-- The letters and digits as word characters. -/
def asciiWord (c : Char) : Bool := c.isAlphanum || decide (c = '_')

/-- ```
greeting: "hello %who.name%!"
who: {name: "%first% B.", age: 3}
first: "Bob"
copy: "%who%"
``` -/
def exampleFileDict : Entries :=
  [("greeting".toList, .str "hello %who.name%!".toList),
   ("who".toList, .dict [("name".toList, .str "%first% %last%".toList), ("age".toList, .int 3)]),
   ("first".toList, .str "Bob".toList), ("copy".toList, .str "%who%".toList)]

def exampleFile : Params := ⟨[], [("greeting".toList, .str "hello %who.name%!".toList),
   ("who".toList, .params ["who".toList] [("name".toList, .str "%first% %last%".toList), ("age".toList, .int 3)]),
   ("first".toList, .str "Bob".toList), ("copy".toList, .str "%who%".toList)]⟩

def exampleContext : Params := ⟨[], [("last".toList, .str "B.".toList)]⟩

theorem exampleFile_loaded : exampleFile.Loaded := by
  refine ⟨exampleFileDict, .dict (by decide) fun e he => ?_, rfl⟩
  simp only [exampleFileDict, List.mem_cons, List.not_mem_nil, or_false] at he
  rcases he with rfl | rfl | rfl | rfl
  · exact .leaf ⟨rfl, rfl⟩
  · refine .dict (by decide) fun e he => ?_
    simp only [List.mem_cons, List.not_mem_nil, or_false] at he
    rcases he with rfl | rfl <;> exact .leaf ⟨rfl, rfl⟩
  · exact .leaf ⟨rfl, rfl⟩
  · exact .leaf ⟨rfl, rfl⟩

theorem exampleContext_tree : exampleContext.Tree :=
  .params (by decide) (by decide) fun e he => by
    simp only [exampleContext, List.mem_cons, List.not_mem_nil, or_false] at he
    subst he; exact .leaf ⟨rfl, rfl⟩

example : NoneThroughLeaf asciiWord exampleFile := noneThroughLeaf_of rfl exampleFile_loaded (by decide +kernel)

def exampleResult : Params := ⟨[], [("greeting".toList, .str "hello Bob B.!".toList),
   ("who".toList, .params ["who".toList] [("name".toList, .str "Bob B.".toList), ("age".toList, .int 3)]),
   ("first".toList, .str "Bob".toList),
   ("copy".toList, .params ["copy".toList] [("name".toList, .str "Bob B.".toList), ("age".toList, .int 3)])]⟩

example : (match interpolate asciiWord exampleFile exampleContext with
    | .ok R => R.toVal.same exampleResult.toVal
    | .error _ => false) = true := by decide +kernel

/-- The exception, if any. -/
def errorOf {α : Type} : Res α → Option Exc
  | .ok _ => Option.none
  | .error e => some e

theorem errorOf_iff {α : Type} (r : Res α) (e : Exc) : errorOf r = some e ↔ r = .error e := by cases r <;> simp [errorOf]

/-- A loaded file from a flat dict of leaves. -/
theorem loaded_flat {es : Entries} (hn : (es.map (·.1)).Nodup) (hd : ∀ e ∈ es, '.' ∉ e.1) (hl : ∀ e ∈ es, Leaf e.2) : Params.Loaded ⟨[], es⟩ := by
  refine ⟨es, .dict hn fun e he => .leaf (hl e he), ?_⟩
  exact fromMapping_of_not_mapping hn hd (fun e he => (hl e he).2) []

/-- A cycle: `a: "x%b%"`, `b: "y%a%"`. -/
example : Cyclic asciiWord ⟨[], [(['a'], .str ['x', '%', 'b', '%']), (['b'], .str ['y', '%', 'a', '%'])]⟩ := by
  refine ⟨['a'], .tail (.single (b := ['b']) ?_) ?_⟩
  · exact ⟨['x', '%', 'b', '%'], .str ['y', '%', 'a', '%'], .step (List.mem_cons_self ..) (.here _),
      .char (by rintro ⟨n, rest, -, h⟩; simp at h) (.here (rest := []) ⟨⟨by decide, by decide⟩, rfl⟩),
      .step (List.mem_cons_of_mem _ (List.mem_cons_self ..)) (.here _), (fun h => by cases h), (fun _ h => by cases h)⟩
  · exact ⟨['y', '%', 'a', '%'], .str ['x', '%', 'b', '%'], .step (List.mem_cons_of_mem _ (List.mem_cons_self ..)) (.here _),
      .char (by rintro ⟨n, rest, -, h⟩; simp at h) (.here (rest := []) ⟨⟨by decide, by decide⟩, rfl⟩),
      .step (List.mem_cons_self ..) (.here _), (fun h => by cases h), (fun _ h => by cases h)⟩

/-- An unresolved name: `a: "%z%"`. -/
example : Unknown ⟨[], [(['a'], .str ['%', 'z', '%'])]⟩ ⟨[], []⟩ ['z'] ∧ Mentions asciiWord ['%', 'z', '%'] ['z'] := by
  refine ⟨⟨?_, ?_⟩, .here (rest := []) ⟨⟨by decide, by decide⟩, rfl⟩⟩
  · rintro ⟨v, hv⟩
    obtain ⟨_, _, w, e, hm, -⟩ := reaches_cons.1 hv
    simp only [toVal, PVal.params.injEq] at e
    obtain ⟨-, rfl⟩ := e
    simp at hm
  · rintro ⟨v, hv⟩
    obtain ⟨_, _, w, e, hm, -⟩ := reaches_cons.1 hv
    simp only [toVal, PVal.params.injEq] at e
    obtain ⟨-, rfl⟩ := e
    simp at hm

/-- A number embedded in a longer string: `a: "x%b%"`, `b: 3`. -/
example : errorOf (interpolate asciiWord ⟨[], [("a".toList, .str "x%b%".toList), ("b".toList, .int 3)]⟩ ⟨[], []⟩) = some .parameterError := by
  decide +kernel

/-- A namespace that would contain itself, `ns: {a: "%ns%"}`: no cycle of placeholders, and a `RecursionError`. -/
theorem C51_self_namespace_counterexample :
    interpolate asciiWord ⟨[], [("ns".toList, .params ["ns".toList] [("a".toList, .str "%ns%".toList)])]⟩ ⟨[], []⟩ = .error .recursionError :=
  (errorOf_iff _ _).1 (by decide +kernel)

/-- A parameter of the file that is `0` (or `""`, `False`, `[]`, `None`, an empty namespace) counts as missing: `a: "%b%"`, `b: 0`
raises `ParameterError` although `b` is there. -/
theorem C51_falsy_counterexample :
    interpolate asciiWord ⟨[], [("a".toList, .str "%b%".toList), ("b".toList, .int 0)]⟩ ⟨[], []⟩ = .error .parameterError :=
  (errorOf_iff _ _).1 (by decide +kernel)

/-- A placeholder for something inside a string of the file is an `AttributeError`: `a: "text"`, `n: "%a.c%"`. -/
theorem C51_through_leaf_counterexample :
    interpolate asciiWord ⟨[], [("a".toList, .str "text".toList), ("n".toList, .str "%a.c%".toList)]⟩ ⟨[], []⟩ = .error .attributeError :=
  (errorOf_iff _ _).1 (by decide +kernel)

/-- What `get` returns for an integer parameter (`none` if anything fails). -/
def intAt (r : Res Params) (name : Str) : Option Int :=
  match r with
  | .ok R => match R.get name .int with
    | .ok (.int i) => some i
    | _ => Option.none
  | .error _ => Option.none

/-- Without `NoneThroughLeaf` the outcome depends on the order of the file: `a: "%b%"`, `n: "%a.c.d%"`, `b: {c: {d: 1}}` in a context
`a: {c: {d: 2}}` gives `n` = 1 when `a` comes first and 2 when `n` comes first. -/
theorem C50_order_counterexample : ∃ (file file' ctx : Params), file.data.Perm file'.data ∧
    intAt (interpolate asciiWord file ctx) "n".toList = some 1 ∧ intAt (interpolate asciiWord file' ctx) "n".toList = some 2 := by
  refine ⟨⟨[], [("a".toList, .str "%b%".toList), ("n".toList, .str "%a.c.d%".toList),
      ("b".toList, .params ["b".toList] [("c".toList, .params ["b".toList, "c".toList] [("d".toList, .int 1)])])]⟩,
    ⟨[], [("n".toList, .str "%a.c.d%".toList), ("a".toList, .str "%b%".toList),
      ("b".toList, .params ["b".toList] [("c".toList, .params ["b".toList, "c".toList] [("d".toList, .int 1)])])]⟩,
    ⟨[], [("a".toList, .params ["a".toList] [("c".toList, .params ["a".toList, "c".toList] [("d".toList, .int 2)])])]⟩,
    .swap .., by decide +kernel, by decide +kernel⟩

/-- A namespace taken from the context keeps its own prefix, so the listing of the result names parameters it does not have: with
`x: "%ns%"` and `ns: {k: 1}` in the context, the result lists `ns.k`, and has no such parameter. -/
theorem C50_context_prefix_counterexample : ∃ R, interpolate asciiWord ⟨[], [("x".toList, .str "%ns%".toList)]⟩
      ⟨[], [("ns".toList, .params ["ns".toList] [("k".toList, .int 1)])]⟩ = .ok R ∧
    R.namespacedItems.map (·.1) = ["ns.k".toList] ∧ R.contains "ns.k".toList = false ∧ R.contains "x.k".toList = true := by
  generalize hr : interpolate asciiWord _ _ = r
  have key : (match r with
    | .ok R => decide (R.namespacedItems.map (·.1) = ["ns.k".toList]) && !R.contains "ns.k".toList && R.contains "x.k".toList
    | .error _ => false) = true := by subst hr; decide +kernel
  cases r with
  | error e => simp at key
  | ok R =>
    simp only [Bool.and_eq_true, decide_eq_true_eq, Bool.not_eq_true'] at key
    exact ⟨R, rfl, key.1.1, key.1.2, key.2⟩

end Interp
end Vista
