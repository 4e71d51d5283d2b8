import Verif.Proofs.InterpolateResult

/-!
# Interpolation: the result as seen through the store
-/
set_option linter.unusedSectionVars false
set_option linter.unusedSimpArgs false
namespace Vista
namespace Interp
open PVal Params

/-- A store reached from the file's. -/
structure Env (file : Params) (σ : Store) : Prop where
  tree : file.Tree
  ev : Evolved (store0 file) σ
  valid : Valid (store0 file) σ

/-- An object that may be stored. -/
def CellOK (file : Params) (c : Cell) : Prop :=
  (∀ v, c = .val v → v.Tree) ∧ ∀ p, c = .ns p → ∃ pfx es, file.toVal.Reaches p (.params pfx es)

theorem cellOf_ns {q p : List Str} {u : PVal} (h : Cell.ns p = cellOf q u) : p = q ∧ ∃ pfx es, u = .params pfx es := by
  unfold cellOf at h
  split at h
  · rename_i hu
    simp only [Cell.ns.injEq] at h
    exact ⟨h, (isParams_iff u).1 hu⟩
  · simp at h

theorem Env.nodup {file : Params} {σ : Store} (h : Env file σ) : (σ.map (·.1)).Nodup := by
  rw [h.ev.keys]; exact store0_nodup h.tree

theorem Env.cellOK {file : Params} {σ : Store} (h : Env file σ) {q : List Str} {c : Cell} (hg : dictGet σ q = some c) : CellOK file c := by
  refine ⟨fun v e => h.valid.vals q v (e ▸ hg), fun p e => ?_⟩
  subst e
  obtain ⟨-, u, hr, hc⟩ := (store0_get h.tree _ _).1 (h.valid.nss q p hg)
  obtain ⟨-, pfx, es, rfl⟩ := cellOf_ns hc
  exact ⟨pfx, es, hr⟩

theorem Env.children {file : Params} {σ : Store} (h : Env file σ) {p pfx : List Str} {es : Entries}
    (hr : file.toVal.Reaches p (.params pfx es)) :
    (σ.map (·.1)).filter (fun q => decide (q.dropLast = p)) = (es.map (·.1)).map fun k => p ++ [k] := by
  rw [h.ev.keys, store0_children h.tree hr, List.map_map]; rfl

/-- Everything in the file has its place in the store. -/
theorem Env.stored {file : Params} {σ : Store} (h : Env file σ) {q : List Str} {v : PVal} (hq : q ≠ []) (hr : file.toVal.Reaches q v) :
    ∃ c, dictGet σ q = some c ∧ ((∃ s, v = .str s) ∨ c = cellOf q v) := by
  have h0 := (store0_get h.tree q _).2 ⟨hq, v, hr, rfl⟩
  by_cases hs : ∃ s, v = .str s
  · have : dictGet σ q ≠ Option.none := by rw [Ne, get_none_of_keys h.ev.keys, h0]; simp
    cases hg : dictGet σ q with
    | none => exact absurd hg this
    | some c => exact ⟨c, rfl, .inl hs⟩
  · refine ⟨_, (h.ev.same q ?_).trans h0, .inr rfl⟩
    intro s hs'
    rw [h0, Option.some.injEq] at hs'
    unfold cellOf at hs'
    split at hs'
    · simp at hs'
    · simp only [Cell.val.injEq] at hs'; exact hs ⟨s, hs'⟩

/-- What is stored comes from the file. -/
theorem Env.in_file {file : Params} {σ : Store} (h : Env file σ) {q : List Str} {c : Cell} (hg : dictGet σ q = some c) :
    q ≠ [] ∧ ∃ v, file.toVal.Reaches q v ∧ ((∃ s, v = .str s) ∨ c = cellOf q v) := by
  have : dictGet (store0 file) q ≠ Option.none := by rw [Ne, ← get_none_of_keys h.ev.keys, hg]; simp
  cases h0 : dictGet (store0 file) q with
  | none => exact absurd h0 this
  | some c0 =>
    obtain ⟨hq, v, hr, -⟩ := (store0_get h.tree q _).1 h0
    obtain ⟨c', hc', h'⟩ := h.stored hq hr
    rw [hg, Option.some.injEq] at hc'
    subst hc'
    exact ⟨hq, v, hr, h'⟩

theorem Env.child {file : Params} {σ : Store} (h : Env file σ) {p pfx : List Str} {es : Entries}
    (hr : file.toVal.Reaches p (.params pfx es)) {k : Str} (hk : k ∈ es.map (·.1)) : CellOK file (at? σ (p ++ [k])) := by
  obtain ⟨⟨a, v⟩, hm, rfl⟩ := List.mem_map.1 hk
  obtain ⟨c, hc, -⟩ := h.stored (q := p ++ [a]) (by simp) (reaches_append.2 ⟨_, hr, .step hm (.here v)⟩)
  have := h.cellOK hc
  simpa [at?, hc] using this

theorem unroll_mixed {file : Params} {σ : Store} (h : Env file σ) (n : Nat) : ∀ (c : Cell) (d : PVal), CellOK file c →
    unroll σ n c = .ok d → Mixed d := by
  induction n with
  | zero =>
    intro c d hc hu
    cases c with
    | val v => rw [unroll_val, Except.ok.injEq] at hu; exact hu ▸ .tree (hc.1 v rfl)
    | ns p => simp [unroll] at hu
  | succ n ih =>
    intro c d hc hu
    cases c with
    | val v => rw [unroll_val, Except.ok.injEq] at hu; exact hu ▸ .tree (hc.1 v rfl)
    | ns p =>
      obtain ⟨pfx, es0, hr⟩ := hc.2 p rfl
      obtain ⟨es, rfl, hf⟩ := (unroll_ns h.nodup (h.children hr) n d).1 hu
      have hk : es.map (·.1) = es0.map (·.1) := by
        have := forall₂_keys (f := id) (g := fun e : Str × PVal => e.1) (fun _ _ h => h.1) hf
        simpa using this
      obtain ⟨hn, hd, -⟩ := (PVal.Tree.reaches h.tree hr).inv
      refine .dict (hk ▸ hn) ?_ ?_
      · intro e he
        have : e.1 ∈ es0.map (·.1) := hk ▸ List.mem_map_of_mem (f := (·.1)) he
        obtain ⟨e0, he0, heq⟩ := List.mem_map.1 this
        exact heq ▸ hd e0 he0
      · intro e he
        obtain ⟨k, hk', -, hu'⟩ := forall₂_mem_right hf he
        exact ih _ _ (h.child hr hk') hu'

/-- `u` is made from the stored object `c`, as a namespace at `pfx` if it is one. -/
def Built (σ : Store) (pfx : List Str) (c : Cell) (u : PVal) : Prop := ∃ n d, unroll σ n c = .ok d ∧ fromVal pfx d = .ok u

theorem Built.tree {file : Params} {σ : Store} (h : Env file σ) {pfx : List Str} {c : Cell} {u : PVal} (hc : CellOK file c)
    (hb : Built σ pfx c u) : u.Tree := by
  obtain ⟨n, d, h1, h2⟩ := hb
  obtain ⟨u', h3, ht, -⟩ := fromVal_mixed (unroll_mixed h n c d hc h1) pfx
  rw [h2, Except.ok.injEq] at h3
  exact h3 ▸ ht

theorem Built.val {σ : Store} {pfx : List Str} {v u : PVal} (ht : v.Tree) (hb : Built σ pfx (.val v) u) : u = v := by
  obtain ⟨n, d, h1, h2⟩ := hb
  rw [unroll_val, Except.ok.injEq] at h1
  subst h1
  rw [fromVal_of_not_mapping ht.not_mapping, Except.ok.injEq] at h2
  exact h2.symm

theorem Built.ns {file : Params} {σ : Store} (h : Env file σ) {pfx p pfx0 : List Str} {u : PVal} {es0 : Entries}
    (hr : file.toVal.Reaches p (.params pfx0 es0)) (hb : Built σ pfx (.ns p) u) :
    ∃ es, u = .params pfx es ∧ es.map (·.1) = es0.map (·.1) ∧ ∀ k w, (k, w) ∈ es → Built σ (pfx ++ [k]) (at? σ (p ++ [k])) w := by
  have hc : CellOK file (.ns p) := ⟨by simp, fun p' e => by simp only [Cell.ns.injEq] at e; subst e; exact ⟨_, _, hr⟩⟩
  obtain ⟨n, d, h1, h2⟩ := hb
  cases n with
  | zero => simp [unroll] at h1
  | succ n =>
    have hmix := unroll_mixed h _ _ _ hc h1
    obtain ⟨es, rfl, hf⟩ := (unroll_ns h.nodup (h.children hr) n d).1 h1
    obtain ⟨u', h3, -, -, h4⟩ := fromVal_mixed hmix pfx
    rw [h2, Except.ok.injEq] at h3
    subst h3
    obtain ⟨es', rfl, hf'⟩ := h4 es rfl
    have hk : es.map (·.1) = es0.map (·.1) := by
      have := forall₂_keys (f := id) (g := fun e : Str × PVal => e.1) (fun _ _ h => h.1) hf
      simpa using this
    have hk' : es'.map (·.1) = es.map (·.1) := forall₂_keys (f := (·.1)) (g := (·.1)) (fun _ _ h => h.1) hf'
    refine ⟨es', rfl, hk'.trans hk, ?_⟩
    intro k w hm
    obtain ⟨e, he, e1, e2⟩ := forall₂_mem_right hf' hm
    obtain ⟨k', -, e3, e4⟩ := forall₂_mem_right hf he
    simp only at e1 e2
    subst e1
    rw [← e3] at e4
    exact ⟨n, _, e4, e2⟩

theorem Built.norm {file : Params} {σ : Store} (h : Env file σ) {pfx pfx' : List Str} {c : Cell} {u u' : PVal} (hc : CellOK file c)
    (hb : Built σ pfx c u) (hb' : Built σ pfx' c u') : Interp.norm u = Interp.norm u' := by
  obtain ⟨n, d, h1, h2⟩ := hb
  obtain ⟨n', d', h1', h2'⟩ := hb'
  obtain rfl := unroll_unique h1 h1'
  have hmix := unroll_mixed h _ _ _ hc h1
  obtain ⟨w, h3, -, h4, -⟩ := fromVal_mixed hmix pfx
  obtain ⟨w', h3', -, h4', -⟩ := fromVal_mixed hmix pfx'
  rw [h2, Except.ok.injEq] at h3
  rw [h2', Except.ok.injEq] at h3'
  rw [h3, h3', h4, h4']

/-- Following a path of the file in what was built. -/
theorem Built.reaches {file : Params} {σ : Store} (h : Env file σ) (r : List Str) : ∀ (p pfx : List Str) (es : Entries) (u0 v : PVal),
    file.toVal.Reaches p (.params pfx es) → (PVal.params pfx es).Reaches r v → Built σ p (.ns p) u0 →
    ∃ u, u0.Reaches r u ∧ Built σ (p ++ r) (if r = [] then .ns p else at? σ (p ++ r)) u := by
  induction r with
  | nil => intro p pfx es u0 v hp _ hb; exact ⟨u0, .here _, by simpa using hb⟩
  | cons k r ih =>
    intro p pfx es u0 v hp hr hb
    obtain ⟨es', rfl, hk, hsub⟩ := hb.ns h hp
    obtain ⟨pfx1, es1, w, e, hm, hrw⟩ := reaches_cons.1 hr
    simp only [PVal.params.injEq] at e
    obtain ⟨rfl, rfl⟩ := e
    have : k ∈ es'.map (·.1) := hk ▸ List.mem_map_of_mem (f := (·.1)) hm
    obtain ⟨⟨k', u1⟩, hm', rfl⟩ := List.mem_map.1 this
    have hb1 := hsub k' u1 hm'
    cases r with
    | nil => exact ⟨u1, .step hm' (.here _), by simpa using hb1⟩
    | cons k2 r =>
      obtain ⟨pfx2, es2, w2, rfl, hm2, hr2⟩ := reaches_cons.1 hrw
      have hp2 : file.toVal.Reaches (p ++ [k']) (.params pfx2 es2) := reaches_append.2 ⟨_, hp, .step hm (.here _)⟩
      obtain ⟨c, hc, hc'⟩ := h.stored (q := p ++ [k']) (by simp) hp2
      have hc2 : at? σ (p ++ [k']) = .ns (p ++ [k']) := by
        rcases hc' with ⟨s, hs⟩ | rfl
        · simp at hs
        · simp [at?, hc, cellOf, isParams]
      rw [hc2] at hb1
      obtain ⟨u, h1, h2⟩ := ih (p ++ [k']) pfx2 es2 u1 v hp2 hrw hb1
      refine ⟨u, .step hm' h1, ?_⟩
      simpa using h2

/-! ## Simulation -/

/-- The stored object `c` stands for the value `u` of the result `R`. -/
def Sim (R : Params) (c : Cell) (u : PVal) : Prop :=
  match c with
  | .val v => norm u = norm v
  | .ns p => ∃ w, R.toVal.Reaches p w ∧ norm u = norm w

theorem Sim.norm {R : Params} (hR : R.WF) {c : Cell} {u u' : PVal} (h : Sim R c u) (h' : Sim R c u') : Interp.norm u = Interp.norm u' := by
  cases c with
  | val v => exact Eq.trans h (Eq.symm h')
  | ns p =>
    obtain ⟨w, hw, e⟩ := h
    obtain ⟨w', hw', e'⟩ := h'
    rw [e, e', reaches_unique hR hw hw']

/-- The result has the namespaces of the file, with the same keys. -/
def SameNamespaces (file R : Params) : Prop := ∀ path pfx es, file.toVal.Reaches path (.params pfx es) →
    ∃ pfx' es', R.toVal.Reaches path (.params pfx' es') ∧ es'.map (·.1) = es.map (·.1)

/-- A path of the result that does not go through a leaf of the file is in the file. -/
theorem reaches_back {file R : Params} (hf : file.Tree) (hR : R.WF) (hns : SameNamespaces file R) (q : List Str) (_hq : q ≠ [])
    (hclear : Clear (store0 file) q) (u : PVal) (hu : R.toVal.Reaches q u) : ∃ v, file.toVal.Reaches q v := by
  suffices hs : ∀ r p pfx es, file.toVal.Reaches p (.params pfx es) → Clear (store0 file) (p ++ r) → (∃ u, R.toVal.Reaches (p ++ r) u) →
      ∃ v, file.toVal.Reaches (p ++ r) v from hs q [] file.pfx file.data (.here _) hclear ⟨u, hu⟩
  clear hu hclear _hq
  intro r
  induction r with
  | nil => intro p pfx es hp _ _; exact ⟨_, by simpa using hp⟩
  | cons k r ih =>
    intro p pfx es hp hc hu
    obtain ⟨u, hu⟩ := hu
    obtain ⟨pfx', es', hR', hk⟩ := hns p pfx es hp
    obtain ⟨w, hw, hw'⟩ := reaches_append.1 hu
    obtain rfl := reaches_unique hR hw hR'
    obtain ⟨_, _, w1, e, hm, hr⟩ := reaches_cons.1 hw'
    simp only [PVal.params.injEq] at e
    obtain ⟨rfl, rfl⟩ := e
    have : k ∈ es.map (·.1) := hk ▸ List.mem_map_of_mem (f := (·.1)) hm
    obtain ⟨⟨k', v1⟩, hm1, rfl⟩ := List.mem_map.1 this
    have hp1 : file.toVal.Reaches (p ++ [k']) v1 := reaches_append.2 ⟨_, hp, .step hm1 (.here _)⟩
    cases r with
    | nil => exact ⟨v1, hp1⟩
    | cons k2 r =>
      have h0 := (store0_get hf (p ++ [k']) _).2 ⟨by simp, v1, hp1, rfl⟩
      have := hc (p ++ [k']) (k2 :: r) (by simp) (by simp) (by simp) _ h0
      obtain ⟨-, pfx1, es1, rfl⟩ := cellOf_ns this.symm
      have := ih (p ++ [k']) pfx1 es1 hp1 (by simpa using hc) ⟨u, by simpa using hu⟩
      simpa using this

section
variable {word : Char → Bool}

theorem truthy_ns {file : Params} {σ : Store} (h : Env file σ) {p pfx : List Str} {es : Entries} (hr : file.toVal.Reaches p (.params pfx es)) :
    truthy σ (.ns p) = true ↔ es ≠ [] := by
  have : truthy σ (.ns p) = (σ.map (·.1)).any fun q => decide (q.dropLast = p) := by simp only [truthy, List.any_map]; rfl
  rw [this]
  have hc := h.children hr
  constructor
  · rintro ht rfl
    obtain ⟨q, hq, hp⟩ := List.any_eq_true.1 ht
    have : q ∈ (σ.map (·.1)).filter fun q => decide (q.dropLast = p) := List.mem_filter.2 ⟨hq, hp⟩
    rw [hc] at this
    simp at this
  · intro hne
    obtain ⟨e, he⟩ := List.exists_mem_of_ne_nil _ hne
    have : p ++ [e.1] ∈ (σ.map (·.1)).filter fun q => decide (q.dropLast = p) := by
      rw [hc]; exact List.mem_map_of_mem (f := fun k => p ++ [k]) (List.mem_map_of_mem (f := (·.1)) he)
    obtain ⟨h1, h2⟩ := List.mem_filter.1 this
    exact List.any_eq_true.2 ⟨_, h1, h2⟩

/-- The store simulates the result at `q`. -/
def SimAt (σ : Store) (R : Params) (q : List Str) : Prop := ∀ c, dictGet σ q = some c → ∃ u, R.toVal.Reaches q u ∧ Sim R c u

/-- The result provides a value iff what is stored counts as true. -/
theorem provides_iff {file R : Params} {σ : Store} (h : Env file σ) (hR : R.Tree) (hns : SameNamespaces file R) (m : Str)
    (hclear : Clear (store0 file) (splitOn '.' m)) (hsim : SimAt σ R (splitOn '.' m)) (u : PVal) :
    Provides file R m u ↔ R.toVal.Reaches (splitOn '.' m) u ∧ truthy σ (at? σ (splitOn '.' m)) = true := by
  unfold Provides
  refine and_congr_right fun hru => ?_
  obtain ⟨v, hv⟩ := reaches_back h.tree (PVal.Tree.wf hR) hns _ (splitOn_ne_nil _ _) hclear u hru
  obtain ⟨c, hc, hc'⟩ := h.stored (splitOn_ne_nil _ _) hv
  obtain ⟨u', hu', hs⟩ := hsim c hc
  obtain rfl := reaches_unique (PVal.Tree.wf hR) hru hu'
  have hut : u.Tree := PVal.Tree.reaches hR hru
  have hat : at? σ (splitOn '.' m) = c := by simp [at?, hc]
  rw [hat]
  have hok := h.cellOK hc
  cases c with
  | val w =>
    have hwt := hok.1 w rfl
    simp only [Sim] at hs
    -- the file has no namespace there
    have hnons : ¬ ∃ pfx' es', file.toVal.Reaches (splitOn '.' m) (.params pfx' es') := by
      rintro ⟨pfx', es', hr⟩
      obtain rfl := reaches_unique (PVal.Tree.wf h.tree) hv hr
      rcases hc' with ⟨s, hs⟩ | hs
      · simp at hs
      · simp [cellOf, isParams] at hs
    rcases hwt with hl | ⟨a, b, c⟩
    · rw [norm_leaf hl] at hs
      have := norm_isMapping hl hs hut
      subst this
      simp only [hl.1, true_and, truthy, truthy_iff]
      constructor
      · rintro (h1 | ⟨pfx, es, rfl, -⟩)
        · exact h1
        · exact absurd hl.1 (by simp [isParams])
      · exact .inl
    · simp only [truthy, PVal.truthy, iff_true]
      right
      rcases hut with hl | ⟨-, -, -⟩
      · rw [norm_leaf hl] at hs; subst hs; exact absurd hl.2 (by simp [Interp.norm, isMapping])
      · exact ⟨_, _, rfl, .inr hnons⟩
  | ns p =>
    obtain ⟨pfx0, es0, hp⟩ := hok.2 p rfl
    obtain ⟨pfx1, es1, hR1, hk1⟩ := hns p pfx0 es0 hp
    obtain ⟨w, hw, hn⟩ := hs
    obtain rfl := reaches_unique (PVal.Tree.wf hR) hw hR1
    rw [truthy_ns h hp]
    have : ∃ pfx es, u = .params pfx es ∧ es.map (·.1) = es1.map (·.1) := by
      rcases hut with hl | ⟨-, -, -⟩
      · rw [norm_leaf hl] at hn; subst hn; exact absurd hl.2 (by simp [Interp.norm, isMapping])
      · simp only [Interp.norm, PVal.dict.injEq, normEntries_eq] at hn
        refine ⟨_, _, rfl, ?_⟩
        have := congrArg (List.map (·.1)) hn
        simpa [List.map_map, Function.comp_def] using this
    obtain ⟨pfx, es, rfl, hke⟩ := this
    have hlen : es.length = es0.length := by
      have := congrArg List.length (hke.trans hk1)
      simpa using this
    have hnil : es ≠ [] ↔ es0 ≠ [] := by
      rw [← List.length_pos_iff, ← List.length_pos_iff, hlen]
    simp only [isParams, reduceCtorEq, false_and, false_or, PVal.params.injEq, Bool.true_eq_false]
    constructor
    · rintro ⟨_, _, ⟨rfl, rfl⟩, hne | hno⟩
      · exact hnil.1 hne
      · -- the parameter is a string of the file, made to share a dict
        rcases h.valid.shared _ _ hc with ⟨h1, -⟩ | h1
        · obtain ⟨-, v', hr', hcell⟩ := (store0_get h.tree _ _).1 h1
          obtain ⟨-, a, b, rfl⟩ := cellOf_ns hcell
          exact absurd ⟨a, b, hr'⟩ hno
        · rw [← truthy_congr h.ev.keys, truthy_ns h hp] at h1; exact h1
    · intro hne
      exact ⟨_, _, ⟨rfl, rfl⟩, .inl (hnil.2 hne)⟩

theorem final_iff {file ctx R : Params} {σ : Store} (h : Env file σ) (hctx : ctx.Tree) (hR : R.Tree) (hns : SameNamespaces file R) (m : Str)
    (hclear : Clear (store0 file) (splitOn '.' m)) (hsim : SimAt σ R (splitOn '.' m)) :
    (∀ c, resolve σ ctx m = .ok c → ∃ u, FinalValue file ctx R m u ∧ u.Tree ∧ Sim R c u) ∧
    (∀ u, FinalValue file ctx R m u → u.Tree ∧ ∃ c, resolve σ ctx m = .ok c ∧ Sim R c u) := by
  have hprov := provides_iff h hR hns m hclear hsim
  have hres := resolve_iff h.ev (store0_closed h.tree) (PVal.Tree.wf hctx) m hclear
  constructor
  · intro c hc
    rcases (hres c).1 hc with ⟨ht, rfl⟩ | ⟨hf, v, hv, rfl⟩
    · cases hg : dictGet σ (splitOn '.' m) with
      | none => simp [at?, hg, truthy, PVal.truthy] at ht
      | some c =>
        obtain ⟨u, hu, hs⟩ := hsim c hg
        refine ⟨u, .inl ((hprov u).2 ⟨hu, ht⟩), PVal.Tree.reaches hR hu, ?_⟩
        simpa [at?, hg] using hs
    · refine ⟨v, .inr ⟨?_, hv⟩, PVal.Tree.reaches hctx hv, rfl⟩
      rintro ⟨u', hu'⟩
      rw [((hprov u').1 hu').2] at hf; simp at hf
  · rintro u (hp | ⟨hn, hv⟩)
    · obtain ⟨hu, ht⟩ := (hprov u).1 hp
      refine ⟨PVal.Tree.reaches hR hu, _, (hres _).2 (.inl ⟨ht, rfl⟩), ?_⟩
      cases hg : dictGet σ (splitOn '.' m) with
      | none => simp [at?, hg, truthy, PVal.truthy] at ht
      | some c =>
        obtain ⟨u', hu', hs⟩ := hsim c hg
        obtain rfl := reaches_unique (PVal.Tree.wf hR) hu hu'
        simpa [at?, hg] using hs
    · refine ⟨PVal.Tree.reaches hctx hv, .val u, (hres _).2 (.inr ⟨?_, u, hv, rfl⟩), rfl⟩
      cases ht : truthy σ (at? σ (splitOn '.' m)) with
      | false => rfl
      | true =>
        exfalso
        cases hg : dictGet σ (splitOn '.' m) with
        | none => simp [at?, hg, truthy, PVal.truthy] at ht
        | some c =>
          obtain ⟨u', hu', hs⟩ := hsim c hg
          exact hn ⟨u', (hprov u').2 ⟨hu', ht⟩⟩

/-- The value a string gets stands for the value it should have, and conversely. -/
theorem replaced_iff (hw : word '%' = false) {file ctx R : Params} {σ : Store} (h : Env file σ) (hctx : ctx.Tree) (hR : R.Tree)
    (hns : SameNamespaces file R) (s : Str)
    (hclear : ∀ m, Mentions word s m → Clear (store0 file) (splitOn '.' m)) (hsim : ∀ m, Mentions word s m → SimAt σ R (splitOn '.' m)) :
    (∀ c w, interpolated word σ ctx s = .ok c → Sim R c w → w.Tree → Replaced word file ctx R s w) ∧
    (∀ w, w.Tree → Replaced word file ctx R s w → ∃ c, interpolated word σ ctx s = .ok c ∧ Sim R c w) := by
  have hfin : ∀ m, Mentions word s m → _ := fun m hm => final_iff h hctx hR hns m (hclear m hm) (hsim m hm)
  have hstr : ∀ m, Mentions word s m → ∀ x, resolve σ ctx m = .ok (.val (.str x)) ↔ FinalValue file ctx R m (.str x) := by
    intro m hm x
    obtain ⟨f1, f2⟩ := hfin m hm
    constructor
    · intro hr
      obtain ⟨u, hu, ht, hs⟩ := f1 _ hr
      have : u = .str x := norm_isMapping (v := .str x) ⟨rfl, rfl⟩ (by rw [hs]; rfl) ht
      exact this ▸ hu
    · intro hf
      obtain ⟨-, c, hc, hs⟩ := f2 _ hf
      rw [hc]
      cases c with
      | val v =>
        have hv : v.Tree := by
          rcases (resolve_iff h.ev (store0_closed h.tree) (PVal.Tree.wf hctx) m (hclear m hm) _).1 hc with ⟨-, e⟩ | ⟨-, v', hv', e⟩
          · cases hg : dictGet σ (splitOn '.' m) with
            | none => simp [at?, hg] at e; rw [e]; exact .leaf ⟨rfl, rfl⟩
            | some c => simp [at?, hg] at e; exact (h.cellOK hg).1 v e.symm
          · simp only [Cell.val.injEq] at e; exact e ▸ PVal.Tree.reaches hctx hv'
        have : v = .str x := norm_isMapping (v := .str x) ⟨rfl, rfl⟩ (by simp only [Sim] at hs; rw [← hs]; rfl) hv
        rw [this]
      | ns p =>
        exfalso
        have hok : ∃ pfx es, file.toVal.Reaches p (.params pfx es) := by
          rcases (resolve_iff h.ev (store0_closed h.tree) (PVal.Tree.wf hctx) m (hclear m hm) _).1 hc with ⟨-, e⟩ | ⟨-, v', hv', e⟩
          · cases hg : dictGet σ (splitOn '.' m) with
            | none => simp [at?, hg] at e
            | some c => simp [at?, hg] at e; exact (h.cellOK hg).2 p e.symm
          · simp at e
        obtain ⟨pfx, es, hp⟩ := hok
        obtain ⟨pfx', es', hp', -⟩ := hns p pfx es hp
        obtain ⟨w, hw, hn⟩ := hs
        obtain rfl := reaches_unique (PVal.Tree.wf hR) hw hp'
        simp [Interp.norm] at hn
  constructor
  · intro c w hi hs hwt
    unfold interpolated at hi
    cases hf : fullMatch word s with
    | some m =>
      simp only [hf] at hi
      have hst := (fullMatch_iff hw s m).1 hf
      obtain ⟨u, hu, ht, hs'⟩ := (hfin m (.here hst)).1 c hi
      refine .inl ⟨m, u, hst, hu, ?_⟩
      rw [dictify_eq_norm hwt, dictify_eq_norm ht]
      exact hs.norm (PVal.Tree.wf hR) hs'
    | none =>
      simp only [hf, bind, Except.bind] at hi
      right
      refine ⟨?_, ?_⟩
      · rintro ⟨m, hm⟩; rw [(fullMatch_iff hw s m).2 hm] at hf; simp at hf
      · cases he : expand σ ctx (tokens word s) with
        | error e => simp [he] at hi
        | ok t =>
          simp only [he, Except.ok.injEq] at hi
          subst hi
          refine ⟨t, norm_isMapping (v := .str t) ⟨rfl, rfl⟩ (by simp only [Sim] at hs; rw [hs]; rfl) hwt, ?_⟩
          exact ((expand_iff hw σ ctx s t).1 he).mono fun n x hm hr => (hstr n hm x).1 hr
  · rintro w hwt (⟨m, u, hst, hu, hd⟩ | ⟨hno, t, rfl, he⟩)
    · obtain ⟨ht, c, hc, hs⟩ := (hfin m (.here hst)).2 u hu
      refine ⟨c, ?_, ?_⟩
      · unfold interpolated; rw [(fullMatch_iff hw s m).2 hst]; exact hc
      · rw [dictify_eq_norm hwt, dictify_eq_norm ht] at hd
        cases c with
        | val v => simp only [Sim] at hs ⊢; rw [hd, hs]
        | ns p => obtain ⟨x, hx, e⟩ := hs; exact ⟨x, hx, hd.trans e⟩
    · refine ⟨.val (.str t), ?_, rfl⟩
      unfold interpolated
      have hf : fullMatch word s = Option.none := by
        cases hf : fullMatch word s with
        | none => rfl
        | some m => exact absurd ⟨m, (fullMatch_iff hw s m).1 hf⟩ hno
      simp only [hf, bind, Except.bind]
      rw [(expand_iff hw σ ctx s t).2 (he.mono fun n x hm hr => (hstr n hm x).2 hr)]

end
end Interp
end Vista
