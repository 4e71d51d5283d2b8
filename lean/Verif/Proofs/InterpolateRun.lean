import Verif.Proofs.Interpolate
import Verif.Props.Params
import Verif.Props.Graph

/-!
# Interpolation: the run
-/
set_option linter.unusedSectionVars false
set_option linter.unusedSimpArgs false
namespace Vista
namespace Interp
open PVal Params

/-- The initial store. -/
def store0 (file : Params) : Store := storeOfEntries [] file.data

theorem store0_nodup {file : Params} (h : file.Tree) : ((store0 file).map (·.1)).Nodup :=
  storeOfEntries_nodup (PVal.Tree.inv h).1 fun e he => storeOfVal_nodup ((PVal.Tree.inv h).2.2 e he) _

theorem store0_get {file : Params} (h : file.Tree) (q : List Str) (c : Cell) :
    dictGet (store0 file) q = some c ↔ q ≠ [] ∧ ∃ u, file.toVal.Reaches q u ∧ c = cellOf q u := by
  rw [dictGet_iff (store0_nodup h)]
  unfold store0
  rw [storeOfEntries_mem]
  constructor
  · rintro ⟨e, he, hm⟩
    obtain ⟨r, u, rfl, hr, rfl⟩ := (mem_storeOfVal _ _ _ _).1 hm
    exact ⟨by simp, u, .step he hr, rfl⟩
  · rintro ⟨hne, u, hr, rfl⟩
    cases q with
    | nil => exact absurd rfl hne
    | cons k q =>
      obtain ⟨pfx, es, w, e, hm, hr⟩ := reaches_cons.1 hr
      simp only [toVal, PVal.params.injEq] at e
      obtain ⟨-, rfl⟩ := e
      exact ⟨(k, w), hm, (mem_storeOfVal _ _ _ _).2 ⟨q, u, by simp, hr, rfl⟩⟩

theorem store0_children {file : Params} (h : file.Tree) {p pfx : List Str} {es : Entries} (hr : file.toVal.Reaches p (.params pfx es)) :
    ((store0 file).map (·.1)).filter (fun q => decide (q.dropLast = p)) = es.map fun e => p ++ [e.1] := by
  cases p with
  | nil =>
    have := reaches_nil.1 hr
    simp only [toVal, PVal.params.injEq] at this
    rw [this.2]
    exact children_storeOfEntries []
  | cons k p =>
    have := children_of_reaches h hr [] (by simp)
    simp only [toVal, storeOfVal, List.nil_append, List.map_cons, List.filter_cons, List.dropLast_nil] at this
    simpa [store0] using this

/-- Only strings of the file have changed. -/
structure Evolved (σ0 σ : Store) : Prop where
  keys : σ.map (·.1) = σ0.map (·.1)
  same : ∀ q, (∀ s, dictGet σ0 q ≠ some (.val (.str s))) → dictGet σ q = dictGet σ0 q

theorem Evolved.refl (σ : Store) : Evolved σ σ := ⟨rfl, fun _ _ => rfl⟩

theorem get_none_of_keys {σ σ' : Store} (h : σ.map (·.1) = σ'.map (·.1)) (q : List Str) : dictGet σ q = Option.none ↔ dictGet σ' q = Option.none := by
  rw [dictGet_none_iff, dictGet_none_iff, h]

theorem truthy_congr {σ σ' : Store} (h : σ.map (·.1) = σ'.map (·.1)) (c : Cell) : truthy σ c = truthy σ' c := by
  cases c with
  | val v => rfl
  | ns p =>
    have key : ∀ τ : Store, truthy τ (.ns p) = (τ.map (·.1)).any fun q => decide (q.dropLast = p) := by
      intro τ; simp only [truthy, List.any_map]; rfl
    rw [key, key, h]

/-- No proper part of the path is a leaf of the file. -/
def Clear (σ0 : Store) (ps : List Str) : Prop := ∀ a b, ps = a ++ b → a ≠ [] → b ≠ [] → ∀ c, dictGet σ0 a = some c → c = .ns a

/-- Whatever is stored is stored inside a dict that is stored. -/
def Closed (σ0 : Store) : Prop := ∀ a b, a ≠ [] → dictGet σ0 a = Option.none → dictGet σ0 (a ++ b) = Option.none

theorem store0_closed {file : Params} (h : file.Tree) : Closed (store0 file) := by
  intro a b ha hn
  cases hg : dictGet (store0 file) (a ++ b) with
  | none => rfl
  | some c =>
    obtain ⟨-, u, hr, -⟩ := (store0_get h _ _).1 hg
    obtain ⟨w, hw, -⟩ := reaches_append.1 hr
    rw [(store0_get h a _).2 ⟨ha, w, hw, rfl⟩] at hn
    simp at hn

theorem store0_clear_of_reaches {file : Params} (h : file.Tree) {q : List Str} {u : PVal} (hr : file.toVal.Reaches q u) :
    Clear (store0 file) q := by
  rintro a b rfl ha hb c hc
  obtain ⟨w, hw, hw'⟩ := reaches_append.1 hr
  obtain ⟨-, w', h1, rfl⟩ := (store0_get h _ _).1 hc
  obtain rfl := reaches_unique (PVal.Tree.wf h) h1 hw
  cases b with
  | nil => exact absurd rfl hb
  | cons k b =>
    obtain ⟨pfx, es, _, rfl, -⟩ := reaches_cons.1 hw'
    rfl

/-- The value at a path, `None` if there is none. -/
def at? (σ : Store) (q : List Str) : Cell := (dictGet σ q).getD (.val .none)

theorem getFrom_clear {σ0 σ : Store} (he : Evolved σ0 σ) (hcl : Closed σ0) (ps p : List Str) (hne : ps ≠ []) (hc : Clear σ0 (p ++ ps)) :
    getFrom σ (.ns p) ps = .ok (at? σ (p ++ ps)) := by
  induction ps generalizing p with
  | nil => exact absurd rfl hne
  | cons k ks ih =>
    cases ks with
    | nil => rfl
    | cons k' ks =>
      simp only [getFrom]
      cases h0 : dictGet σ0 (p ++ [k]) with
      | some c =>
        have := hc (p ++ [k]) (k' :: ks) (by simp) (by simp) (by simp) c h0
        subst this
        rw [he.same _ (by intro s; rw [h0]; simp), h0]
        simp only
        rw [ih (p ++ [k]) (by simp) (by simpa using hc)]
        simp
      | none =>
        rw [he.same _ (by intro s; rw [h0]; simp), h0]
        have h1 := hcl (p ++ [k]) (k' :: ks) (by simp) h0
        rw [← get_none_of_keys he.keys] at h1
        simp only [List.append_assoc, List.singleton_append] at h1
        simp [at?, h1]

theorem setIn_clear {σ0 σ : Store} (he : Evolved σ0 σ) (ps p : List Str) (hne : ps ≠ []) (hc : Clear σ0 (p ++ ps))
    (hcl : Closed σ0) (hk : ∃ c, dictGet σ0 (p ++ ps) = some c) (c : Cell) :
    setIn σ (.ns p) ps c = .ok (dictSet (p ++ ps) c σ) := by
  induction ps generalizing p with
  | nil => exact absurd rfl hne
  | cons k ks ih =>
    cases ks with
    | nil => rfl
    | cons k' ks =>
      simp only [setIn]
      cases h0 : dictGet σ0 (p ++ [k]) with
      | some c' =>
        have := hc (p ++ [k]) (k' :: ks) (by simp) (by simp) (by simp) c' h0
        subst this
        rw [he.same _ (by intro s; rw [h0]; simp), h0]
        simp only
        rw [ih (p ++ [k]) (by simp) (by simpa using hc) (by simpa using hk)]
        simp
      | none =>
        obtain ⟨c', hc'⟩ := hk
        have h1 := hcl (p ++ [k]) (k' :: ks) (by simp) h0
        simp only [List.append_assoc, List.singleton_append] at h1
        rw [hc'] at h1; simp at h1

/-! ## Gathering the graph -/
section
variable {word : Char → Bool}

theorem gatherFrom_spec (σ : Store) (key : Str) (g : Str → Cell) (ms : List Str)
    (h : ∀ m ∈ ms, getFrom σ root (splitOn '.' m) = .ok (g m)) :
    ∃ nodes edges, gatherFrom σ key ms = .ok (nodes, edges) ∧
      (∀ k m, (k, m) ∈ edges ↔ k = key ∧ m ∈ ms ∧ truthy σ (g m) = true) ∧
      (∀ n, n ∈ nodes ↔ (n = key ∧ ms ≠ []) ∨ (key, n) ∈ edges) := by
  induction ms with
  | nil => exact ⟨[], [], rfl, by simp, by simp⟩
  | cons m ms ih =>
    obtain ⟨ns, es, e1, e2, e3⟩ := ih fun x hx => h x (List.mem_cons_of_mem _ hx)
    simp only [gatherFrom, h m (by simp), e1, bind, Except.bind]
    by_cases ht : truthy σ (g m) = true
    · rw [if_pos ht]
      refine ⟨_, _, rfl, ?_, ?_⟩
      · intro k x
        simp only [List.mem_cons, Prod.mk.injEq, e2]
        constructor
        · rintro (⟨rfl, rfl⟩ | ⟨a, b, c⟩)
          · exact ⟨rfl, .inl rfl, ht⟩
          · exact ⟨a, .inr b, c⟩
        · rintro ⟨a, rfl | b, c⟩
          · exact .inl ⟨a, rfl⟩
          · exact .inr ⟨a, b, c⟩
      · intro n
        simp only [List.mem_cons, Prod.mk.injEq, e3, true_and]
        constructor
        · rintro (rfl | rfl | ⟨rfl, -⟩ | h')
          · exact .inl ⟨rfl, by simp⟩
          · exact .inr (.inl rfl)
          · exact .inl ⟨rfl, by simp⟩
          · exact .inr (.inr h')
        · rintro (⟨rfl, -⟩ | rfl | h')
          · exact .inl rfl
          · exact .inr (.inl rfl)
          · exact .inr (.inr (.inr h'))
    · rw [if_neg ht]
      refine ⟨_, _, rfl, ?_, ?_⟩
      · intro k x
        simp only [List.mem_cons, e2]
        constructor
        · rintro ⟨a, b, c⟩; exact ⟨a, .inr b, c⟩
        · rintro ⟨a, rfl | b, c⟩
          · exact absurd c ht
          · exact ⟨a, b, c⟩
      · intro n
        simp only [List.mem_cons, e3]
        constructor
        · rintro (rfl | ⟨rfl, -⟩ | h')
          · exact .inl ⟨rfl, by simp⟩
          · exact .inl ⟨rfl, by simp⟩
          · exact .inr h'
        · rintro (⟨rfl, -⟩ | h')
          · exact .inl rfl
          · exact .inr (.inr h')

theorem gather_spec (σ : Store) (g : Str → Cell) (items : List (Str × PVal))
    (h : ∀ k s, (k, .str s) ∈ items → ∀ m ∈ placeholders word s, getFrom σ root (splitOn '.' m) = .ok (g m)) :
    ∃ nodes edges, gather word σ items = .ok (nodes, edges) ∧
      (∀ k m, (k, m) ∈ edges ↔ ∃ s, (k, .str s) ∈ items ∧ m ∈ placeholders word s ∧ truthy σ (g m) = true) ∧
      (∀ n, n ∈ nodes ↔ (∃ s m, (n, .str s) ∈ items ∧ m ∈ placeholders word s) ∨ ∃ k, (k, n) ∈ edges) := by
  induction items with
  | nil => exact ⟨[], [], rfl, by simp, by simp⟩
  | cons e items ih =>
    obtain ⟨key, v⟩ := e
    obtain ⟨ns, es, e1, e2, e3⟩ := ih fun k s hk => h k s (List.mem_cons_of_mem _ hk)
    by_cases hv : ∃ s, v = .str s
    · obtain ⟨s, rfl⟩ := hv
      obtain ⟨ns', es', f1, f2, f3⟩ := gatherFrom_spec σ key g (placeholders word s) (h key s (by simp))
      simp only [gather, f1, e1, bind, Except.bind]
      refine ⟨_, _, rfl, ?_, ?_⟩
      · intro k m
        simp only [List.mem_append, f2, e2, List.mem_cons, Prod.mk.injEq, PVal.str.injEq]
        constructor
        · rintro (⟨rfl, a, b⟩ | ⟨s', a, b, c⟩)
          · exact ⟨s, .inl ⟨rfl, rfl⟩, a, b⟩
          · exact ⟨s', .inr a, b, c⟩
        · rintro ⟨s', ⟨rfl, rfl⟩ | a, b, c⟩
          · exact .inl ⟨rfl, b, c⟩
          · exact .inr ⟨s', a, b, c⟩
      · intro n
        simp only [List.mem_append, f3, e3, List.mem_cons, Prod.mk.injEq, PVal.str.injEq]
        constructor
        · rintro ((⟨rfl, hp⟩ | h1) | ⟨s', m, h1, h2⟩ | ⟨k, h1⟩)
          · obtain ⟨m, hm⟩ := List.exists_mem_of_ne_nil _ hp
            exact .inl ⟨s, m, .inl ⟨rfl, rfl⟩, hm⟩
          · exact .inr ⟨key, .inl h1⟩
          · exact .inl ⟨s', m, .inr h1, h2⟩
          · exact .inr ⟨k, .inr h1⟩
        · rintro (⟨s', m, ⟨rfl, rfl⟩ | h1, h2⟩ | ⟨k, h1 | h1⟩)
          · exact .inl (.inl ⟨rfl, List.ne_nil_of_mem h2⟩)
          · exact .inr (.inl ⟨s', m, h1, h2⟩)
          · obtain ⟨rfl, -⟩ := (f2 k n).1 h1
            exact .inl (.inr h1)
          · exact .inr (.inr ⟨k, h1⟩)
    · have hg : gather word σ ((key, v) :: items) = gather word σ items := by
        cases v <;> first | rfl | exact absurd ⟨_, rfl⟩ hv
      rw [hg]
      have hmem : ∀ k s, (k, PVal.str s) ∈ (key, v) :: items ↔ (k, PVal.str s) ∈ items := by
        intro k s
        simp only [List.mem_cons, Prod.mk.injEq, or_iff_right_iff_imp]
        rintro ⟨-, h'⟩; exact absurd ⟨s, h'.symm⟩ hv
      refine ⟨ns, es, e1, ?_, ?_⟩
      · intro k m; simp only [hmem, e2]
      · intro n; simp only [hmem, e3]

theorem gatherFrom_ok {σ : Store} {key : Str} {ms : List Str} {r} (h : gatherFrom σ key ms = .ok r) :
    ∀ m ∈ ms, ∃ c, getFrom σ root (splitOn '.' m) = .ok c := by
  induction ms generalizing r with
  | nil => simp
  | cons m ms ih =>
    simp only [gatherFrom, bind, Except.bind] at h
    cases hg : getFrom σ root (splitOn '.' m) with
    | error e => simp [hg] at h
    | ok c =>
      simp only [hg] at h
      cases hg' : gatherFrom σ key ms with
      | error e => simp [hg'] at h
      | ok r' =>
        intro x hx
        rcases List.mem_cons.1 hx with rfl | hx
        · exact ⟨c, hg⟩
        · exact ih hg' x hx

theorem gather_ok {σ : Store} {items : List (Str × PVal)} {r} (h : gather word σ items = .ok r) :
    ∀ k s, (k, .str s) ∈ items → ∀ m ∈ placeholders word s, ∃ c, getFrom σ root (splitOn '.' m) = .ok c := by
  induction items generalizing r with
  | nil => simp
  | cons e items ih =>
    obtain ⟨key, v⟩ := e
    intro k s hk
    by_cases hv : ∃ s, v = .str s
    · obtain ⟨s', rfl⟩ := hv
      simp only [gather, bind, Except.bind] at h
      cases hg : gatherFrom σ key (placeholders word s') with
      | error e => simp [hg] at h
      | ok c =>
        simp only [hg] at h
        cases hg' : gather word σ items with
        | error e => simp [hg'] at h
        | ok r' =>
          rcases List.mem_cons.1 hk with heq | hk
          · simp only [Prod.mk.injEq, PVal.str.injEq] at heq
            rw [heq.2]
            exact gatherFrom_ok hg
          · exact ih hg' k s hk
    · have hg : gather word σ ((key, v) :: items) = gather word σ items := by
        cases v <;> first | rfl | exact absurd ⟨_, rfl⟩ hv
      rw [hg] at h
      rcases List.mem_cons.1 hk with heq | hk
      · simp only [Prod.mk.injEq] at heq
        exact absurd ⟨s, heq.2.symm⟩ hv
      · exact ih h k s hk

/-! ## One value -/

/-- All that the interpolated value of `s` depends on. -/
theorem resolve_congr {σ0 σ σ' : Store} (h : Evolved σ0 σ) (h' : Evolved σ0 σ') (hcl : Closed σ0) (ctx : Params) (m : Str)
    (hc : Clear σ0 (splitOn '.' m)) (heq : dictGet σ (splitOn '.' m) = dictGet σ' (splitOn '.' m)) :
    resolve σ ctx m = resolve σ' ctx m := by
  unfold resolve root
  rw [getFrom_clear h hcl _ _ (splitOn_ne_nil _ _) (by simpa using hc), getFrom_clear h' hcl _ _ (splitOn_ne_nil _ _) (by simpa using hc)]
  simp only [List.nil_append, at?, heq, bind, Except.bind, truthy_congr (h.keys.trans h'.keys.symm)]
  rfl

theorem expand_congr (hw : word '%' = false) {σ σ' : Store} (ctx : Params) (s : Str)
    (h : ∀ m, Mentions word s m → resolve σ ctx m = resolve σ' ctx m) :
    expand σ ctx (tokens word s) = expand σ' ctx (tokens word s) := by
  induction s using scan_induction hw with
  | nil => rw [tokens_nil]; rfl
  | placeholder s n rest hs ih =>
    rw [tokens_starts hw hs]
    simp only [expand, h n (.here hs), ih fun m hm => h m (.later hs hm)]
  | char c s hs ih =>
    rw [tokens_char hw hs]
    simp only [expand, ih fun m hm => h m (.char hs hm)]

theorem interpolated_congr (hw : word '%' = false) {σ σ' : Store} (ctx : Params) (s : Str)
    (h : ∀ m, Mentions word s m → resolve σ ctx m = resolve σ' ctx m) :
    interpolated word σ ctx s = interpolated word σ' ctx s := by
  unfold interpolated
  cases hf : fullMatch word s with
  | some n => exact h n (.here ((fullMatch_iff hw s n).1 hf))
  | none => simp only [expand_congr hw ctx s h]

theorem expand_plain (hw : word '%' = false) (σ : Store) (ctx : Params) (s : Str) (h : ¬ ∃ m, Mentions word s m) :
    expand σ ctx (tokens word s) = .ok s := by
  induction s using scan_induction hw with
  | nil => rw [tokens_nil]; rfl
  | placeholder s n rest hs ih => exact absurd ⟨n, .here hs⟩ h
  | char c s hs ih =>
    rw [tokens_char hw hs]
    simp only [expand, ih fun ⟨m, hm⟩ => h ⟨m, .char hs hm⟩, bind, Except.bind]

theorem interpolated_plain (hw : word '%' = false) (σ : Store) (ctx : Params) (s : Str) (h : ¬ ∃ m, Mentions word s m) :
    interpolated word σ ctx s = .ok (.val (.str s)) := by
  unfold interpolated
  cases hf : fullMatch word s with
  | some n => exact absurd ⟨n, .here ((fullMatch_iff hw s n).1 hf)⟩ h
  | none => simp only [expand_plain hw σ ctx s h, bind, Except.bind]

/-! ## The loop -/

/-- What may be stored. -/
structure Valid (σ0 σ : Store) : Prop where
  vals : ∀ q v, dictGet σ q = some (.val v) → v.Tree
  nss : ∀ q p, dictGet σ q = some (.ns p) → dictGet σ0 p = some (.ns p)
  shared : ∀ q p, dictGet σ q = some (.ns p) → (dictGet σ0 q = some (.ns q) ∧ p = q) ∨ truthy σ0 (.ns p) = true

theorem resolve_iff {σ0 σ : Store} (h : Evolved σ0 σ) (hcl : Closed σ0) {ctx : Params} (hctx : ctx.WF) (m : Str)
    (hc : Clear σ0 (splitOn '.' m)) (c : Cell) :
    resolve σ ctx m = .ok c ↔
      (truthy σ (at? σ (splitOn '.' m)) = true ∧ c = at? σ (splitOn '.' m)) ∨
      (truthy σ (at? σ (splitOn '.' m)) = false ∧ ∃ v, ctx.toVal.Reaches (splitOn '.' m) v ∧ c = .val v) := by
  unfold resolve root
  rw [getFrom_clear h hcl _ _ (splitOn_ne_nil _ _) (by simpa using hc)]
  simp only [List.nil_append, bind, Except.bind]
  by_cases ht : truthy σ (at? σ (splitOn '.' m)) = true
  · simp [ht, eq_comm]
  · simp only [ht, Bool.false_eq_true, if_false, false_and, false_or]
    unfold privateGet
    by_cases hr : ∃ w, ctx.toVal.Reaches (splitOn '.' m) w
    · obtain ⟨w, hw⟩ := hr
      simp only [follow_ok hctx hw, Except.ok.injEq]
      constructor
      · rintro rfl; exact ⟨trivial, w, hw, rfl⟩
      · rintro ⟨-, v, hv, rfl⟩; rw [reaches_unique hctx hw hv]
    · simp only [follow_missing hctx hr, missing, PVal.isNone, Bool.not_true, Bool.false_eq_true, if_false, reduceCtorEq, false_iff]
      rintro ⟨-, v, hv, -⟩; exact hr ⟨v, hv⟩

theorem interpolated_valid (hw : word '%' = false) {σ0 σ : Store} (h : Evolved σ0 σ) (hv : Valid σ0 σ) (hcl : Closed σ0) {ctx : Params} (hctx : ctx.Tree) {s : Str}
    (hc : ∀ m, Mentions word s m → Clear σ0 (splitOn '.' m)) {c : Cell} (hi : interpolated word σ ctx s = .ok c) :
    (∀ v, c = .val v → v.Tree) ∧ (∀ p, c = .ns p → dictGet σ0 p = some (.ns p) ∧ truthy σ0 (.ns p) = true) := by
  unfold interpolated at hi
  cases hf : fullMatch word s with
  | some m =>
    simp only [hf] at hi
    have hm := (fullMatch_iff hw s m).1 hf
    rcases (resolve_iff h hcl (PVal.Tree.wf hctx) m (hc m (.here hm)) c).1 hi with ⟨ht, rfl⟩ | ⟨-, v, hr, rfl⟩
    · unfold at? at ht ⊢
      cases hg : dictGet σ (splitOn '.' m) with
      | none => rw [hg] at ht; simp [truthy, PVal.truthy] at ht
      | some c =>
        rw [hg] at ht
        simp only [Option.getD_some] at ht ⊢
        refine ⟨fun v e => hv.vals _ v (e ▸ hg), fun p e => ⟨hv.nss _ p (e ▸ hg), ?_⟩⟩
        subst e
        rw [← truthy_congr h.keys]; exact ht
    · exact ⟨fun v' e => by simp only [Cell.val.injEq] at e; exact e ▸ PVal.Tree.reaches hctx hr, fun p e => by simp at e⟩
  | none =>
    simp only [hf, bind, Except.bind] at hi
    cases he : expand σ ctx (tokens word s) with
    | error e => simp [he] at hi
    | ok t =>
      simp only [he, Except.ok.injEq] at hi
      subst hi
      exact ⟨fun v e => by simp only [Cell.val.injEq] at e; exact e ▸ .leaf ⟨rfl, rfl⟩, fun p e => by simp at e⟩

theorem store0_valid {file : Params} (h : file.Tree) : Valid (store0 file) (store0 file) := by
  have hcell : ∀ q c, dictGet (store0 file) q = some c → (∀ v, c = .val v → v.Tree) ∧ (∀ p, c = .ns p → p = q) := by
    intro q c hg
    obtain ⟨-, u, hr, rfl⟩ := (store0_get h _ _).1 hg
    unfold cellOf
    split
    · exact ⟨by simp, fun p e => by simpa using e.symm⟩
    · refine ⟨fun v e => ?_, by simp⟩
      simp only [Cell.val.injEq] at e
      exact e ▸ PVal.Tree.reaches h hr
  refine ⟨fun q v hg => (hcell q _ hg).1 v rfl, fun q p hg => ?_, fun q p hg => ?_⟩
  · have := (hcell q _ hg).2 p rfl
    subst this; exact hg
  · have := (hcell q _ hg).2 p rfl
    subst this; exact .inl ⟨hg, rfl⟩

/-- What is known about the order in which the parameters are interpolated. -/
structure Plan (word : Char → Bool) (σ0 : Store) (L : List Str) : Prop where
  nodup : L.Nodup
  /-- The parameters to interpolate are there, and count as true. -/
  present : ∀ n ∈ L, Clear σ0 (splitOn '.' n) ∧ ∃ c, dictGet σ0 (splitOn '.' n) = some c ∧ truthy σ0 c = true
  /-- Every string with a placeholder is to be interpolated, and no placeholder goes through a leaf. -/
  covers : ∀ q s m, dictGet σ0 q = some (.val (.str s)) → Mentions word s m →
    (∃ n ∈ L, splitOn '.' n = q) ∧ Clear σ0 (splitOn '.' m)
  /-- What a parameter depends on comes before it. -/
  deps : ∀ D n rest, L = D ++ n :: rest → ∀ s m, dictGet σ0 (splitOn '.' n) = some (.val (.str s)) → Mentions word s m →
    truthy σ0 (at? σ0 (splitOn '.' m)) = true → m ∈ D

theorem splitOn_inj {c : Char} {a b : Str} (h : splitOn c a = splitOn c b) : a = b := by
  rw [← joinWith_splitOn c a, h, joinWith_splitOn]

/-- The loop invariant after the parameters `D`. -/
structure Inv (word : Char → Bool) (σ0 : Store) (ctx : Params) (D : List Str) (σ : Store) : Prop where
  ev : Evolved σ0 σ
  valid : Valid σ0 σ
  todo : ∀ q, (∀ n ∈ D, splitOn '.' n ≠ q) → dictGet σ q = dictGet σ0 q
  done : ∀ n ∈ D, ∀ s, dictGet σ0 (splitOn '.' n) = some (.val (.str s)) →
    ∃ c, dictGet σ (splitOn '.' n) = some c ∧ interpolated word σ ctx s = .ok c

theorem Inv.start (word : Char → Bool) {σ0 : Store} (hv : Valid σ0 σ0) (ctx : Params) : Inv word σ0 ctx [] σ0 :=
  ⟨.refl _, hv, fun _ _ => rfl, by simp⟩

theorem str_truthy_of_mentions {σ0 : Store} {s m : Str} (h : Mentions word s m) : truthy σ0 (.val (.str s)) = true := by
  have := h.ne_nil
  cases s with
  | nil => exact absurd rfl this
  | cons => rfl

/-- The value a string gets in a step. -/
theorem stepNode_eq {σ0 σ : Store} {ctx : Params} {L D rest : List Str} {n : Str} (hcl : Closed σ0) (hp : Plan word σ0 L)
    (hL : L = D ++ n :: rest) (hi : Inv word σ0 ctx D σ) :
    (∀ s, dictGet σ0 (splitOn '.' n) = some (.val (.str s)) →
      stepNode word ctx σ n = (interpolated word σ ctx s).bind fun c => .ok (dictSet (splitOn '.' n) c σ)) ∧
    ((∀ s, dictGet σ0 (splitOn '.' n) ≠ some (.val (.str s))) → stepNode word ctx σ n = .ok σ) := by
  have hnL : n ∈ L := by rw [hL]; simp
  obtain ⟨hc, c, hg, ht⟩ := hp.present n hnL
  have hnD : ∀ x ∈ D, splitOn '.' x ≠ splitOn '.' n := by
    intro x hx h
    have := splitOn_inj h
    subst this
    have := hp.nodup
    rw [hL, List.nodup_append] at this
    exact this.2.2 x hx x (by simp) rfl
  have hσ : dictGet σ (splitOn '.' n) = some c := by rw [hi.todo _ hnD, hg]
  have hget : getFrom σ root (splitOn '.' n) = .ok c := by
    unfold root
    rw [getFrom_clear hi.ev hcl _ _ (splitOn_ne_nil _ _) (by simpa using hc)]
    simp [at?, hσ]
  have ht' : truthy σ c = true := by rw [truthy_congr hi.ev.keys]; exact ht
  constructor
  · intro s hs
    rw [hg, Option.some.injEq] at hs
    subst hs
    unfold stepNode
    simp only [hget, bind, Except.bind, ht', if_true]
    cases hint : interpolated word σ ctx s with
    | error e => rfl
    | ok w =>
      simp only [root]
      rw [setIn_clear hi.ev _ _ (splitOn_ne_nil _ _) (by simpa using hc) hcl ⟨_, by simpa using hg⟩]
      simp
  · intro hns
    unfold stepNode
    simp only [hget, bind, Except.bind, ht', if_true]
    rw [hg] at hns
    cases c with
    | ns p => rfl
    | val v => cases v <;> first | rfl | exact absurd rfl (hns _)

theorem Inv.step (hw : word '%' = false) {σ0 σ : Store} {ctx : Params} {L D rest : List Str} {n : Str} (hcl : Closed σ0) (hctx : ctx.Tree) (hp : Plan word σ0 L)
    (hL : L = D ++ n :: rest) (hi : Inv word σ0 ctx D σ) {s : Str} (hs : dictGet σ0 (splitOn '.' n) = some (.val (.str s)))
    {c : Cell} (hint : interpolated word σ ctx s = .ok c) : Inv word σ0 ctx (D ++ [n]) (dictSet (splitOn '.' n) c σ) := by
  have hnd : n ∉ D := by
    intro h
    have := hp.nodup
    rw [hL, List.nodup_append] at this
    exact this.2.2 n h n (by simp) rfl
  have hk : splitOn '.' n ∈ σ.map (·.1) := by
    rw [hi.ev.keys]
    exact (dictGet_isSome_iff _ _).1 ⟨_, hs⟩
  have hev : Evolved σ0 (dictSet (splitOn '.' n) c σ) := by
    refine ⟨?_, fun q hq => ?_⟩
    · rw [Vista.keys_dictSet_eq, if_pos hk, hi.ev.keys]
    · rw [dictGet_dictSet, if_neg, hi.ev.same q hq]
      rintro rfl; exact hq s hs
  -- no parameter done so far mentions this one
  have hnot : ∀ x ∈ D ++ [n], ∀ t, dictGet σ0 (splitOn '.' x) = some (.val (.str t)) → ∀ m, Mentions word t m →
      resolve σ ctx m = resolve (dictSet (splitOn '.' n) c σ) ctx m := by
    intro x hx t ht m hm
    obtain ⟨-, hclear⟩ := hp.covers _ _ _ ht hm
    by_cases hmn : m = n
    · -- then `m` is this parameter, whose value counts as true or has no placeholder
      subst hmn
      exfalso
      have htr : truthy σ0 (at? σ0 (splitOn '.' m)) = true := by
        obtain ⟨-, c', hc', htc⟩ := hp.present m (by rw [hL]; simp)
        simp [at?, hc', htc]
      rcases List.mem_append.1 hx with hx | hx
      · obtain ⟨a, b, rfl⟩ := List.append_of_mem hx
        have := hp.deps a x (b ++ m :: rest) (by rw [hL]; simp) t m ht hm htr
        exact hnd (by simp [this])
      · simp only [List.mem_singleton] at hx
        subst hx
        exact hnd (hp.deps D x rest hL t x ht hm htr)
    · refine resolve_congr hi.ev hev hcl ctx m hclear ?_
      rw [dictGet_dictSet, if_neg]
      intro h; exact hmn (splitOn_inj h)
  have hval : Valid σ0 (dictSet (splitOn '.' n) c σ) := by
    obtain ⟨v1, v2⟩ := interpolated_valid hw hi.ev hi.valid hcl hctx (fun m hm => (hp.covers _ _ _ hs hm).2) hint
    refine ⟨fun q v hg => ?_, fun q p hg => ?_, fun q p hg => ?_⟩
    · rw [dictGet_dictSet] at hg
      split at hg
      · exact v1 v (by simpa using hg)
      · exact hi.valid.vals q v hg
    · rw [dictGet_dictSet] at hg
      split at hg
      · exact (v2 p (by simpa using hg)).1
      · exact hi.valid.nss q p hg
    · rw [dictGet_dictSet] at hg
      split at hg
      · exact .inr (v2 p (by simpa using hg)).2
      · exact hi.valid.shared q p hg
  refine ⟨hev, hval, ?_, ?_⟩
  · intro q hq
    rw [dictGet_dictSet, if_neg (fun h => hq n (by simp) h.symm)]
    exact hi.todo q fun x hx => hq x (by simp [hx])
  · intro x hx t ht
    rw [dictGet_dictSet]
    rw [← interpolated_congr hw ctx t (hnot x hx t ht)]
    by_cases hxn : x = n
    · subst hxn
      rw [if_pos rfl]
      rw [hs] at ht
      simp only [Option.some.injEq, Cell.val.injEq, PVal.str.injEq] at ht
      subst ht
      exact ⟨c, rfl, hint⟩
    · rw [if_neg (fun h => hxn (splitOn_inj h))]
      rcases List.mem_append.1 hx with hx | hx
      · exact hi.done x hx t ht
      · simp only [List.mem_singleton] at hx; exact absurd hx hxn

theorem Inv.skip {σ0 σ : Store} {ctx : Params} {D : List Str} {n : Str} (hi : Inv word σ0 ctx D σ)
    (hns : ∀ s, dictGet σ0 (splitOn '.' n) ≠ some (.val (.str s))) : Inv word σ0 ctx (D ++ [n]) σ := by
  refine ⟨hi.ev, hi.valid, fun q hq => hi.todo q fun x hx => hq x (by simp [hx]), ?_⟩
  intro x hx t ht
  rcases List.mem_append.1 hx with hx | hx
  · exact hi.done x hx t ht
  · simp only [List.mem_singleton] at hx
    subst hx
    exact absurd ht (hns t)

theorem run_inv (hw : word '%' = false) {σ0 : Store} {ctx : Params} {L : List Str} (hcl : Closed σ0) (hctx : ctx.Tree) (hp : Plan word σ0 L)
    (rest : List Str) : ∀ (D : List Str) (σ σ' : Store), L = D ++ rest → Inv word σ0 ctx D σ →
      rest.foldlM (stepNode word ctx) σ = .ok σ' → Inv word σ0 ctx L σ' := by
  induction rest with
  | nil =>
    intro D σ σ' hL hi h
    simp only [List.foldlM_nil, pure, Except.pure, Except.ok.injEq] at h
    subst h
    rw [hL, List.append_nil]; exact hi
  | cons n rest ih =>
    intro D σ σ' hL hi h
    simp only [List.foldlM_cons, bind, Except.bind] at h
    obtain ⟨h1, h2⟩ := stepNode_eq hcl hp hL hi
    by_cases hs : ∃ s, dictGet σ0 (splitOn '.' n) = some (.val (.str s))
    · obtain ⟨s, hs⟩ := hs
      rw [h1 s hs] at h
      cases hint : interpolated word σ ctx s with
      | error e => simp [hint, Except.bind] at h
      | ok c =>
        simp only [hint, Except.bind] at h
        exact ih (D ++ [n]) _ _ (by rw [hL]; simp) (hi.step hw hcl hctx hp hL hs hint) h
    · have hs' : ∀ s, dictGet σ0 (splitOn '.' n) ≠ some (.val (.str s)) := fun s h => hs ⟨s, h⟩
      rw [h2 hs'] at h
      exact ih (D ++ [n]) _ _ (by rw [hL]; simp) (hi.skip hs') h

end
end Interp
end Vista
