import Verif.Proofs.Prelude
import Verif.Proofs.PyDict
import Verif.Proofs.PyStr
import Verif.Spec.Params

/-! # Lemmas about `Parameters` -/
set_option linter.unusedSectionVars false
set_option linter.unusedSimpArgs false
namespace Vista
open PVal

/-- Induction on values, with the hypothesis for every entry of a mapping or namespace. -/
theorem PVal.ind {P : PVal → Prop} (leaf : ∀ v, Leaf v → P v) (dict : ∀ es : Entries, (∀ e ∈ es, P e.2) → P (.dict es))
    (params : ∀ pfx (es : Entries), (∀ e ∈ es, P e.2) → P (.params pfx es)) (v : PVal) : P v := by
  induction v using PVal.rec (motive_2 := fun _ => True) (motive_3 := fun l => ∀ e ∈ l, P e.2) (motive_4 := fun e => P e.2)
  case dict es ih => exact dict es ih
  case params pfx es ih => exact params pfx es ih
  case mk ih => exact ih
  all_goals first | exact leaf _ ⟨rfl, rfl⟩ | trivial | (simp; done) | skip
  rename_i ih1 ih2
  intro e he
  rcases List.mem_cons.1 he with rfl | he
  · exact ih1
  · exact ih2 e he

/-! ## Shape -/

theorem PVal.leaf_not_params {v : PVal} (h : Leaf v) (pfx es) : v ≠ .params pfx es := by rintro rfl; exact absurd h.1 (by simp [isParams])
theorem PVal.leaf_not_dict {v : PVal} (h : Leaf v) (es) : v ≠ .dict es := by rintro rfl; exact absurd h.2 (by simp [isMapping])

/-- Every value is a leaf, a mapping or a namespace. -/
theorem PVal.shape (v : PVal) : Leaf v ∨ (∃ es, v = .dict es) ∨ (∃ pfx es, v = .params pfx es) := by
  cases v <;> first | exact .inl ⟨rfl, rfl⟩ | exact .inr (.inl ⟨_, rfl⟩) | exact .inr (.inr ⟨_, _, rfl⟩)

theorem PVal.isParams_iff (v : PVal) : v.isParams = true ↔ ∃ pfx es, v = .params pfx es := by
  cases v <;> simp [isParams]

theorem PVal.isNone_iff (v : PVal) : v.isNone = true ↔ v = .none := by cases v <;> simp [isNone]

theorem PVal.WF.inv {pfx es} (h : WF (.params pfx es)) :
    (es.map (·.1)).Nodup ∧ (∀ e ∈ es, '.' ∉ e.1) ∧ (∀ e ∈ es, WF e.2) := by
  cases h with
  | leaf h => exact absurd rfl (leaf_not_params h _ _)
  | params a b c => exact ⟨a, b, c⟩

theorem PVal.Tree.inv {pfx es} (h : Tree (.params pfx es)) :
    (es.map (·.1)).Nodup ∧ (∀ e ∈ es, '.' ∉ e.1) ∧ (∀ e ∈ es, Tree e.2) := by
  cases h with
  | leaf h => exact absurd rfl (leaf_not_params h _ _)
  | params a b c => exact ⟨a, b, c⟩

theorem PVal.Tree.not_mapping {v} (h : Tree v) : v.isMapping = false := by
  cases h with
  | leaf h => exact h.2
  | params => rfl

theorem PVal.Plain.inv {es} (h : Plain (.dict es)) : (es.map (·.1)).Nodup ∧ (∀ e ∈ es, Plain e.2) := by
  cases h with
  | leaf h => exact absurd rfl (leaf_not_dict h _)
  | dict a b => exact ⟨a, b⟩

theorem PVal.Plain.not_params {v} (h : Plain v) : v.isParams = false := by
  cases h with
  | leaf h => exact h.1
  | dict => rfl

theorem PVal.DotFree.inv {es} (h : DotFree (.dict es)) : (∀ e ∈ es, '.' ∉ e.1) ∧ (∀ e ∈ es, DotFree e.2) := by
  cases h with
  | leaf h => exact absurd h (by simp [isMapping])
  | dict a b => exact ⟨a, b⟩

theorem PVal.Tree.wf {v : PVal} (h : Tree v) : WF v := by
  induction h with
  | leaf h => exact .leaf h
  | params a b _ ih => exact .params a b ih

/-! ## Reaching -/

theorem PVal.reaches_cons {v w : PVal} {k ks} : Reaches v (k :: ks) w ↔ ∃ pfx es u, v = .params pfx es ∧ (k, u) ∈ es ∧ Reaches u ks w := by
  constructor
  · intro h
    cases h with
    | step h1 h2 => exact ⟨_, _, _, rfl, h1, h2⟩
  · rintro ⟨pfx, es, u, rfl, h1, h2⟩
    exact .step h1 h2

theorem PVal.reaches_nil {v w : PVal} : Reaches v [] w ↔ w = v := by
  constructor
  · intro h; cases h; rfl
  · rintro rfl; exact .here _

theorem PVal.reaches_append {v w : PVal} {a b : List Str} : Reaches v (a ++ b) w ↔ ∃ u, Reaches v a u ∧ Reaches u b w := by
  induction a generalizing v with
  | nil => simp [reaches_nil]
  | cons k a ih =>
    rw [List.cons_append, reaches_cons]
    constructor
    · rintro ⟨pfx, es, u, rfl, h1, h2⟩
      obtain ⟨x, h3, h4⟩ := ih.1 h2
      exact ⟨x, .step h1 h3, h4⟩
    · rintro ⟨x, h3, h4⟩
      obtain ⟨pfx, es, u, rfl, h1, h2⟩ := reaches_cons.1 h3
      exact ⟨pfx, es, u, rfl, h1, ih.2 ⟨x, h2, h4⟩⟩

theorem PVal.WF.reaches {v w : PVal} {path} (h : WF v) (hr : Reaches v path w) : WF w := by
  induction hr with
  | here => exact h
  | step h1 _ ih => exact ih (h.inv.2.2 _ h1)

theorem PVal.Tree.reaches {v w : PVal} {path} (h : Tree v) (hr : Reaches v path w) : Tree w := by
  induction hr with
  | here => exact h
  | step h1 _ ih => exact ih (h.inv.2.2 _ h1)

theorem PVal.reaches_unique {v w w' : PVal} {path} (h : WF v) (h1 : Reaches v path w) (h2 : Reaches v path w') : w = w' := by
  induction h1 with
  | here => exact (reaches_nil.1 h2).symm
  | @step pfx es k ks v w hm _ ih =>
    obtain ⟨pfx', es', u, e, hm', h2⟩ := reaches_cons.1 h2
    simp only [PVal.params.injEq] at e
    obtain ⟨-, rfl⟩ := e
    have hn := h.inv.1
    have e1 := (dictGet_iff hn _ _).2 hm
    have e2 := (dictGet_iff hn _ _).2 hm'
    rw [e1, Option.some.injEq] at e2
    subst e2
    exact ih (h.inv.2.2 _ hm) h2

/-- Components of a path that is reached contain no dot. -/
theorem PVal.reaches_dotfree {v w : PVal} {path} (h : WF v) (hr : Reaches v path w) : ∀ k ∈ path, '.' ∉ k := by
  induction hr with
  | here => simp
  | step h1 _ ih =>
    intro k hk
    rcases List.mem_cons.1 hk with rfl | hk
    · exact h.inv.2.1 _ h1
    · exact ih (h.inv.2.2 _ h1) k hk

namespace PVal

theorem truthy_false_iff {v : PVal} : v.truthy = false ↔ v.Falsy := by
  constructor
  · intro h
    cases v with
    | none => exact .none
    | bool b => simp only [truthy] at h; subst h; exact .false
    | int i => simp only [truthy, ne_eq, decide_not, Bool.not_eq_eq_eq_not, Bool.not_false, decide_eq_true_eq] at h; subst h; exact .int
    | float q => simp only [truthy, ne_eq, decide_not, Bool.not_eq_eq_eq_not, Bool.not_false, decide_eq_true_eq] at h; subst h; exact .float
    | str s => cases s <;> simp [truthy] at h; exact .str
    | bytes s => cases s <;> simp [truthy] at h; exact .bytes
    | list s => cases s <;> simp [truthy] at h; exact .list
    | dict s => cases s <;> simp [truthy] at h; exact .dict
    | path s => simp [truthy] at h
    | obj s => simp [truthy] at h
    | params a b => simp [truthy] at h
  · intro h; cases h <;> rfl

theorem truthy_iff {v : PVal} : v.truthy = true ↔ ¬ v.Falsy := by
  rw [← truthy_false_iff, Bool.not_eq_false]

end PVal

namespace Params

/-! ## Lookup -/

theorem follow_ok {v w : PVal} {path} (h : v.WF) (hr : v.Reaches path w) (o d) : follow o d v path = .ok w := by
  induction hr with
  | here => simp [follow]
  | step h1 _ ih =>
    have := (dictGet_iff h.inv.1 _ _).2 h1
    simp only [follow, this]
    exact ih (h.inv.2.2 _ h1)

theorem follow_missing {v : PVal} {path} (h : v.WF) (hr : ¬ ∃ w, v.Reaches path w) (o d) : follow o d v path = missing o d := by
  induction path generalizing v with
  | nil => exact absurd ⟨v, .here v⟩ hr
  | cons k ks ih =>
    rcases v.shape with hl | ⟨es, rfl⟩ | ⟨pfx, es, rfl⟩
    · cases v <;> first | rfl | exact absurd rfl (leaf_not_params hl _ _)
    · rfl
    · simp only [follow]
      cases hlk : dictGet es k with
      | none => rfl
      | some u =>
        have hm := (dictGet_iff h.inv.1 _ _).1 hlk
        exact ih (h.inv.2.2 _ hm) (fun ⟨w, hw⟩ => hr ⟨w, .step hm hw⟩)

theorem contains_iff {p : Params} (h : p.WF) (name : Str) :
    p.contains name = true ↔ ∃ v, v.isNone = false ∧ p.toVal.Reaches (splitOn '.' name) v := by
  unfold contains privateGet
  by_cases hr : ∃ w, p.toVal.Reaches (splitOn '.' name) w
  · obtain ⟨w, hw⟩ := hr
    rw [follow_ok h hw]
    simp only [Bool.not_eq_true']
    exact ⟨fun hn => ⟨w, hn, hw⟩, fun ⟨v, hn, hv⟩ => reaches_unique h hw hv ▸ hn⟩
  · rw [follow_missing h hr]
    simp only [missing, PVal.isNone, Bool.not_true, Bool.false_eq_true, if_false, if_true, false_iff]
    rintro ⟨v, -, hv⟩
    exact hr ⟨v, hv⟩

/-- For a key without dots, `in` looks at the top level only. -/
theorem contains_key {p : Params} (h : p.WF) {k : Str} (hk : '.' ∉ k) :
    p.contains k = true ↔ ∃ v, v.isNone = false ∧ dictGet p.data k = some v := by
  rw [contains_iff h, splitOn_of_not_mem hk]
  constructor
  · rintro ⟨v, hn, hr⟩
    obtain ⟨pfx, es, u, e, hm, hr⟩ := reaches_cons.1 hr
    obtain rfl := reaches_nil.1 hr
    simp only [toVal, PVal.params.injEq] at e
    obtain ⟨-, rfl⟩ := e
    exact ⟨v, hn, (dictGet_iff (PVal.WF.inv h).1 _ _).2 hm⟩
  · rintro ⟨v, hn, hl⟩
    exact ⟨v, hn, .step ((dictGet_iff (PVal.WF.inv h).1 _ _).1 hl) (.here _)⟩

/-! ## The constructor -/

theorem new_ok {es : Entries} (hn : (es.map (·.1)).Nodup) (hd : ∀ e ∈ es, '.' ∉ e.1) (pfx) : Params.new es pfx = .ok ⟨pfx, es⟩ := by
  unfold Params.new
  simp only [dictOf_eq_self hn, bind, Except.bind]
  have : (es.all fun e => !(e.1.contains '.')) = true := by
    rw [List.all_eq_true]
    intro e he
    simpa using hd e he
  simp only [checkArg, this, if_true, Bool.false_eq_true, if_false]

theorem new_error {es : Entries} (hn : (es.map (·.1)).Nodup) (hd : ¬ ∀ e ∈ es, '.' ∉ e.1) (pfx) : Params.new es pfx = .error .valueError := by
  unfold Params.new
  simp only [dictOf_eq_self hn, bind, Except.bind]
  have : (es.all fun e => !(e.1.contains '.')) = false := by
    rw [List.all_eq_false]
    simp only [not_forall, not_not] at hd
    obtain ⟨e, he, hd⟩ := hd
    exact ⟨e, he, by simpa using hd⟩
  simp only [checkArg, this, if_true, Bool.false_eq_true, if_false]

/-! ## `from_mapping` and `as_nested_dicts` -/

/-- Namespaces down to the leaves, each storing its own path (starting from `pfx`). -/
inductive Canon : List Str → PVal → Prop
  | leaf {pfx : List Str} {v : PVal} : Leaf v → Canon pfx v
  | params {pfx : List Str} {es : Entries} : (es.map (·.1)).Nodup → (∀ e ∈ es, '.' ∉ e.1) → (∀ e ∈ es, Canon (pfx ++ [e.1]) e.2) →
      Canon pfx (.params pfx es)

theorem Canon.inv {pfx pfx' es} (h : Canon pfx (.params pfx' es)) :
    pfx' = pfx ∧ (es.map (·.1)).Nodup ∧ (∀ e ∈ es, '.' ∉ e.1) ∧ (∀ e ∈ es, Canon (pfx ++ [e.1]) e.2) := by
  cases h with
  | leaf h => exact absurd rfl (leaf_not_params h _ _)
  | params a b c => exact ⟨rfl, a, b, c⟩

theorem Canon.tree {pfx v} (h : Canon pfx v) : v.Tree := by
  induction h with
  | leaf h => exact .leaf h
  | params a b _ ih => exact .params a b ih

theorem Canon.reaches {pfx v w path} (h : Canon pfx v) (hr : v.Reaches path w) : Canon (pfx ++ path) w := by
  induction hr generalizing pfx with
  | here => simpa using h
  | step h1 _ ih =>
    obtain ⟨rfl, -, -, hc⟩ := h.inv
    have := ih (hc _ h1)
    simpa using this

theorem fromVal_of_not_mapping {v : PVal} (h : v.isMapping = false) (pfx) : fromVal pfx v = .ok v := by
  cases v <;> first | rfl | simp [isMapping] at h

theorem fromEntries_of_not_mapping {es : Entries} (h : ∀ e ∈ es, e.2.isMapping = false) (pfx) : fromEntries pfx es = .ok es := by
  induction es with
  | nil => rfl
  | cons e es ih =>
    obtain ⟨k, v⟩ := e
    have h1 := fromVal_of_not_mapping (h _ (List.mem_cons_self ..)) (pfx ++ [k])
    simp only [fromEntries, fromEntry, h1, ih fun e he => h e (List.mem_cons_of_mem _ he), bind, Except.bind]

/-- `from_mapping` on entries that are not mappings themselves only checks the keys. -/
theorem fromMapping_of_not_mapping {es : Entries} (hn : (es.map (·.1)).Nodup) (hd : ∀ e ∈ es, '.' ∉ e.1)
    (h : ∀ e ∈ es, e.2.isMapping = false) (pfx) : fromMapping es pfx = .ok ⟨pfx, es⟩ := by
  unfold fromMapping
  rw [fromEntries_of_not_mapping h]
  exact new_ok hn hd pfx

theorem dictifyEntries_keys (es : Entries) : (dictifyEntries es).map (·.1) = es.map (·.1) := by
  induction es with
  | nil => rfl
  | cons e es ih => obtain ⟨k, v⟩ := e; simp [dictifyEntries, dictifyEntry, ih]

theorem dictifyEntries_eq (es : Entries) : dictifyEntries es = es.map fun e => (e.1, dictify e.2) := by
  induction es with
  | nil => rfl
  | cons e es ih => obtain ⟨k, v⟩ := e; simp [dictifyEntries, dictifyEntry, ih]

theorem dictify_leaf {v : PVal} (h : Leaf v) : dictify v = v := by
  cases v <;> first | rfl | exact absurd h.1 (by simp [isParams])

theorem fromVal_leaf {v : PVal} (h : Leaf v) (pfx) : fromVal pfx v = .ok v := fromVal_of_not_mapping h.2 pfx

theorem fromVal_spec (v : PVal) (hp : v.Plain) : ∀ pfx,
    (v.DotFree → ∃ u, fromVal pfx v = .ok u ∧ Canon pfx u ∧ dictify u = v) ∧
    (¬ v.DotFree → fromVal pfx v = .error .valueError) := by
  induction v using PVal.ind with
  | leaf v hl =>
    intro pfx
    exact ⟨fun _ => ⟨v, fromVal_leaf hl pfx, .leaf hl, dictify_leaf hl⟩, fun h => absurd (.leaf hl.2) h⟩
  | params pfx es _ => exact absurd hp.not_params (by simp [isParams])
  | dict es ih =>
    intro pfx
    obtain ⟨hn, hp⟩ := hp.inv
    have key : ∀ l : Entries, (∀ e ∈ l, e ∈ es) →
        ((∀ e ∈ l, e.2.DotFree) → ∃ l', fromEntries pfx l = .ok l' ∧ l'.map (·.1) = l.map (·.1) ∧
          (∀ e ∈ l', Canon (pfx ++ [e.1]) e.2) ∧ dictifyEntries l' = l) ∧
        ((¬ ∀ e ∈ l, e.2.DotFree) → fromEntries pfx l = .error .valueError) := by
      intro l hl
      induction l with
      | nil => exact ⟨fun _ => ⟨[], rfl, rfl, by simp, rfl⟩, fun h => absurd (by simp) h⟩
      | cons e l ihl =>
        obtain ⟨k, v⟩ := e
        have hmem := hl _ (List.mem_cons_self ..)
        obtain ⟨h1, h2⟩ := ih _ hmem (hp _ hmem) (pfx ++ [k])
        obtain ⟨h3, h4⟩ := ihl fun e he => hl e (List.mem_cons_of_mem _ he)
        constructor
        · intro hd
          obtain ⟨u, e1, e2, e3⟩ := h1 (hd _ (List.mem_cons_self ..))
          obtain ⟨l', e4, e5, e6, e7⟩ := h3 fun e he => hd e (List.mem_cons_of_mem _ he)
          refine ⟨(k, u) :: l', ?_, ?_, ?_, ?_⟩
          · simp only [fromEntries, fromEntry, e1, e4, bind, Except.bind]
          · simp [e5]
          · intro e he
            rcases List.mem_cons.1 he with rfl | he
            · exact e2
            · exact e6 e he
          · simp only [dictifyEntries, dictifyEntry, e3, e7]
        · intro hd
          by_cases hv : v.DotFree
          · obtain ⟨u, e1, e2, e3⟩ := h1 hv
            have : ¬ ∀ e ∈ l, e.2.DotFree := by
              intro hall
              refine hd fun e he => ?_
              rcases List.mem_cons.1 he with rfl | he
              · exact hv
              · exact hall e he
            simp only [fromEntries, fromEntry, e1, h4 this, bind, Except.bind]
          · simp only [fromEntries, fromEntry, h2 hv, bind, Except.bind]
    obtain ⟨h1, h2⟩ := key es fun e he => he
    constructor
    · intro hd
      obtain ⟨hd1, hd2⟩ := hd.inv
      obtain ⟨l', e4, e5, e6, e7⟩ := h1 hd2
      have hn' : (l'.map (·.1)).Nodup := e5 ▸ hn
      have hd' : ∀ e ∈ l', '.' ∉ e.1 := by
        intro e he
        have : e.1 ∈ l'.map (·.1) := List.mem_map.2 ⟨e, he, rfl⟩
        rw [e5] at this
        obtain ⟨e', he', h⟩ := List.mem_map.1 this
        exact h ▸ hd1 e' he'
      refine ⟨.params pfx l', ?_, .params hn' hd' e6, ?_⟩
      · simp only [fromVal, e4, new_ok hn' hd', bind, Except.bind, toVal]
      · simp only [dictify, e7]
    · intro hd
      by_cases hall : ∀ e ∈ es, e.2.DotFree
      · obtain ⟨l', e4, e5, e6, e7⟩ := h1 hall
        have hd1 : ¬ ∀ e ∈ es, '.' ∉ e.1 := fun h => hd (.dict h hall)
        have hn' : (l'.map (·.1)).Nodup := e5 ▸ hn
        have hd' : ¬ ∀ e ∈ l', '.' ∉ e.1 := by
          intro h
          refine hd1 fun e he => ?_
          have : e.1 ∈ es.map (·.1) := List.mem_map.2 ⟨e, he, rfl⟩
          rw [← e5] at this
          obtain ⟨e', he', h'⟩ := List.mem_map.1 this
          exact h' ▸ h e' he'
        simp only [fromVal, e4, new_error hn' hd', bind, Except.bind]
      · simp only [fromVal, h2 hall, bind, Except.bind]

theorem fromVal_dict (es : Entries) (pfx) : fromVal pfx (.dict es) = (fromMapping es pfx).map toVal := by
  simp only [fromVal, fromMapping, bind, Except.bind]
  cases fromEntries pfx es with
  | error e => rfl
  | ok r => simp only; cases Params.new r pfx <;> rfl

theorem fromMapping_ok {es : Entries} {pfx} (hp : (PVal.dict es).Plain) (hd : (PVal.dict es).DotFree) :
    ∃ p, fromMapping es pfx = .ok p ∧ p.pfx = pfx ∧ Canon pfx p.toVal ∧ p.asNestedDicts = es := by
  obtain ⟨u, h1, h2, h3⟩ := (fromVal_spec _ hp pfx).1 hd
  rw [fromVal_dict] at h1
  cases h : fromMapping es pfx with
  | error e => simp [h, Except.map] at h1
  | ok p =>
    simp only [h, Except.map, Except.ok.injEq] at h1
    subst h1
    simp only [toVal, dictify, PVal.dict.injEq] at h3
    exact ⟨p, rfl, h2.inv.1, h2, h3⟩

theorem fromMapping_error {es : Entries} {pfx} (hp : (PVal.dict es).Plain) (hd : ¬ (PVal.dict es).DotFree) :
    fromMapping es pfx = .error .valueError := by
  have h1 := (fromVal_spec _ hp pfx).2 hd
  rw [fromVal_dict] at h1
  cases h : fromMapping es pfx with
  | error e => simp only [h, Except.map, Except.error.injEq] at h1; rw [h1]
  | ok p => simp [h, Except.map] at h1

/-- A `Parameters` made by `from_mapping` from a nested dictionary stores the paths of its namespaces. -/
theorem canon_of_fromMapping {es : Entries} {pfx p} (hp : (PVal.dict es).Plain) (h : fromMapping es pfx = .ok p) : Canon pfx p.toVal := by
  by_cases hd : (PVal.dict es).DotFree
  · obtain ⟨q, h1, _, h2, _⟩ := fromMapping_ok (pfx := pfx) hp hd
    rw [h, Except.ok.injEq] at h1
    exact h1 ▸ h2
  · rw [fromMapping_error hp hd] at h; simp at h

theorem Canon.dictify {pfx v} (h : Canon pfx v) : (dictify v).Plain ∧ (dictify v).DotFree ∧ fromVal pfx (dictify v) = .ok v := by
  induction v using PVal.ind generalizing pfx with
  | leaf v hl => rw [dictify_leaf hl]; exact ⟨.leaf hl, .leaf hl.2, fromVal_leaf hl pfx⟩
  | dict es _ => exact absurd h.tree.not_mapping (by simp [isMapping])
  | params pfx' es ih =>
    obtain ⟨rfl, hn, hd, hc⟩ := h.inv
    have hk := dictifyEntries_keys es
    refine ⟨.dict (hk ▸ hn) ?_, .dict ?_ ?_, ?_⟩
    · rw [dictifyEntries_eq]
      intro e he
      obtain ⟨e', he', rfl⟩ := List.mem_map.1 he
      exact (ih e' he' (hc e' he')).1
    · rw [dictifyEntries_eq]
      intro e he
      obtain ⟨e', he', rfl⟩ := List.mem_map.1 he
      exact hd e' he'
    · rw [dictifyEntries_eq]
      intro e he
      obtain ⟨e', he', rfl⟩ := List.mem_map.1 he
      exact (ih e' he' (hc e' he')).2.1
    · have : ∀ l : Entries, (∀ e ∈ l, e ∈ es) → fromEntries pfx' (dictifyEntries l) = .ok l := by
        intro l hl
        induction l with
        | nil => rfl
        | cons e l ihl =>
          obtain ⟨k, v⟩ := e
          have hm := hl _ (List.mem_cons_self ..)
          simp only [dictifyEntries, dictifyEntry, fromEntries, fromEntry, (ih _ hm (hc _ hm)).2.2,
            ihl fun e he => hl e (List.mem_cons_of_mem _ he), bind, Except.bind]
      simp only [Params.dictify, fromVal, this es fun e he => he, new_ok hn hd, bind, Except.bind, toVal]

theorem Canon.fromMapping {pfx p} (h : Canon pfx (toVal p)) : fromMapping p.asNestedDicts pfx = .ok p := by
  have h1 := h.dictify.2.2
  simp only [toVal, Params.dictify] at h1
  rw [fromVal_dict] at h1
  show Params.fromMapping (dictifyEntries p.data) pfx = _
  cases hh : Params.fromMapping (dictifyEntries p.data) pfx with
  | error e => simp [hh, Except.map] at h1
  | ok q =>
    simp only [hh, Except.map, Except.ok.injEq, toVal, PVal.params.injEq] at h1
    obtain ⟨a, b⟩ := p
    obtain ⟨a', b'⟩ := q
    simp only at h1
    rw [h1.1, h1.2]

theorem loaded_iff (p : Params) : p.Loaded ↔ Canon [] p.toVal := by
  constructor
  · rintro ⟨es, hp, h⟩; exact canon_of_fromMapping hp h
  · intro h
    exact ⟨p.asNestedDicts, h.dictify.1, h.fromMapping⟩

/-! ## `namespaced_items` -/

theorem prefixString_append (pfx : List Str) (k : Str) : prefixString pfx ++ k = joinWith '.' (pfx ++ [k]) := by
  unfold prefixString
  cases pfx with
  | nil => rfl
  | cons a l => rw [joinWith_append (by simp) (by simp)]; simp [joinWith]

theorem itemsOfVal_leaf {v : PVal} (h : v.isParams = false) (pfx k) : itemsOfVal pfx k v = [(prefixString pfx ++ k, v)] := by
  cases v <;> first | rfl | simp [isParams] at h

theorem itemsOfEntries_mem (pfx : List Str) (es : Entries) (x : Str × PVal) :
    x ∈ itemsOfEntries pfx es ↔ ∃ e ∈ es, x ∈ itemsOfVal pfx e.1 e.2 := by
  induction es with
  | nil => simp [itemsOfEntries]
  | cons e es ih => obtain ⟨k, v⟩ := e; simp [itemsOfEntries, itemsOfEntry, ih]

/-- The items of a value are its leaves under their full names. -/
theorem items_iff {pfx : List Str} {es : Entries} (h : Canon pfx (.params pfx es)) (name : Str) (v : PVal) :
    (name, v) ∈ itemsOfEntries pfx es ↔
      v.isParams = false ∧ ∃ path, (PVal.params pfx es).Reaches path v ∧ name = joinWith '.' (pfx ++ path) := by
  suffices hs : ∀ u, ∀ pfx k, Canon (pfx ++ [k]) u → ((name, v) ∈ itemsOfVal pfx k u ↔
      v.isParams = false ∧ ∃ path, u.Reaches path v ∧ name = joinWith '.' (pfx ++ k :: path)) by
    obtain ⟨-, hn, hd, hc⟩ := h.inv
    rw [itemsOfEntries_mem]
    constructor
    · rintro ⟨e, he, hx⟩
      obtain ⟨hl, path, hr, hname⟩ := (hs e.2 pfx e.1 (hc e he)).1 hx
      exact ⟨hl, e.1 :: path, .step he hr, hname⟩
    · rintro ⟨hl, path, hr, hname⟩
      cases hr with
      | here => simp [isParams] at hl
      | @step _ _ k ks u _ hm hr =>
        exact ⟨_, hm, (hs u pfx k (hc _ hm)).2 ⟨hl, ks, hr, hname⟩⟩
  intro u
  induction u using PVal.ind with
  | leaf u hl =>
    intro pfx k _
    rw [itemsOfVal_leaf hl.1, prefixString_append]
    simp only [List.mem_singleton, Prod.mk.injEq]
    constructor
    · rintro ⟨rfl, rfl⟩; exact ⟨hl.1, [], .here _, rfl⟩
    · rintro ⟨_, path, hr, rfl⟩
      cases hr with
      | here => exact ⟨rfl, rfl⟩
      | step => simp [Leaf, isParams] at hl
  | dict es _ => intro pfx k h; exact absurd h.tree.not_mapping (by simp [isMapping])
  | params pfx' es ih =>
    intro pfx k h
    obtain ⟨rfl, hn, hd, hc⟩ := h.inv
    show _ ∈ itemsOfEntries _ es ↔ _
    rw [itemsOfEntries_mem]
    constructor
    · rintro ⟨e, he, hx⟩
      obtain ⟨hl, path, hr, hname⟩ := (ih e he (pfx ++ [k]) e.1 (hc e he)).1 hx
      exact ⟨hl, e.1 :: path, .step he hr, by simpa using hname⟩
    · rintro ⟨hl, path, hr, hname⟩
      cases hr with
      | here => simp [isParams] at hl
      | @step _ _ k' ks u _ hm hr =>
        exact ⟨_, hm, (ih _ hm (pfx ++ [k]) k' (hc _ hm)).2 ⟨hl, ks, hr, by simpa using hname⟩⟩

end Params
end Vista
