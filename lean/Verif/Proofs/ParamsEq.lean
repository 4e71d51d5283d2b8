import Verif.Spec.ParamsEq
import Verif.Proofs.Params
import Mathlib.Data.List.Perm.Basic

/-!
# Equality of parameters: lemmas
-/
set_option linter.unusedSectionVars false
set_option linter.unusedSimpArgs false
namespace Vista
namespace ParamsEq
open PVal (Leaf)

/-- Induction on values, with the hypothesis for every part. -/
theorem deepInd {P : PVal → Prop} (leaf : ∀ v, Leaf v → (∀ xs, v ≠ .list xs) → P v) (list : ∀ xs : List PVal, (∀ x ∈ xs, P x) → P (.list xs))
    (dict : ∀ es : Entries, (∀ e ∈ es, P e.2) → P (.dict es))
    (params : ∀ pfx (es : Entries), (∀ e ∈ es, P e.2) → P (.params pfx es)) (v : PVal) : P v := by
  induction v using PVal.rec (motive_2 := fun l => ∀ x ∈ l, P x) (motive_3 := fun l => ∀ e ∈ l, P e.2) (motive_4 := fun e => P e.2)
  case dict es ih => exact dict es ih
  case params pfx es ih => exact params pfx es ih
  case list xs ih => exact list xs ih
  case mk ih => exact ih
  case cons ih1 ih2 e he =>
    rcases List.mem_cons.1 he with rfl | he
    · exact ih1
    · exact ih2 e he
  case cons ih1 ih2 e he =>
    rcases List.mem_cons.1 he with rfl | he
    · exact ih1
    · exact ih2 e he
  all_goals first | exact leaf _ ⟨rfl, rfl⟩ (by simp) | (rename_i he; cases he)

theorem num_iff (v : PVal) (q : Rat) : num? v = some q ↔ IsNumber v q := by
  constructor
  · intro h
    cases v <;> simp only [num?, Option.some.injEq, reduceCtorEq] at h
    case bool b => cases b <;> simp at h <;> subst h <;> constructor
    all_goals subst h; constructor
  · rintro (_ | _ | _ | _) <;> simp [num?]

theorem atomEq_iff {v : PVal} (hv : Leaf v) (hnl : ∀ xs, v ≠ .list xs) (w : PVal) : atomEq v w = true ↔ Same v w := by
  constructor
  · intro h
    unfold atomEq at h
    cases hvn : num? v with
    | some a =>
      cases hwn : num? w with
      | some b =>
        simp only [hvn, hwn, decide_eq_true_eq] at h
        subst h
        exact .number ((num_iff _ _).1 hvn) ((num_iff _ _).1 hwn)
      | none => simp [hvn, hwn] at h
    | none =>
      cases hwn : num? w with
      | some b => simp [hvn, hwn] at h
      | none =>
        simp only [hvn, hwn] at h
        cases v <;> cases w <;> simp at h
        · exact .none
        · subst h; exact .str _
        · subst h; exact .path _
        · subst h; exact .bytes _
        · subst h; exact .obj _
  · intro h
    cases h with
    | number h1 h2 =>
      have a1 := (num_iff _ _).2 h1
      have a2 := (num_iff _ _).2 h2
      simp [atomEq, a1, a2]
    | none => rfl
    | list => exact absurd rfl (hnl _)
    | dict => exact absurd hv.2 (by simp [PVal.isMapping])
    | params => exact absurd hv.1 (by simp [PVal.isParams])
    | _ => simp [atomEq, num?]

theorem listEq_iff (xs ys : List PVal) : listEq xs ys = true ↔ xs.length = ys.length ∧ ∀ (i : Nat) x y, xs[i]? = some x → ys[i]? = some y → pyEq x y = true := by
  induction xs generalizing ys with
  | nil => cases ys <;> simp [listEq]
  | cons x xs ih =>
    cases ys with
    | nil => simp [listEq]
    | cons y ys =>
      simp only [listEq, Bool.and_eq_true, ih, List.length_cons, Nat.add_right_cancel_iff]
      constructor
      · rintro ⟨h1, h2, h3⟩
        refine ⟨h2, ?_⟩
        intro i a b ha hb
        cases i with
        | zero => simp only [List.getElem?_cons_zero, Option.some.injEq] at ha hb; subst ha; subst hb; exact h1
        | succ i => exact h3 i a b (by simpa using ha) (by simpa using hb)
      · rintro ⟨h2, h3⟩
        exact ⟨h3 0 x y rfl rfl, h2, fun i a b ha hb => h3 (i + 1) a b (by simpa using ha) (by simpa using hb)⟩

theorem entriesEq_iff (es fs : Entries) : entriesEq es fs = true ↔ ∀ k v, (k, v) ∈ es → ∃ w, dictGet fs k = some w ∧ pyEq v w = true := by
  induction es with
  | nil => simp [entriesEq]
  | cons e es ih =>
    obtain ⟨k, v⟩ := e
    simp only [entriesEq, Bool.and_eq_true, ih, entryEq, List.mem_cons, Prod.mk.injEq]
    constructor
    · rintro ⟨h1, h2⟩ k' v' (⟨rfl, rfl⟩ | h)
      · cases hg : dictGet fs k' with
        | none => simp [hg] at h1
        | some w => exact ⟨w, rfl, by simpa [hg] using h1⟩
      · exact h2 k' v' h
    · intro h
      refine ⟨?_, fun k' v' h' => h k' v' (.inr h')⟩
      obtain ⟨w, hw, hw'⟩ := h k v (.inl ⟨rfl, rfl⟩)
      simp [hw, hw']

theorem mapEq_iff {es fs : Entries} (he : (es.map (·.1)).Nodup) (hf : (fs.map (·.1)).Nodup) {R : PVal → PVal → Prop}
    (hR : ∀ e ∈ es, ∀ f ∈ fs, pyEq e.2 f.2 = true ↔ R e.2 f.2) :
    (es.length = fs.length ∧ entriesEq es fs = true) ↔
      (∀ k, k ∈ es.map (·.1) ↔ k ∈ fs.map (·.1)) ∧ ∀ k v w, (k, v) ∈ es → (k, w) ∈ fs → R v w := by
  rw [entriesEq_iff]
  constructor
  · rintro ⟨hl, h⟩
    have hsub : es.map (·.1) ⊆ fs.map (·.1) := by
      intro k hk
      obtain ⟨e, he', rfl⟩ := List.mem_map.1 hk
      obtain ⟨w, hw, -⟩ := h e.1 e.2 he'
      exact List.mem_map.2 ⟨(e.1, w), (dictGet_iff hf _ _).1 hw, rfl⟩
    have hperm : (es.map (·.1)).Perm (fs.map (·.1)) :=
      (List.subperm_of_subset he hsub).perm_of_length_le (by simp [hl])
    refine ⟨fun k => hperm.mem_iff, fun k v w hv hw => ?_⟩
    obtain ⟨w', hw', hq⟩ := h k v hv
    rw [(dictGet_iff hf k w).2 hw, Option.some.injEq] at hw'
    subst hw'
    exact (hR _ hv _ hw).1 hq
  · rintro ⟨hk, h⟩
    refine ⟨?_, fun k v hv => ?_⟩
    · have hperm : (es.map (·.1)).Perm (fs.map (·.1)) := (List.perm_ext_iff_of_nodup he hf).2 hk
      simpa using hperm.length_eq
    · obtain ⟨f, hf', rfl⟩ := List.mem_map.1 ((hk k).1 (List.mem_map_of_mem hv))
      exact ⟨f.2, (dictGet_iff hf _ _).2 hf', (hR _ hv _ hf').2 (h _ _ _ hv hf')⟩

theorem Proper.list_inv {xs : List PVal} (h : Proper (.list xs)) : ∀ x ∈ xs, Proper x := by
  cases h with
  | leaf _ h => exact absurd rfl (h xs)
  | list h => exact h

theorem Proper.dict_inv {es : Entries} (h : Proper (.dict es)) : (es.map (·.1)).Nodup ∧ ∀ e ∈ es, Proper e.2 := by
  cases h with
  | leaf h _ => exact absurd h.2 (by simp [PVal.isMapping])
  | dict h1 h2 => exact ⟨h1, h2⟩

theorem Proper.params_inv {pfx : List Str} {es : Entries} (h : Proper (.params pfx es)) : (es.map (·.1)).Nodup ∧ ∀ e ∈ es, Proper e.2 := by
  cases h with
  | leaf h _ => exact absurd h.1 (by simp [PVal.isParams])
  | params h1 h2 => exact ⟨h1, h2⟩

theorem same_list {xs ys : List PVal} : Same (.list xs) (.list ys) ↔ xs.length = ys.length ∧ ∀ (i : Nat) x y, xs[i]? = some x → ys[i]? = some y → Same x y :=
  ⟨fun h => by cases h with | number h => cases h | list h1 h2 => exact ⟨h1, h2⟩, fun h => .list h.1 h.2⟩

theorem same_dict {es fs : Entries} : Same (.dict es) (.dict fs) ↔
    (∀ k, k ∈ es.map (·.1) ↔ k ∈ fs.map (·.1)) ∧ ∀ k v w, (k, v) ∈ es → (k, w) ∈ fs → Same v w :=
  ⟨fun h => by cases h with | number h => cases h | dict h1 h2 => exact ⟨h1, h2⟩, fun h => .dict h.1 h.2⟩

theorem same_params {pfx pfx' : List Str} {es fs : Entries} : Same (.params pfx es) (.params pfx' fs) ↔ pfx = pfx' ∧
    (∀ k, k ∈ es.map (·.1) ↔ k ∈ fs.map (·.1)) ∧ ∀ k v w, (k, v) ∈ es → (k, w) ∈ fs → Same v w :=
  ⟨fun h => by cases h with | number h => cases h | params h1 h2 => exact ⟨rfl, h1, h2⟩, fun ⟨h, h1, h2⟩ => h ▸ .params h1 h2⟩

theorem pyEq_iff (v : PVal) : ∀ w, Proper v → Proper w → (pyEq v w = true ↔ Same v w) := by
  induction v using deepInd with
  | leaf v hl hnl =>
    intro w _ _
    rw [← atomEq_iff hl hnl]
    cases v with
    | list xs => exact absurd rfl (hnl xs)
    | dict es => exact absurd hl.2 (by simp [PVal.isMapping])
    | params pfx es => exact absurd hl.1 (by simp [PVal.isParams])
    | _ => rfl
  | list xs ih =>
    intro w hv hw
    cases w with
    | list ys =>
      simp only [pyEq]
      rw [listEq_iff, same_list]
      refine and_congr_right fun _ => forall_congr' fun i => forall_congr' fun x => forall_congr' fun y => ?_
      constructor
      · intro h hx hy
        exact (ih x (List.mem_of_getElem? hx) y (hv.list_inv x (List.mem_of_getElem? hx)) (hw.list_inv y (List.mem_of_getElem? hy))).1 (h hx hy)
      · intro h hx hy
        exact (ih x (List.mem_of_getElem? hx) y (hv.list_inv x (List.mem_of_getElem? hx)) (hw.list_inv y (List.mem_of_getElem? hy))).2 (h hx hy)
    | _ => simp only [pyEq, Bool.false_eq_true, false_iff]; intro h; cases h with | number h => cases h
  | dict es ih =>
    intro w hv hw
    cases w with
    | dict fs =>
      simp only [pyEq, Bool.and_eq_true, decide_eq_true_eq]
      rw [same_dict, mapEq_iff hv.dict_inv.1 hw.dict_inv.1 fun e he f hf => ih e he f.2 (hv.dict_inv.2 e he) (hw.dict_inv.2 f hf)]
    | _ => simp only [pyEq, Bool.false_eq_true, false_iff]; intro h; cases h with | number h => cases h
  | params pfx es ih =>
    intro w hv hw
    cases w with
    | params pfx' fs =>
      simp only [pyEq, Bool.and_eq_true, decide_eq_true_eq]
      rw [same_params, mapEq_iff hv.params_inv.1 hw.params_inv.1 fun e he f hf => ih e he f.2 (hv.params_inv.2 e he) (hw.params_inv.2 f hf)]
      exact and_comm
    | _ => simp only [pyEq, Bool.false_eq_true, false_iff]; intro h; cases h with | number h => cases h

theorem IsNumber.unique {v : PVal} {a b : Rat} (h1 : IsNumber v a) (h2 : IsNumber v b) : a = b := by
  have h1 := (num_iff _ _).2 h1
  have h2 := (num_iff _ _).2 h2
  rw [h1] at h2
  exact Option.some.inj h2

theorem Same.refl (v : PVal) : Proper v → Same v v := by
  induction v using deepInd with
  | leaf v hl hnl =>
    intro _
    cases v with
    | none => exact .none
    | bool b => cases b <;> exact .number (by constructor) (by constructor)
    | int i => exact .number (.int i) (.int i)
    | float q => exact .number (.float q) (.float q)
    | str s => exact .str s
    | path s => exact .path s
    | bytes s => exact .bytes s
    | obj n => exact .obj n
    | list xs => exact absurd rfl (hnl xs)
    | dict es => exact absurd hl.2 (by simp [PVal.isMapping])
    | params pfx es => exact absurd hl.1 (by simp [PVal.isParams])
  | list xs ih =>
    intro h
    refine .list rfl fun i x y hx hy => ?_
    rw [hx] at hy; cases hy
    exact ih x (List.mem_of_getElem? hx) (h.list_inv x (List.mem_of_getElem? hx))
  | dict es ih =>
    intro h
    refine .dict (fun _ => Iff.rfl) fun k v w hv hw => ?_
    have := (dictGet_iff h.dict_inv.1 _ _).2 hv
    rw [(dictGet_iff h.dict_inv.1 _ _).2 hw] at this
    cases this
    exact ih _ hv (h.dict_inv.2 _ hv)
  | params pfx es ih =>
    intro h
    refine .params (fun _ => Iff.rfl) fun k v w hv hw => ?_
    have := (dictGet_iff h.params_inv.1 _ _).2 hv
    rw [(dictGet_iff h.params_inv.1 _ _).2 hw] at this
    cases this
    exact ih _ hv (h.params_inv.2 _ hv)

theorem Same.symm {v w : PVal} (h : Same v w) : Same w v := by
  induction h with
  | number h1 h2 => exact .number h2 h1
  | none => exact .none
  | str s => exact .str s
  | path s => exact .path s
  | bytes s => exact .bytes s
  | obj n => exact .obj n
  | list h1 _ ih => exact .list h1.symm fun i x y hx hy => ih i y x hy hx
  | dict h1 _ ih => exact .dict (fun k => (h1 k).symm) fun k v w hv hw => ih k w v hw hv
  | params h1 _ ih => exact .params (fun k => (h1 k).symm) fun k v w hv hw => ih k w v hw hv

theorem Same.number_of {v w : PVal} {q : Rat} (h : Same v w) (hv : IsNumber v q) : IsNumber w q := by
  cases h with
  | number h1 h2 => rwa [hv.unique h1]
  | _ => cases hv

theorem Same.trans {u v w : PVal} (h1 : Same u v) (h2 : Same v w) : Same u w := by
  induction h1 generalizing w with
  | number a b => exact .number a (h2.number_of b)
  | none => exact h2
  | str s => exact h2
  | path s => exact h2
  | bytes s => exact h2
  | obj n => exact h2
  | @list xs ys hl hs ih =>
    cases h2 with
    | number h => cases h
    | @list _ zs hl' hs' =>
      refine .list (hl.trans hl') fun i x z hx hz => ?_
      have hi : i < ys.length := by
        rw [← hl]
        exact (List.getElem?_eq_some_iff.1 hx).1
      exact ih i x _ hx (List.getElem?_eq_getElem hi) (hs' i _ z (List.getElem?_eq_getElem hi) hz)
  | @dict es fs hk hs ih =>
    cases h2 with
    | number h => cases h
    | @dict _ gs hk' hs' =>
      refine .dict (fun k => (hk k).trans (hk' k)) fun k v w hv hw => ?_
      obtain ⟨f, hf, rfl⟩ := List.mem_map.1 ((hk k).1 (List.mem_map_of_mem hv))
      exact ih _ v f.2 hv hf (hs' _ f.2 w hf hw)
  | @params pfx es fs hk hs ih =>
    cases h2 with
    | number h => cases h
    | @params _ _ gs hk' hs' =>
      refine .params (fun k => (hk k).trans (hk' k)) fun k v w hv hw => ?_
      obtain ⟨f, hf, rfl⟩ := List.mem_map.1 ((hk k).1 (List.mem_map_of_mem hv))
      exact ih _ v f.2 hv hf (hs' _ f.2 w hf hw)

/-! ## Values that are the same: shape, lookups -/

theorem Same.isNone {v w : PVal} (h : Same v w) : v.isNone = w.isNone := by
  cases h with
  | number a b => cases a <;> cases b <;> rfl
  | _ => rfl

theorem Same.isParams {v w : PVal} (h : Same v w) : v.isParams = w.isParams := by
  cases h with
  | number a b => cases a <;> cases b <;> rfl
  | _ => rfl

theorem Same.isMapping {v w : PVal} (h : Same v w) : v.isMapping = w.isMapping := by
  cases h with
  | number a b => cases a <;> cases b <;> rfl
  | _ => rfl

theorem Same.params_left {pfx : List Str} {es : Entries} {w : PVal} (h : Same (.params pfx es) w) :
    ∃ fs, w = .params pfx fs ∧ (∀ k, k ∈ es.map (·.1) ↔ k ∈ fs.map (·.1)) ∧ (∀ k v w, (k, v) ∈ es → (k, w) ∈ fs → Same v w) := by
  cases h with
  | number a b => cases a
  | params a b => exact ⟨_, rfl, a, b⟩

theorem Same.reaches {v w : PVal} {path : List Str} {x : PVal} (hr : v.Reaches path x) : Same v w → ∃ y, w.Reaches path y ∧ Same x y := by
  induction hr generalizing w with
  | here v => exact fun h => ⟨w, .here w, h⟩
  | @step pfx es k ks v x hm _ ih =>
    intro h
    obtain ⟨fs, rfl, hk, hs⟩ := h.params_left
    obtain ⟨f, hf, rfl⟩ := List.mem_map.1 ((hk k).1 (List.mem_map_of_mem hm))
    obtain ⟨y, hy, hxy⟩ := ih (hs _ v f.2 hm hf)
    exact ⟨y, .step hf hy, hxy⟩

/-- The same, one level down. -/
def OptSame : Option PVal → Option PVal → Prop
  | some v, some w => Same v w
  | .none, .none => True
  | _, _ => False

/-- Both raise the same exception, or both return the same. -/
def ResSame : Res PVal → Res PVal → Prop
  | .ok v, .ok w => Same v w
  | .error e, .error e' => e = e'
  | _, _ => False

theorem same_entries_iff {es fs : Entries} (he : (es.map (·.1)).Nodup) (hf : (fs.map (·.1)).Nodup) :
    ((∀ k, k ∈ es.map (·.1) ↔ k ∈ fs.map (·.1)) ∧ (∀ k v w, (k, v) ∈ es → (k, w) ∈ fs → Same v w)) ↔
      ∀ k, OptSame (dictGet es k) (dictGet fs k) := by
  constructor
  · rintro ⟨hk, hs⟩ k
    cases h1 : dictGet es k with
    | none =>
      have : k ∉ fs.map (·.1) := fun h => (dictGet_none_iff es k).1 h1 ((hk k).2 h)
      rw [(dictGet_none_iff fs k).2 this]
      trivial
    | some v =>
      have hv := (dictGet_iff he k v).1 h1
      obtain ⟨f, hf', rfl⟩ := List.mem_map.1 ((hk k).1 (List.mem_map_of_mem hv))
      rw [(dictGet_iff hf f.1 f.2).2 hf']
      exact hs _ _ _ hv hf'
  · intro h
    refine ⟨fun k => ?_, fun k v w hv hw => ?_⟩
    · rw [← dictGet_isSome_iff, ← dictGet_isSome_iff]
      have := h k
      cases h1 : dictGet es k <;> cases h2 : dictGet fs k <;> rw [h1, h2] at this <;> first | exact this.elim | simp
    · have := h k
      rwa [(dictGet_iff he k v).2 hv, (dictGet_iff hf k w).2 hw] at this

theorem same_params_iff {pfx pfx' : List Str} {es fs : Entries} (he : (es.map (·.1)).Nodup) (hf : (fs.map (·.1)).Nodup) :
    Same (.params pfx es) (.params pfx' fs) ↔ pfx = pfx' ∧ ∀ k, OptSame (dictGet es k) (dictGet fs k) := by
  rw [same_params, same_entries_iff he hf]

theorem same_dict_iff {es fs : Entries} (he : (es.map (·.1)).Nodup) (hf : (fs.map (·.1)).Nodup) :
    Same (.dict es) (.dict fs) ↔ ∀ k, OptSame (dictGet es k) (dictGet fs k) := by
  rw [same_dict, same_entries_iff he hf]

/-! ## Nested dictionaries -/

theorem mem_dictifyEntries {es : Entries} {k : Str} {v : PVal} :
    (k, v) ∈ Params.dictifyEntries es ↔ ∃ u, (k, u) ∈ es ∧ Params.dictify u = v := by
  rw [Params.dictifyEntries_eq, List.mem_map]
  constructor
  · rintro ⟨e, he, h⟩
    cases h
    exact ⟨e.2, he, rfl⟩
  · rintro ⟨u, hu, rfl⟩
    exact ⟨_, hu, rfl⟩

theorem dictify_params (pfx : List Str) (es : Entries) : Params.dictify (.params pfx es) = .dict (Params.dictifyEntries es) := by
  simp only [Params.dictify]

theorem same_dictify {v w : PVal} (h : Same v w) : Same (Params.dictify v) (Params.dictify w) := by
  induction h with
  | @number v w q a b =>
    have hv : Params.dictify v = v := by cases a <;> rfl
    have hw : Params.dictify w = w := by cases b <;> rfl
    rw [hv, hw]
    exact .number a b
  | none => exact .none
  | str s => exact .str s
  | path s => exact .path s
  | bytes s => exact .bytes s
  | obj n => exact .obj n
  | list a b _ => exact .list a b
  | dict a b _ => exact .dict a b
  | @params pfx es fs hk hs ih =>
    rw [dictify_params, dictify_params]
    refine .dict (fun k => by rw [Params.dictifyEntries_keys, Params.dictifyEntries_keys]; exact hk k) fun k v w hv hw => ?_
    obtain ⟨v', hv', rfl⟩ := mem_dictifyEntries.1 hv
    obtain ⟨w', hw', rfl⟩ := mem_dictifyEntries.1 hw
    exact ih k v' w' hv' hw'

theorem same_of_dictify (v : PVal) : ∀ w pfx, Params.Canon pfx v → Params.Canon pfx w → Same (Params.dictify v) (Params.dictify w) → Same v w := by
  induction v using PVal.ind with
  | leaf v hl =>
    intro w pfx hv hw h
    rw [Params.dictify_leaf hl] at h
    rcases w.shape with hwl | ⟨es, rfl⟩ | ⟨pfx', es, rfl⟩
    · rwa [Params.dictify_leaf hwl] at h
    · exact absurd hw.tree.not_mapping (by simp [PVal.isMapping])
    · rw [dictify_params] at h
      have := h.isMapping
      rw [hl.2] at this
      simp [PVal.isMapping] at this
  | dict es _ => intro w pfx hv; exact absurd hv.tree.not_mapping (by simp [PVal.isMapping])
  | params a es ih =>
    intro w pfx hv hw h
    rcases w.shape with hwl | ⟨fs, rfl⟩ | ⟨b, fs, rfl⟩
    · rw [Params.dictify_leaf hwl, dictify_params] at h
      have := h.isMapping
      rw [hwl.2] at this
      simp [PVal.isMapping] at this
    · exact absurd hw.tree.not_mapping (by simp [PVal.isMapping])
    · obtain ⟨rfl, hn, hd, hc⟩ := hv.inv
      obtain ⟨rfl, hn', hd', hc'⟩ := hw.inv
      rw [dictify_params, dictify_params, same_dict, Params.dictifyEntries_keys, Params.dictifyEntries_keys] at h
      refine .params h.1 fun k v w hv hw => ?_
      exact ih _ hv w _ (hc _ hv) (hc' _ hw) (h.2 k _ _ (mem_dictifyEntries.2 ⟨v, hv, rfl⟩) (mem_dictifyEntries.2 ⟨w, hw, rfl⟩))

theorem dotFree_of_same {v w : PVal} (h : Same v w) : v.DotFree → w.DotFree := by
  induction h with
  | @dict es fs hk hs ih =>
    intro hd
    cases hd with
    | leaf h => simp [PVal.isMapping] at h
    | dict h1 h2 =>
      refine .dict (fun e he hdot => ?_) fun e he => ?_
      · obtain ⟨f, hf, hfe⟩ := List.mem_map.1 ((hk e.1).2 (List.mem_map_of_mem he))
        exact h1 f hf (by rw [hfe]; exact hdot)
      · obtain ⟨f, hf, hfe⟩ := List.mem_map.1 ((hk e.1).2 (List.mem_map_of_mem he))
        exact ih e.1 f.2 e.2 (by rw [← hfe]; exact hf) he (h2 f hf)
  | @number v w q a b => intro _; exact .leaf (by cases b <;> rfl)
  | _ => intro _; exact .leaf rfl

/-! ## Hashes -/

theorem pyHash_outcome (H : HashFns) (v : PVal) :
    (¬ Unhashable v → ∃ h, pyHash H v = .ok h) ∧ (Unhashable v → pyHash H v = .error .typeError) := by
  induction v using deepInd with
  | leaf v hl hnl =>
    cases v with
    | list xs => exact absurd rfl (hnl _)
    | dict es => exact absurd hl.2 (by simp [PVal.isMapping])
    | params pfx es => exact absurd hl.1 (by simp [PVal.isParams])
    | _ => exact ⟨fun _ => ⟨_, rfl⟩, fun h => (by cases h)⟩
  | list xs _ => exact ⟨fun h => absurd (.list xs) h, fun _ => rfl⟩
  | dict es _ => exact ⟨fun h => absurd (.dict es) h, fun _ => rfl⟩
  | params pfx es ih =>
    have key : ((∀ e ∈ es, ¬ Unhashable e.2) → ∃ hs, entriesHash H es = .ok hs) ∧ ((∃ e ∈ es, Unhashable e.2) → entriesHash H es = .error .typeError) := by
      clear pfx
      induction es with
      | nil => exact ⟨fun _ => ⟨[], rfl⟩, fun ⟨e, he, _⟩ => by cases he⟩
      | cons e es ihes =>
        obtain ⟨k, v⟩ := e
        have ihv := ih (k, v) (List.mem_cons_self ..)
        have ihs := ihes fun e he => ih e (List.mem_cons_of_mem _ he)
        refine ⟨fun h => ?_, ?_⟩
        · obtain ⟨a, ha⟩ := ihv.1 (h _ (List.mem_cons_self ..))
          obtain ⟨b, hb⟩ := ihs.1 fun e he => h e (List.mem_cons_of_mem _ he)
          simp only at ha
          exact ⟨_, by simp only [entriesHash, entryHash, ha, hb, bind, Except.bind]; rfl⟩
        · rintro ⟨e, he, hu⟩
          by_cases hv : Unhashable v
          · have := ihv.2 hv
            simp only at this
            simp only [entriesHash, entryHash, this, bind, Except.bind]
          · obtain ⟨a, ha⟩ := ihv.1 hv
            simp only at ha
            have hes : ∃ e ∈ es, Unhashable e.2 := by
              rcases List.mem_cons.1 he with rfl | he
              · exact absurd hu hv
              · exact ⟨e, he, hu⟩
            simp only [entriesHash, entryHash, ha, ihs.2 hes, bind, Except.bind]
    refine ⟨fun h => ?_, fun h => ?_⟩
    · obtain ⟨hs, hh⟩ := key.1 fun e he hu => h (.params he hu)
      exact ⟨_, by simp only [pyHash, hh, bind, Except.bind]; rfl⟩
    · cases h with
      | params he hu => simp only [pyHash, key.2 ⟨_, he, hu⟩, bind, Except.bind]

theorem entryHash_outcome (H : HashFns) (e : Str × PVal) : (∃ h, entryHash H e = .ok h) ∨ entryHash H e = .error .typeError := by
  obtain ⟨k, v⟩ := e
  by_cases hu : Unhashable v
  · exact .inr (by simp only [entryHash, (pyHash_outcome H v).2 hu, bind, Except.bind])
  · obtain ⟨h, hh⟩ := (pyHash_outcome H v).1 hu
    exact .inl ⟨_, by simp only [entryHash, hh, bind, Except.bind]; rfl⟩

theorem entriesHash_cons (H : HashFns) (e : Str × PVal) (es : Entries) :
    entriesHash H (e :: es) = (entryHash H e).bind fun h => (entriesHash H es).map fun hs => h :: hs := by
  simp only [entriesHash, bind, Except.bind]
  cases entryHash H e with
  | error x => rfl
  | ok h => cases entriesHash H es <;> rfl

theorem entriesHash_congr (H : HashFns) (es : Entries) (f : Str × PVal → Str × PVal) (h : ∀ e ∈ es, entryHash H (f e) = entryHash H e) :
    entriesHash H (es.map f) = entriesHash H es := by
  induction es with
  | nil => rfl
  | cons e es ih =>
    rw [List.map_cons, entriesHash_cons, entriesHash_cons, h e (List.mem_cons_self ..), ih fun e he => h e (List.mem_cons_of_mem _ he)]

theorem entriesHash_perm (H : HashFns) (hH : ∀ l l' : List Int, l.Perm l' → H.items l = H.items l') {es fs : Entries} (h : es.Perm fs) :
    (entriesHash H es).map H.items = (entriesHash H fs).map H.items := by
  suffices hs : (∀ a, entriesHash H es = .ok a → ∃ b, entriesHash H fs = .ok b ∧ a.Perm b) ∧ (∀ x, entriesHash H es = .error x → entriesHash H fs = .error x) by
    cases he : entriesHash H es with
    | error x => rw [hs.2 x he]
    | ok a =>
      obtain ⟨b, hb, hp⟩ := hs.1 a he
      rw [hb]
      simp only [Except.map, hH a b hp]
  induction h with
  | nil => exact ⟨fun a ha => ⟨a, ha, .refl _⟩, fun _ h => h⟩
  | @cons e es fs _ ih =>
    rw [entriesHash_cons, entriesHash_cons]
    rcases entryHash_outcome H e with ⟨h, hh⟩ | hh
    · rw [hh]
      simp only [Except.bind]
      cases he : entriesHash H es with
      | error x => rw [ih.2 x he]; exact ⟨fun a ha => (by cases ha), fun _ h => h⟩
      | ok a =>
        obtain ⟨b, hb, hp⟩ := ih.1 a he
        rw [hb]
        exact ⟨fun a' ha => (by cases ha; exact ⟨_, rfl, hp.cons _⟩), fun _ h => (by cases h)⟩
    · rw [hh]
      exact ⟨fun a ha => (by cases ha), fun _ h => h⟩
  | swap e f es =>
    rw [entriesHash_cons, entriesHash_cons, entriesHash_cons, entriesHash_cons]
    rcases entryHash_outcome H e with ⟨h, hh⟩ | hh <;> rcases entryHash_outcome H f with ⟨h', hh'⟩ | hh' <;> rw [hh, hh'] <;> simp only [Except.bind]
    · cases entriesHash H es with
      | error x => exact ⟨fun a ha => (by cases ha), fun _ h => h⟩
      | ok a => exact ⟨fun a' ha => (by cases ha; exact ⟨_, rfl, .swap ..⟩), fun _ h => (by cases h)⟩
    · exact ⟨fun a ha => (by cases ha), fun _ h => h⟩
    · refine ⟨fun a ha => (by cases ha), fun _ h => ?_⟩
      cases hes : entriesHash H es <;> exact h
    · exact ⟨fun a ha => (by cases ha), fun _ h => h⟩
  | trans _ _ ih1 ih2 =>
    refine ⟨fun a ha => ?_, fun x hx => ih2.2 x (ih1.2 x hx)⟩
    obtain ⟨b, hb, h1⟩ := ih1.1 a ha
    obtain ⟨c, hc, h2⟩ := ih2.1 b hb
    exact ⟨c, hc, h1.trans h2⟩

theorem nodup_of_keys {es : Entries} (h : (es.map (·.1)).Nodup) : es.Nodup := by
  induction es with
  | nil => exact .nil
  | cons e es ih =>
    rw [List.map_cons, List.nodup_cons] at h
    exact List.nodup_cons.2 ⟨fun he => h.1 (List.mem_map_of_mem he), ih h.2⟩

/-- `fs` is, up to order, `es` with other values. -/
theorem perm_of_keys {es fs : Entries} (he : (es.map (·.1)).Nodup) (hf : (fs.map (·.1)).Nodup) (hk : ∀ k, k ∈ es.map (·.1) ↔ k ∈ fs.map (·.1)) :
    (es.map fun e => (e.1, (dictGet fs e.1).getD .none)).Perm fs := by
  refine (List.perm_ext_iff_of_nodup ?_ (nodup_of_keys hf)).2 fun e => ?_
  · refine nodup_of_keys ?_
    rw [List.map_map]
    exact he
  · obtain ⟨k, v⟩ := e
    rw [List.mem_map]
    constructor
    · rintro ⟨e, hm, h⟩
      cases h
      obtain ⟨f, hf', hfe⟩ := List.mem_map.1 ((hk e.1).1 (List.mem_map_of_mem hm))
      rw [← hfe, (dictGet_iff hf f.1 f.2).2 hf']
      exact hf'
    · intro hm
      obtain ⟨e, he', hek⟩ := List.mem_map.1 ((hk k).2 (List.mem_map_of_mem hm))
      exact ⟨e, he', by rw [hek, (dictGet_iff hf k v).2 hm]; rfl⟩

theorem same_hash (H : HashFns) (hH : ∀ l l' : List Int, l.Perm l' → H.items l = H.items l') {v w : PVal} (h : Same v w) :
    Proper v → Proper w → pyHash H v = pyHash H w := by
  induction h with
  | @number v w q a b =>
    intro _ _
    have hv : pyHash H v = .ok (H.num q) := by cases a <;> rfl
    have hw : pyHash H w = .ok (H.num q) := by cases b <;> rfl
    rw [hv, hw]
  | none => exact fun _ _ => rfl
  | str s => exact fun _ _ => rfl
  | path s => exact fun _ _ => rfl
  | bytes s => exact fun _ _ => rfl
  | obj n => exact fun _ _ => rfl
  | list _ _ _ => exact fun _ _ => rfl
  | dict _ _ _ => exact fun _ _ => rfl
  | @params pfx es fs hk hs ih =>
    intro hv hw
    obtain ⟨he, hpe⟩ := hv.params_inv
    obtain ⟨hf, hpf⟩ := hw.params_inv
    have h1 := entriesHash_perm H hH (perm_of_keys he hf hk)
    rw [entriesHash_congr] at h1
    · simp only [pyHash, bind, Except.bind]
      cases ha : entriesHash H es <;> cases hb : entriesHash H fs <;> rw [ha, hb] at h1 <;> simp only [Except.map, Except.error.injEq, Except.ok.injEq, reduceCtorEq] at h1 ⊢
      · exact h1
      · rw [h1]
    · intro e hm
      obtain ⟨f, hf', hfe⟩ := List.mem_map.1 ((hk e.1).1 (List.mem_map_of_mem hm))
      have hg := (dictGet_iff hf f.1 f.2).2 hf'
      rw [hfe] at hg
      have hfm : (e.1, f.2) ∈ fs := by rw [← hfe]; exact hf'
      have := ih e.1 e.2 f.2 hm hfm (hpe _ hm) (hpf f hf')
      obtain ⟨k, v⟩ := e
      simp only at this hg
      simp only [hg, Option.getD_some, entryHash, this]

end ParamsEq
end Vista
