import Verif.Props.RangeSet

/-!
# Properties C21-C23: `ImmutableRangeMap`

A mapping is an association list with pairwise distinct keys (a Python dict), each key made by the `Range` constructor.
-/
set_option linter.unusedSectionVars false
namespace Vista
variable {T V : Type} [LinearOrder T]
open RangeSet

/-- A Python mapping from ranges: distinct keys, made by the constructor. -/
structure IsMapping (m : List (Range T × V)) : Prop where
  distinct : (m.map (·.1)).Nodup
  valid : ∀ k ∈ m.map (·.1), k.Valid

theorem length_addSpec {rs : List (Range T)} (h : Normal rs) {r : Range T} (hr : r.lower < r.upper) :
    (addSpec rs r).length + (mid rs r).length = rs.length + 1 := by
  have := congrArg List.length (split3 h hr)
  simp only [List.length_append] at this
  simp only [addSpec, List.length_append, List.length_cons]
  omega

theorem addSpec_perm {rs : List (Range T)} (h : Normal rs) {r : Range T} (hr : r.lower < r.upper)
    (hm : mid rs r = []) : (addSpec rs r).Perm (r :: rs) := by
  have h1 := split3 h hr
  rw [hm, List.nil_append] at h1
  have h2 : addSpec rs r = left rs r ++ r :: right rs r := by
    unfold addSpec
    rw [hm]
    rfl
  rw [h2]
  conv_rhs => rw [h1]
  exact List.perm_middle

/-- Counting: each `add` grows the set by at most one range, by exactly one iff the range is non-empty and disconnected
from the others. -/
theorem addAll_count (ks : List (Range T)) (hk : ∀ r ∈ ks, r.Valid) {rs : List (Range T)} (hn : Normal rs) :
    ∃ rs', addAll (toD rs) ks = .ok (toD rs') ∧ Normal rs' ∧ rs'.length ≤ rs.length + ks.length ∧
      (rs'.length = rs.length + ks.length ↔ (∀ k ∈ ks, k.isEmpty = false) ∧
        ks.Pairwise (fun a b => a.isConnected b = false) ∧ ∀ k ∈ ks, ∀ m ∈ rs, m.isConnected k = false) ∧
      (rs'.length = rs.length + ks.length → rs'.Perm (ks ++ rs)) := by
  induction ks generalizing rs with
  | nil => exact ⟨rs, rfl, hn, by simp, by simp, by simp⟩
  | cons k ks ih =>
    have hkv := hk k (by simp)
    have hks : ∀ r ∈ ks, r.Valid := fun r hr => hk r (by simp [hr])
    by_cases he : k.isEmpty = true
    · obtain ⟨rs', h1, h2, h3, h4, h5⟩ := ih hks hn
      refine ⟨rs', ?_, h2, by simp only [List.length_cons]; omega, ⟨?_, ?_⟩, ?_⟩
      · simp only [addAll, add_toD_empty he, bind, Except.bind]; exact h1
      · intro hl; simp only [List.length_cons] at hl; omega
      · rintro ⟨h, -⟩
        rw [h k (by simp)] at he; cases he
      · intro hl; simp only [List.length_cons] at hl; omega
    · have he' : k.isEmpty = false := by simpa using he
      have hlt := (Range.nonempty_iff hkv).1 he'
      have hn1 := addSpec_normal hn hlt
      have hlen := length_addSpec hn hlt
      obtain ⟨rs', h1, h2, h3, h4, h5⟩ := ih hks hn1
      have hmid : mid rs k = [] ↔ ∀ m ∈ rs, m.isConnected k = false := by
        unfold mid; rw [List.filter_eq_nil_iff]
        simp only [Bool.not_eq_true]
      -- members of the new set, when k was disconnected from everything
      have hmem : mid rs k = [] → ∀ x, x ∈ addSpec rs k ↔ x = k ∨ x ∈ rs := by
        intro hm x
        rw [(addSpec_perm hn hlt hm).mem_iff, List.mem_cons]
      refine ⟨rs', ?_, h2, by simp only [List.length_cons]; omega, ⟨?_, ?_⟩, ?_⟩
      · simp only [addAll, add_toD hn hlt, bind, Except.bind]; exact h1
      · intro hl
        simp only [List.length_cons] at hl
        have hm : mid rs k = [] := List.length_eq_zero_iff.1 (by omega)
        obtain ⟨c1, c2, c3⟩ := h4.1 (by omega)
        refine ⟨?_, ?_, ?_⟩
        · intro x hx
          rcases List.mem_cons.1 hx with rfl | hx
          · exact he'
          · exact c1 x hx
        · rw [List.pairwise_cons]
          exact ⟨fun x hx => c3 x hx k ((hmem hm k).2 (.inl rfl)), c2⟩
        · intro x hx m hm'
          rcases List.mem_cons.1 hx with rfl | hx
          · exact hmid.1 hm m hm'
          · exact c3 x hx m ((hmem hm m).2 (.inr hm'))
      · rintro ⟨c1, c2, c3⟩
        rw [List.pairwise_cons] at c2
        have hm : mid rs k = [] := hmid.2 (fun m hm => c3 k (by simp) m hm)
        have hl0 : (mid rs k).length = 0 := by rw [hm]; rfl
        have := h4.2 ⟨fun x hx => c1 x (by simp [hx]), c2.2, fun x hx m hm' => by
          rcases (hmem hm m).1 hm' with rfl | hm'
          · exact c2.1 x hx
          · exact c3 x (by simp [hx]) m hm'⟩
        simp only [List.length_cons]; omega
      · intro hl
        simp only [List.length_cons] at hl
        have hm : mid rs k = [] := List.length_eq_zero_iff.1 (by omega)
        have p1 := h5 (by omega)
        refine p1.trans ?_
        refine ((addSpec_perm hn hlt hm).append_left ks).trans ?_
        exact List.perm_middle

/-! ## C21 -/

/-- Constructing a range map raises `ValueError` iff some key is empty or two distinct keys are connected. -/
theorem C21_accepts (m : List (Range T × V)) (hm : IsMapping m) :
    (((∃ k ∈ m.map (·.1), k.isEmpty = true) ∨
      ∃ k₁ ∈ m.map (·.1), ∃ k₂ ∈ m.map (·.1), k₁ ≠ k₂ ∧ k₁.isConnected k₂ = true) →
        RangeMap.new m = .error .valueError) ∧
    ((∀ k ∈ m.map (·.1), k.isEmpty = false) →
      (∀ k₁ ∈ m.map (·.1), ∀ k₂ ∈ m.map (·.1), k₁ ≠ k₂ → k₁.isConnected k₂ = false) →
        ∃ rm, RangeMap.new m = .ok rm ∧ rm.rngToVal = m) := by
  obtain ⟨rs', h1, -, h3, h4, -⟩ := addAll_count (m.map (·.1)) hm.valid (normal_nil (T := T))
  have hsym : ∀ a b : Range T, a.isConnected b = b.isConnected a := by
    intro a b; rw [Bool.eq_iff_iff, Range.isConnected_iff, Range.isConnected_iff, and_comm]
  have hpair : (m.map (·.1)).Pairwise (fun a b => a.isConnected b = false) ↔
      ∀ k₁ ∈ m.map (·.1), ∀ k₂ ∈ m.map (·.1), k₁ ≠ k₂ → k₁.isConnected k₂ = false := by
    constructor
    · intro hp k₁ h₁ k₂ h₂ hne
      rcases pairwise_mem_cases hp h₁ h₂ with e | e | e
      · exact absurd e hne
      · exact e
      · rw [hsym]; exact e
    · intro h
      refine List.Pairwise.imp_of_mem (fun {a b} ha hb hab => h a ha b hb hab) hm.distinct
  unfold RangeMap.new
  have h1' : addAll RangeSet.create (m.map (·.1)) = .ok (toD rs') := h1
  rw [h1']
  simp only [bind, Except.bind, len, length_toD]
  simp only [List.length_nil, Nat.zero_add, List.length_map, List.not_mem_nil, false_imp_iff, implies_true, and_true] at h4
  constructor
  · intro hbad
    rw [if_pos]
    intro he
    obtain ⟨c1, c2⟩ := h4.1 he.symm
    rcases hbad with ⟨k, hk, hke⟩ | ⟨k₁, h₁, k₂, h₂, hne, hc⟩
    · rw [c1 k hk] at hke; cases hke
    · rw [hpair.1 c2 k₁ h₁ k₂ h₂ hne] at hc; cases hc
  · intro hne hd
    have := h4.2 ⟨hne, hpair.2 hd⟩
    rw [if_neg (by rw [this]; simp)]
    exact ⟨_, rfl, rfl⟩

/-- What the constructor establishes: the range set is in normal form and its members are exactly the keys. -/
theorem RangeMap.new_ok {m : List (Range T × V)} (hm : IsMapping m) {rm : RangeMap T V} (h : RangeMap.new m = .ok rm) :
    ∃ rs, rm = ⟨m, toD rs⟩ ∧ Normal rs ∧ rs.Perm (m.map (·.1)) := by
  obtain ⟨rs', h1, h2, -, -, h5⟩ := addAll_count (m.map (·.1)) hm.valid (normal_nil (T := T))
  unfold RangeMap.new at h
  have h1' : addAll RangeSet.create (m.map (·.1)) = .ok (toD rs') := h1
  rw [h1'] at h
  simp only [bind, Except.bind, len, length_toD] at h
  split at h
  · cases h
  · rename_i hl
    simp only [ne_eq, not_not] at hl
    cases h
    refine ⟨rs', rfl, h2, ?_⟩
    have := h5 (by simpa using hl.symm)
    simpa using this

theorem lookup_of_mem {m : List (Range T × V)} (hd : (m.map (·.1)).Nodup) {k : Range T} {v : V} (h : (k, v) ∈ m) :
    m.lookup k = some v := by
  induction m with
  | nil => simp at h
  | cons e m ih =>
    obtain ⟨k', v'⟩ := e
    simp only [List.map_cons, List.nodup_cons] at hd
    rcases List.mem_cons.1 h with e | h'
    · cases e; simp [List.lookup]
    · have hne : (k == k') = false := by
        rw [beq_eq_false_iff_ne]
        rintro rfl
        exact hd.1 (List.mem_map.2 ⟨_, h', rfl⟩)
      simp only [List.lookup, hne]
      exact ih hd.2 h'

theorem mem_of_key {m : List (Range T × V)} {k : Range T} (h : k ∈ m.map (·.1)) : ∃ v, (k, v) ∈ m := by
  obtain ⟨⟨k', v⟩, h', rfl⟩ := List.mem_map.1 h
  exact ⟨v, h'⟩

theorem RangeMap.lookup_ok {m : List (Range T × V)} (hm : IsMapping m) {d : RDict T} {k : Range T} {v : V} (h : (k, v) ∈ m) :
    RangeMap.lookup ⟨m, d⟩ k = .ok v := by
  unfold RangeMap.lookup; rw [lookup_of_mem hm.distinct h]

/-- Entries with the same key have the same value. -/
theorem value_unique {m : List (Range T × V)} (hm : IsMapping m) {k : Range T} {v w : V} (h1 : (k, v) ∈ m) (h2 : (k, w) ∈ m) :
    v = w := by
  have e1 := lookup_of_mem hm.distinct h1
  have e2 := lookup_of_mem hm.distinct h2
  rw [e1] at e2; simpa using e2

/-! ## C22 -/

/-- `m[k]` is the value of the key range containing `k`, `None` iff there is none; `k in m` iff there is one. -/
theorem C22_lookup (m : List (Range T × V)) (hm : IsMapping m) (rm : RangeMap T V) (h : RangeMap.new m = .ok rm) (k : T) :
    (∀ v, rm.getItem k = .ok (some v) ↔ ∃ r, (r, v) ∈ m ∧ r.contains k = true) ∧
    (rm.getItem k = .ok none ↔ ∀ e ∈ m, e.1.contains k = false) ∧
    (∃ b, rm.contains k = .ok b ∧ (b = true ↔ ∃ e ∈ m, e.1.contains k = true)) := by
  obtain ⟨rs, rfl, hn, hp⟩ := RangeMap.new_ok hm h
  have hrc := rangeContaining_toD hn k
  have hmem : ∀ r, r ∈ rs ↔ ∃ v, (r, v) ∈ m := fun r => by
    rw [hp.mem_iff]
    exact ⟨mem_of_key, fun ⟨v, hv⟩ => List.mem_map.2 ⟨_, hv, rfl⟩⟩
  refine ⟨?_, ?_, ?_⟩
  · intro v
    unfold RangeMap.getItem
    constructor
    · intro e
      cases hr : rangeContaining (toD rs) k with
      | error x => simp [hr, bind, Except.bind] at e
      | ok o =>
        cases o with
        | none => simp [hr, bind, Except.bind, RangeMap.lookupOpt] at e
        | some r =>
          obtain ⟨h1, h2⟩ := (hrc.1 r).1 hr
          obtain ⟨w, hw⟩ := (hmem r).1 h1
          simp only [hr, bind, Except.bind, RangeMap.lookupOpt, RangeMap.lookup_ok hm hw] at e
          cases e
          exact ⟨r, hw, h2⟩
    · rintro ⟨r, hr, hc⟩
      have := (hrc.1 r).2 ⟨(hmem r).2 ⟨v, hr⟩, hc⟩
      simp only [this, bind, Except.bind, RangeMap.lookupOpt, RangeMap.lookup_ok hm hr]
  · unfold RangeMap.getItem
    constructor
    · intro e x hx
      by_contra hc
      have hc : x.1.contains k = true := by simpa using hc
      have := (hrc.1 x.1).2 ⟨(hmem x.1).2 ⟨x.2, hx⟩, hc⟩
      simp only [this, bind, Except.bind, RangeMap.lookupOpt, RangeMap.lookup_ok hm (v := x.2) hx] at e
      cases e
    · intro hall
      have := hrc.2.2 fun r hr => by
        obtain ⟨v, hv⟩ := (hmem r).1 hr
        exact hall _ hv
      simp [this, bind, Except.bind, RangeMap.lookupOpt]
  · obtain ⟨b, h1, h2⟩ := contains_toD hn k
    refine ⟨b, h1, h2.trans ?_⟩
    constructor
    · rintro ⟨r, hr, hc⟩
      obtain ⟨v, hv⟩ := (hmem r).1 hr
      exact ⟨_, hv, hc⟩
    · rintro ⟨e, he, hc⟩
      exact ⟨e.1, (hmem e.1).2 ⟨e.2, he⟩, hc⟩

/-! ## C23 -/

theorem RangeMap.lookupAll_ok {m : List (Range T × V)} (hm : IsMapping m) {d : RDict T} (l : List (Range T))
    (hl : ∀ r ∈ l, r ∈ m.map (·.1)) :
    ∃ vs, RangeMap.lookupAll ⟨m, d⟩ l = .ok vs ∧ List.Forall₂ (fun r v => (r, v) ∈ m) l vs := by
  induction l with
  | nil => exact ⟨[], rfl, .nil⟩
  | cons r l ih =>
    obtain ⟨vs, h1, h2⟩ := ih fun x hx => hl x (by simp [hx])
    obtain ⟨v, hv⟩ := mem_of_key (hl r (by simp))
    refine ⟨v :: vs, ?_, .cons hv h2⟩
    simp [RangeMap.lookupAll, RangeMap.lookup_ok hm hv, h1, bind, Except.bind]

theorem forall₂_mem_right {α β : Type} {R : α → β → Prop} {l : List α} {k : List β} (h : List.Forall₂ R l k) {b : β} (hb : b ∈ k) :
    ∃ a ∈ l, R a b := by
  induction h with
  | nil => simp at hb
  | cons hd _ ih =>
    rcases List.mem_cons.1 hb with rfl | hb
    · exact ⟨_, by simp, hd⟩
    · obtain ⟨r, hr, hrv⟩ := ih hb
      exact ⟨r, by simp [hr], hrv⟩

theorem forall₂_mem_left {α β : Type} {R : α → β → Prop} {l : List α} {k : List β} (h : List.Forall₂ R l k) {a : α} (ha : a ∈ l) :
    ∃ b ∈ k, R a b := by
  induction h with
  | nil => simp at ha
  | cons hd _ ih =>
    rcases List.mem_cons.1 ha with rfl | ha
    · exact ⟨_, by simp, hd⟩
    · obtain ⟨r, hr, hrv⟩ := ih ha
      exact ⟨r, by simp [hr], hrv⟩

/-- `get_enclosed_by(q)` returns exactly the values of the keys enclosed by `q` (in key order). -/
theorem C23_get_enclosed_by (m : List (Range T × V)) (hm : IsMapping m) (rm : RangeMap T V) (h : RangeMap.new m = .ok rm)
    (q : Range T) :
    ∃ vs, rm.getEnclosedBy q = .ok vs ∧ (∀ v, v ∈ vs ↔ ∃ r, (r, v) ∈ m ∧ q.encloses r = true) ∧
      ∃ ks, List.Forall₂ (fun r v => (r, v) ∈ m) ks vs ∧ ks.Pairwise (fun a b => a.upper < b.lower) ∧
        ∀ r, r ∈ ks ↔ r ∈ m.map (·.1) ∧ q.encloses r = true := by
  obtain ⟨rs, rfl, hn, hp⟩ := RangeMap.new_ok hm h
  have hks : ∀ r ∈ rs.filter (fun m => q.encloses m), r ∈ m.map (·.1) := fun r hr => hp.mem_iff.1 (List.mem_filter.1 hr).1
  obtain ⟨vs, h1, h2⟩ := RangeMap.lookupAll_ok (d := toD rs) hm _ hks
  refine ⟨vs, ?_, ?_, _, h2, List.Pairwise.filter _ hn.sep, fun r => ?_⟩
  · unfold RangeMap.getEnclosedBy
    rw [rangesEnclosedBy_toD hn]
    exact h1
  · intro v
    constructor
    · intro hv
      obtain ⟨r, hr, hrv⟩ := forall₂_mem_right h2 hv
      exact ⟨r, hrv, (List.mem_filter.1 hr).2⟩
    · rintro ⟨r, hr, hq⟩
      have hrm : r ∈ rs.filter (fun m => q.encloses m) :=
        List.mem_filter.2 ⟨hp.mem_iff.2 (List.mem_map.2 ⟨_, hr, rfl⟩), hq⟩
      obtain ⟨w, hw, hwm⟩ := forall₂_mem_left h2 hrm
      rw [value_unique hm hr hwm]; exact hw
  · rw [List.mem_filter, hp.mem_iff]

theorem lookupOpt_spec {m : List (Range T × V)} (hm : IsMapping m) {d : RDict T} {o : Option (Range T)}
    (ho : ∀ r, o = some r → r ∈ m.map (·.1)) :
    (∀ v, RangeMap.lookupOpt ⟨m, d⟩ o = .ok (some v) ↔ ∃ r, o = some r ∧ (r, v) ∈ m) ∧
    (RangeMap.lookupOpt ⟨m, d⟩ o = .ok none ↔ o = none) := by
  cases o with
  | none => simp [RangeMap.lookupOpt]
  | some r =>
    obtain ⟨w, hw⟩ := mem_of_key (ho r rfl)
    simp only [RangeMap.lookupOpt, RangeMap.lookup_ok hm hw, bind, Except.bind]
    refine ⟨fun v => ?_, by simp⟩
    constructor
    · intro e; cases e; exact ⟨r, rfl, hw⟩
    · rintro ⟨r', e, hv⟩
      cases e
      rw [value_unique hm hv hw]

theorem normal_reachable (rs : List (Range T)) (hn : Normal rs) :
    Reachable (toD rs) := by
  have hv : ∀ r ∈ rs, r.Valid := fun r hr => hn.valid hr
  refine ⟨[.addAll rs], ?_, ?_⟩
  · intro op hop r hr
    simp only [List.mem_singleton] at hop
    subst hop
    exact hv r hr
  · obtain ⟨rs', h1, i⟩ := inv_addAll (inv_nil (T := T)) rs hv
    have hi : Inv rs rs := ⟨hn, fun a ha _ => ⟨a, ha, by rw [Range.encloses_iff]; exact ⟨le_refl _, le_refl _⟩⟩,
      fun F _ hA m hm => hA m hm ((Range.nonempty_iff (hn.valid hm)).2 (hn.ne m hm)), fun v => Iff.rfl⟩
    have : rs' = rs := inv_unique i hi fun a _ => by simp
    subst this
    have h1' : addAll RangeSet.create rs' = .ok (toD rs') := h1
    simp [runRs, stepRs, h1', bind, Except.bind]

/-- The value of the rightmost key range not enclosed by `(k, +inf)`; `None` iff there is none. -/
theorem C23_rightmost (m : List (Range T × V)) (hm : IsMapping m) (rm : RangeMap T V) (h : RangeMap.new m = .ok rm) (k : T) :
    (∀ v, rm.getRightmost k = .ok (some v) ↔ ∃ r, (r, v) ∈ m ∧ NotAbove r k ∧
      ∀ e ∈ m, NotAbove e.1 k → e.1 = r ∨ e.1.upper < r.lower) ∧
    (rm.getRightmost k = .ok none ↔ ∀ e ∈ m, ¬ NotAbove e.1 k) := by
  obtain ⟨rs, rfl, hn, hp⟩ := RangeMap.new_ok hm h
  have hreach := normal_reachable rs hn
  have hc := C16_rightmost (toD rs) hreach k
  rw [asRanges_toD] at hc
  have hmem : ∀ r, r ∈ rs ↔ ∃ v, (r, v) ∈ m := fun r => by
    rw [hp.mem_iff]
    exact ⟨mem_of_key, fun ⟨v, hv⟩ => List.mem_map.2 ⟨_, hv, rfl⟩⟩
  obtain ⟨o, ho⟩ : ∃ o, rightmostContainingOrBelow (toD rs) k = .ok o := ⟨_, rightmost_toD hn k⟩
  have hok : ∀ r, o = some r → r ∈ m.map (·.1) := by
    rintro r rfl
    exact hp.mem_iff.1 ((hc.1 r).1 ho).1
  have hl := lookupOpt_spec (d := toD rs) hm hok
  have hg : RangeMap.getRightmost (⟨m, toD rs⟩ : RangeMap T V) k = RangeMap.lookupOpt ⟨m, toD rs⟩ o := by
    unfold RangeMap.getRightmost; rw [ho]; rfl
  rw [hg]
  constructor
  · intro v
    rw [hl.1]
    constructor
    · rintro ⟨r, rfl, hv⟩
      obtain ⟨-, h2, h3⟩ := (hc.1 r).1 ho
      exact ⟨r, hv, h2, fun e he hq => h3 e.1 ((hmem _).2 ⟨e.2, he⟩) hq⟩
    · rintro ⟨r, hv, h2, h3⟩
      have := (hc.1 r).2 ⟨(hmem r).2 ⟨v, hv⟩, h2, fun m' hm' hq => by
        obtain ⟨w, hw⟩ := (hmem m').1 hm'
        exact h3 _ hw hq⟩
      rw [ho] at this
      cases this
      exact ⟨r, rfl, hv⟩
  · rw [hl.2]
    constructor
    · rintro rfl e he
      exact hc.2.1 ho e.1 ((hmem _).2 ⟨e.2, he⟩)
    · intro hall
      have := hc.2.2 fun m' hm' => by
        obtain ⟨w, hw⟩ := (hmem m').1 hm'
        exact hall _ hw
      rw [ho] at this
      cases this; rfl

/-- The value of the leftmost key range not enclosed by `(-inf, k)`; `None` iff there is none. -/
theorem C23_leftmost (m : List (Range T × V)) (hm : IsMapping m) (rm : RangeMap T V) (h : RangeMap.new m = .ok rm) (k : T) :
    (∀ v, rm.getLeftmost k = .ok (some v) ↔ ∃ r, (r, v) ∈ m ∧ NotBelow r k ∧
      ∀ e ∈ m, NotBelow e.1 k → e.1 = r ∨ r.upper < e.1.lower) ∧
    (rm.getLeftmost k = .ok none ↔ ∀ e ∈ m, ¬ NotBelow e.1 k) := by
  obtain ⟨rs, rfl, hn, hp⟩ := RangeMap.new_ok hm h
  have hreach := normal_reachable rs hn
  have hc := C17_leftmost (toD rs) hreach k
  rw [asRanges_toD] at hc
  have hmem : ∀ r, r ∈ rs ↔ ∃ v, (r, v) ∈ m := fun r => by
    rw [hp.mem_iff]
    exact ⟨mem_of_key, fun ⟨v, hv⟩ => List.mem_map.2 ⟨_, hv, rfl⟩⟩
  obtain ⟨o, ho⟩ : ∃ o, leftmostContainingOrAbove (toD rs) k = .ok o := ⟨_, leftmost_toD hn k⟩
  have hok : ∀ r, o = some r → r ∈ m.map (·.1) := by
    rintro r rfl
    exact hp.mem_iff.1 ((hc.1 r).1 ho).1
  have hl := lookupOpt_spec (d := toD rs) hm hok
  have hg : RangeMap.getLeftmost (⟨m, toD rs⟩ : RangeMap T V) k = RangeMap.lookupOpt ⟨m, toD rs⟩ o := by
    unfold RangeMap.getLeftmost; rw [ho]; rfl
  rw [hg]
  constructor
  · intro v
    rw [hl.1]
    constructor
    · rintro ⟨r, rfl, hv⟩
      obtain ⟨-, h2, h3⟩ := (hc.1 r).1 ho
      exact ⟨r, hv, h2, fun e he hq => h3 e.1 ((hmem _).2 ⟨e.2, he⟩) hq⟩
    · rintro ⟨r, hv, h2, h3⟩
      have := (hc.1 r).2 ⟨(hmem r).2 ⟨v, hv⟩, h2, fun m' hm' hq => by
        obtain ⟨w, hw⟩ := (hmem m').1 hm'
        exact h3 _ hw hq⟩
      rw [ho] at this
      cases this
      exact ⟨r, rfl, hv⟩
  · rw [hl.2]
    constructor
    · rintro rfl e he
      exact hc.2.1 ho e.1 ((hmem _).2 ⟨e.2, he⟩)
    · intro hall
      have := hc.2.2 fun m' hm' => by
        obtain ⟨w, hw⟩ := (hmem m').1 hm'
        exact hall _ hw
      rw [ho] at this
      cases this; rfl

/-- Pickling: re-running the constructor on the pickled items gives back the same map. -/
theorem C23_pickle (m : List (Range T × V)) (hm : IsMapping m) (rm : RangeMap T V) (h : RangeMap.new m = .ok rm) :
    RangeMap.new rm.reduce = .ok rm := by
  obtain ⟨rs, rfl, hn, hp⟩ := RangeMap.new_ok hm h
  have : RangeMap.reduce (⟨m, toD rs⟩ : RangeMap T V) = m := by
    unfold RangeMap.reduce RangeMap.isEmpty RangeSet.isEmpty
    have hl := hp.length_eq
    simp only [length_toD, List.length_map] at hl ⊢
    cases m with
    | nil => simp
    | cons e m => rw [hl]; simp
  rw [this, h]

/-- A concrete range map meeting the hypotheses above. -/
def exMap : List (Range Int × Int) := [(⟨.aboveValue 12, .belowValue 15⟩, 17), (⟨.aboveValue 1, .aboveValue 10⟩, 36)]

example : IsMapping exMap ∧ (∃ rm, RangeMap.new exMap = .ok rm ∧ rm.getItem 10 = .ok (some 36) ∧ rm.getItem 12 = .ok none ∧
    rm.getRightmost 12 = .ok (some 36) ∧ rm.getLeftmost 11 = .ok (some 17) ∧
    rm.getEnclosedBy ⟨.belowValue 1, .aboveAll⟩ = .ok [36, 17]) :=
  ⟨⟨by decide +kernel, by decide +kernel⟩, _, rfl, by decide +kernel⟩

example : (RangeMap.new ((⟨.belowValue 10, .belowValue 11⟩, 1) :: exMap)).isOk = false := by decide +kernel

end Vista
