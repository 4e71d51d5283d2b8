import Verif.Proofs.SortedDict

/-! Lemmas about range sets: the normal form and a closed form of `add`. -/
set_option linter.unusedSectionVars false
namespace Vista
variable {T : Type} [LinearOrder T]
open RangeSet

/-- The dictionary of a list of ranges. -/
def toD (rs : List (Range T)) : RDict T := rs.map fun r => (r.lower, r)

/-- Normal form: non-empty ranges, in order, with a gap (at least a cut) between neighbours. -/
structure Normal (rs : List (Range T)) : Prop where
  sep : rs.Pairwise fun a b => a.upper < b.lower
  ne : ∀ r ∈ rs, r.lower < r.upper

theorem Normal.lowers {rs : List (Range T)} (h : Normal rs) : rs.Pairwise fun a b => a.lower < b.lower :=
  List.Pairwise.imp_of_mem (fun {a _} ha _ hab => (h.ne a ha).trans hab) h.sep

theorem Normal.uppers {rs : List (Range T)} (h : Normal rs) : rs.Pairwise fun a b => a.upper < b.upper :=
  List.Pairwise.imp_of_mem (fun {_ b} _ hb hab => hab.trans (h.ne b hb)) h.sep

theorem Normal.sorted {rs : List (Range T)} (h : Normal rs) : (toD rs).Sorted := by
  unfold toD SortedDict.Sorted
  rw [List.pairwise_map]
  exact h.lowers

theorem Normal.valid {rs : List (Range T)} (h : Normal rs) {r : Range T} (hr : r ∈ rs) : r.Valid :=
  Range.valid_of_lt (h.ne r hr)

@[simp] theorem values_toD (rs : List (Range T)) : (toD rs).values = rs := by
  unfold toD SortedDict.values
  rw [List.map_map]
  exact List.map_id rs

@[simp] theorem asRanges_toD (rs : List (Range T)) : asRanges (toD rs) = rs := values_toD rs

@[simp] theorem length_toD (rs : List (Range T)) : (toD rs).length = rs.length := by simp [toD]

theorem toD_append (a b : List (Range T)) : toD (a ++ b) = toD a ++ toD b := by simp [toD]

theorem filter_toD (p : Cut T → Bool) (rs : List (Range T)) :
    (toD rs).filter (fun e => p e.1) = toD (rs.filter fun r => p r.lower) := by
  unfold toD
  rw [List.filter_map]; rfl

theorem toD_getLast? (rs : List (Range T)) : (toD rs).getLast?.map (·.2) = rs.getLast? := by
  unfold toD
  rw [List.getLast?_map]
  cases rs.getLast? <;> rfl

theorem toD_head? (rs : List (Range T)) : (toD rs).head?.map (·.2) = rs.head? := by
  unfold toD
  rw [List.head?_map]
  cases rs.head? <;> rfl

theorem valueBelow_toD {rs : List (Range T)} (h : Normal rs) (k : Cut T) :
    valueBelow (toD rs) k = .ok (rs.filter fun r => decide (r.lower < k)).getLast? := by
  rw [SortedDict.valueBelow_eq h.sorted, filter_toD (fun c => decide (c < k)), toD_getLast?]

theorem valueAtOrBelow_toD {rs : List (Range T)} (h : Normal rs) (k : Cut T) :
    valueAtOrBelow (toD rs) k = .ok (rs.filter fun r => decide (r.lower ≤ k)).getLast? := by
  rw [SortedDict.valueAtOrBelow_eq h.sorted, filter_toD (fun c => decide (c ≤ k)), toD_getLast?]

theorem valueAtOrAbove_toD {rs : List (Range T)} (h : Normal rs) (k : Cut T) :
    valueAtOrAbove (toD rs) k = .ok (rs.filter fun r => decide (k ≤ r.lower)).head? := by
  rw [SortedDict.valueAtOrAbove_eq h.sorted, filter_toD (fun c => decide (k ≤ c)), toD_head?]

theorem clearRange_toD {rs : List (Range T)} (h : Normal rs) (lo hi : Cut T) :
    clearRange (toD rs) lo hi = .ok (toD (rs.filter fun r => !(decide (lo ≤ r.lower) && decide (r.lower < hi)))) := by
  rw [SortedDict.clearRange_eq h.sorted, filter_toD (fun c => !(decide (lo ≤ c) && decide (c < hi)))]

/-! ### Closed form of `add` -/

/-- Members entirely below `r`. -/
def left (rs : List (Range T)) (r : Range T) : List (Range T) := rs.filter fun m => decide (m.upper < r.lower)
/-- Members connected to `r`. -/
def mid (rs : List (Range T)) (r : Range T) : List (Range T) := rs.filter fun m => m.isConnected r
/-- Members entirely above `r`. -/
def right (rs : List (Range T)) (r : Range T) : List (Range T) := rs.filter fun m => decide (r.upper < m.lower)

def hullLower (r : Range T) (M : List (Range T)) : Cut T :=
  match M.head? with
  | some m => min r.lower m.lower
  | none => r.lower
def hullUpper (r : Range T) (M : List (Range T)) : Cut T :=
  match M.getLast? with
  | some m => max r.upper m.upper
  | none => r.upper

/-- Replace the members connected to `r` by the span of them and `r`. -/
def addSpec (rs : List (Range T)) (r : Range T) : List (Range T) :=
  left rs r ++ ⟨hullLower r (mid rs r), hullUpper r (mid rs r)⟩ :: right rs r

theorem split3 {rs : List (Range T)} (h : Normal rs) {r : Range T} (hr : r.lower < r.upper) :
    rs = left rs r ++ (mid rs r ++ right rs r) := by
  have h1 := split_by (fun m : Range T => decide (m.upper < r.lower)) rs h.uppers (by
    intro a b hab hb; simp only [decide_eq_true_eq] at *; exact hab.trans hb)
  have hp : (rs.filter fun a => !decide (a.upper < r.lower)).Pairwise fun a b => a.lower < b.lower :=
    List.Pairwise.filter _ h.lowers
  have h2 := split_by (fun m : Range T => decide (m.lower ≤ r.upper)) _ hp (by
    intro a b hab hb; simp only [decide_eq_true_eq] at *; exact hab.le.trans hb)
  conv_lhs => rw [h1, h2]
  unfold left mid right
  congr 2
  · rw [List.filter_filter]
    apply List.filter_congr
    intro m hm
    rw [Bool.eq_iff_iff, Range.isConnected_iff]
    simp
  · rw [List.filter_filter]
    apply List.filter_congr
    intro m hm
    rw [Bool.eq_iff_iff]
    have := h.ne m hm
    simp only [Bool.and_eq_true, Bool.not_eq_true', decide_eq_false_iff_not, not_lt, not_le, decide_eq_true_eq]
    constructor
    · exact fun h => h.1
    · intro h'; exact ⟨h', le_of_lt (hr.trans (h'.trans this))⟩

/-- The three groups, with what is known about each. -/
structure Split (L M R : List (Range T)) (r : Range T) : Prop where
  normal : Normal (L ++ (M ++ R))
  hL : ∀ m ∈ L, m.upper < r.lower
  hM1 : ∀ m ∈ M, m.lower ≤ r.upper
  hM2 : ∀ m ∈ M, r.lower ≤ m.upper
  hR : ∀ m ∈ R, r.upper < m.lower
  hr : r.lower < r.upper

theorem split_of_normal {rs : List (Range T)} (h : Normal rs) {r : Range T} (hr : r.lower < r.upper) :
    Split (left rs r) (mid rs r) (right rs r) r where
  normal := (split3 h hr) ▸ h
  hL m hm := by simpa [left] using (List.mem_filter.1 hm).2
  hM1 m hm := ((Range.isConnected_iff _ _).1 (List.mem_filter.1 hm).2).1
  hM2 m hm := ((Range.isConnected_iff _ _).1 (List.mem_filter.1 hm).2).2
  hR m hm := by simpa [right] using (List.mem_filter.1 hm).2
  hr := hr

namespace Split
variable {L M R : List (Range T)} {r : Range T}

theorem nL (s : Split L M R r) : Normal L :=
  ⟨(List.pairwise_append.1 s.normal.sep).1, fun m hm => s.normal.ne m (by simp [hm])⟩
theorem nM (s : Split L M R r) : Normal M :=
  ⟨(List.pairwise_append.1 (List.pairwise_append.1 s.normal.sep).2.1).1, fun m hm => s.normal.ne m (by simp [hm])⟩
theorem nR (s : Split L M R r) : Normal R :=
  ⟨(List.pairwise_append.1 (List.pairwise_append.1 s.normal.sep).2.1).2.1, fun m hm => s.normal.ne m (by simp [hm])⟩
theorem LM (s : Split L M R r) {a b : Range T} (ha : a ∈ L) (hb : b ∈ M) : a.upper < b.lower :=
  (List.pairwise_append.1 s.normal.sep).2.2 a ha b (by simp [hb])
theorem LR (s : Split L M R r) {a b : Range T} (ha : a ∈ L) (hb : b ∈ R) : a.upper < b.lower :=
  (List.pairwise_append.1 s.normal.sep).2.2 a ha b (by simp [hb])
theorem MR (s : Split L M R r) {a b : Range T} (ha : a ∈ M) (hb : b ∈ R) : a.upper < b.lower :=
  (List.pairwise_append.1 (List.pairwise_append.1 s.normal.sep).2.1).2.2 a ha b hb

theorem head_lower (s : Split L M R r) {m : Range T} (hm : m ∈ M) : hullLower r M ≤ m.lower := by
  unfold hullLower
  cases M with
  | nil => simp at hm
  | cons m0 M =>
    simp only [List.head?_cons]
    rcases List.mem_cons.1 hm with rfl | hm'
    · exact min_le_right _ _
    · have := s.nM.lowers
      rw [List.pairwise_cons] at this
      exact (min_le_right _ _).trans (this.1 m hm').le

theorem last_upper (s : Split L M R r) {m : Range T} (hm : m ∈ M) : m.upper ≤ hullUpper r M := by
  unfold hullUpper
  rcases List.eq_nil_or_concat M with rfl | ⟨M, m0, rfl⟩
  · simp at hm
  · simp only [List.concat_eq_append, List.getLast?_append, List.getLast?_singleton, Option.some_or] at *
    rcases List.mem_append.1 hm with hm' | hm'
    · have := s.nM.uppers
      rw [List.pairwise_append] at this
      exact (this.2.2 m hm' m0 (by simp)).le.trans (le_max_right _ _)
    · simp only [List.mem_singleton] at hm'
      subst hm'; exact le_max_right _ _

theorem hullLower_le : hullLower r M ≤ r.lower := by
  unfold hullLower; split
  · exact min_le_left _ _
  · exact le_refl _

theorem le_hullUpper : r.upper ≤ hullUpper r M := by
  unfold hullUpper; split
  · exact le_max_left _ _
  · exact le_refl _

theorem hullLower_cases (r : Range T) (M : List (Range T)) :
    hullLower r M = r.lower ∨ ∃ m ∈ M, hullLower r M = m.lower := by
  unfold hullLower
  cases M with
  | nil => simp
  | cons m M =>
    simp only [List.head?_cons]
    rcases min_choice r.lower m.lower with h | h
    · exact .inl h
    · exact .inr ⟨m, by simp, h⟩

theorem hullUpper_cases (r : Range T) (M : List (Range T)) :
    hullUpper r M = r.upper ∨ ∃ m ∈ M, hullUpper r M = m.upper := by
  unfold hullUpper
  rcases List.eq_nil_or_concat M with rfl | ⟨M, m0, rfl⟩
  · simp
  · simp only [List.concat_eq_append, List.getLast?_append, List.getLast?_singleton, Option.some_or]
    rcases max_choice r.upper m0.upper with h | h
    · exact .inl h
    · exact .inr ⟨m0, by simp, h⟩

theorem hull_lt (s : Split L M R r) : hullLower r M < hullUpper r M :=
  hullLower_le.trans_lt (s.hr.trans_le le_hullUpper)

theorem L_lt_hull (s : Split L M R r) {m : Range T} (hm : m ∈ L) : m.upper < hullLower r M := by
  rcases hullLower_cases r M with h | ⟨x, hx, h⟩ <;> rw [h]
  · exact s.hL m hm
  · exact s.LM hm hx

theorem hull_lt_R (s : Split L M R r) {m : Range T} (hm : m ∈ R) : hullUpper r M < m.lower := by
  rcases hullUpper_cases r M with h | ⟨x, hx, h⟩ <;> rw [h]
  · exact s.hR m hm
  · exact s.MR hx hm

theorem addSpec_normal (s : Split L M R r) : Normal (L ++ ⟨hullLower r M, hullUpper r M⟩ :: R) := by
  constructor
  · rw [List.pairwise_append, List.pairwise_cons]
    refine ⟨s.nL.sep, ⟨fun b hb => s.hull_lt_R hb, s.nR.sep⟩, fun a ha b hb => ?_⟩
    rcases List.mem_cons.1 hb with rfl | hb
    · exact s.L_lt_hull ha
    · exact s.LR ha hb
  · intro m hm
    rcases List.mem_append.1 hm with hm | hm
    · exact s.nL.ne m hm
    · rcases List.mem_cons.1 hm with rfl | hm
      · exact s.hull_lt
      · exact s.nR.ne m hm

/-- The second half of `add`, from the lower bound of the hull. -/
theorem addUpper_eq (s : Split L M R r) :
    addUpper (toD (L ++ (M ++ R))) (hullLower r M) r.upper =
      .ok (toD (L ++ ⟨hullLower r M, hullUpper r M⟩ :: R)) := by
  unfold addUpper
  rw [valueAtOrBelow_toD s.normal]
  have hf : (L ++ (M ++ R)).filter (fun m => decide (m.lower ≤ r.upper)) = L ++ M := by
    rw [List.filter_append, List.filter_append]
    rw [List.filter_eq_self.2, List.filter_eq_self.2, List.filter_eq_nil_iff.2]
    · simp
    · intro a ha; simpa using s.hR a ha
    · intro a ha; simpa using s.hM1 a ha
    · intro a ha
      simpa using ((s.nL.ne a ha).trans ((s.hL a ha).trans s.hr)).le
  rw [hf]
  have hub : extendUpper (L ++ M).getLast? r.upper = hullUpper r M := by
    unfold hullUpper extendUpper
    rcases List.eq_nil_or_concat M with rfl | ⟨M, m0, rfl⟩
    · simp only [List.append_nil, List.getLast?_nil]
      cases hL : L.getLast? with
      | none => rfl
      | some m =>
        have hm : m ∈ L := List.mem_of_getLast? hL
        simp only
        rw [if_neg (not_lt.2 ((s.hL m hm).trans s.hr).le)]
    · simp only [List.concat_eq_append, List.getLast?_append, List.getLast?_singleton, Option.some_or]
      split
      · rename_i h; exact (max_eq_right h.le).symm
      · rename_i h; exact (max_eq_left (not_lt.1 h)).symm
  simp only [bind, Except.bind, hub, clearRange_toD s.normal]
  have hc : (L ++ (M ++ R)).filter (fun m => !(decide (hullLower r M ≤ m.lower) && decide (m.lower < hullUpper r M)))
      = L ++ R := by
    rw [List.filter_append, List.filter_append]
    rw [List.filter_eq_self.2, List.filter_eq_nil_iff.2, List.filter_eq_self.2]
    · simp
    · intro a ha
      have := s.hull_lt_R ha
      simp only [Bool.not_eq_true', Bool.and_eq_false_iff, decide_eq_false_iff_not]
      exact .inr (not_lt.2 this.le)
    · intro a ha
      have h1 := s.head_lower ha
      have h2 := (s.nM.ne a ha).trans_le (s.last_upper ha)
      simp [h1, h2]
    · intro a ha
      have := (s.nL.ne a ha).trans (s.L_lt_hull ha)
      simp only [Bool.not_eq_true', Bool.and_eq_false_iff, decide_eq_false_iff_not]
      exact .inl (not_le.2 this)
  rw [hc]
  have hv : Range.new (hullLower r M) (hullUpper r M) = .ok ⟨hullLower r M, hullUpper r M⟩ :=
    (Range.new_ok_iff _ _ _).2 ⟨(Range.valid_iff _).1 (Range.valid_of_lt (r := ⟨hullLower r M, hullUpper r M⟩) s.hull_lt), rfl⟩
  rw [hv]
  simp only [replaceRange]
  have he : (⟨hullLower r M, hullUpper r M⟩ : Range T).isEmpty = false :=
    (Range.nonempty_iff (Range.valid_of_lt (r := ⟨hullLower r M, hullUpper r M⟩) s.hull_lt)).2 s.hull_lt
  rw [he, toD_append, SortedDict.set_append]
  · simp [toD]
  · intro a ha
    obtain ⟨m, hm, rfl⟩ := List.mem_map.1 ha
    exact (s.nL.ne m hm).trans (s.L_lt_hull hm)
  · intro a ha
    obtain ⟨m, hm, rfl⟩ := List.mem_map.1 ha
    exact s.hull_lt.trans (s.hull_lt_R hm)

theorem add_eq (s : Split L M R r) :
    add (toD (L ++ (M ++ R))) r = .ok (toD (L ++ ⟨hullLower r M, hullUpper r M⟩ :: R)) := by
  unfold add
  have hne : r.isEmpty = false := (Range.nonempty_iff (Range.valid_of_lt s.hr)).2 s.hr
  rw [hne, valueBelow_toD s.normal]
  have hRf : R.filter (fun m => decide (m.lower < r.lower)) = [] := by
    rw [List.filter_eq_nil_iff]
    intro a ha
    simpa using (s.hr.trans (s.hR a ha)).le
  have hLf : L.filter (fun m => decide (m.lower < r.lower)) = L := by
    rw [List.filter_eq_self]
    intro a ha
    simpa using (s.nL.ne a ha).trans (s.hL a ha)
  have hf : (L ++ (M ++ R)).filter (fun m => decide (m.lower < r.lower)) =
      L ++ M.filter (fun m => decide (m.lower < r.lower)) := by
    rw [List.filter_append, List.filter_append, hRf, hLf, List.append_nil]
  rw [hf]
  simp only [Bool.false_eq_true, if_false, bind, Except.bind]
  -- when no connected member starts below `r`
  have noM : (M.filter fun m => decide (m.lower < r.lower)) = [] → hullLower r M = r.lower →
      (match (L ++ M.filter (fun m => decide (m.lower < r.lower))).getLast? with
      | some b => if r.lower ≤ b.upper then if r.upper < b.upper then Except.ok (toD (L ++ (M ++ R)))
          else addUpper (toD (L ++ (M ++ R))) b.lower r.upper
          else addUpper (toD (L ++ (M ++ R))) r.lower r.upper
      | none => addUpper (toD (L ++ (M ++ R))) r.lower r.upper) =
      .ok (toD (L ++ ⟨hullLower r M, hullUpper r M⟩ :: R)) := by
    intro h1 h2
    have key := s.addUpper_eq
    rw [h2] at key
    rw [h1, List.append_nil, h2]
    cases hL : L.getLast? with
    | none => exact key
    | some b =>
      have := s.hL b (List.mem_of_getLast? hL)
      simp only
      rw [if_neg (not_le.2 this)]
      exact key
  cases M with
  | nil => exact noM rfl rfl
  | cons m0 M' =>
    have hM' : M'.filter (fun m => decide (m.lower < r.lower)) = [] := by
      rw [List.filter_eq_nil_iff]
      intro a ha
      have h1 := s.nM.sep
      rw [List.pairwise_cons] at h1
      have h2 := s.hM2 m0 (by simp)
      simpa using (h2.trans_lt (h1.1 a ha)).le
    by_cases hm0 : m0.lower < r.lower
    · have hfm : (m0 :: M').filter (fun m => decide (m.lower < r.lower)) = [m0] := by
        rw [List.filter_cons, hM']; simp [hm0]
      have hhl : hullLower r (m0 :: M') = m0.lower := by
        unfold hullLower; simp [min_eq_right hm0.le]
      rw [hfm]
      simp only [List.getLast?_append, List.getLast?_singleton, Option.some_or]
      rw [if_pos (s.hM2 m0 (by simp))]
      by_cases hu : r.upper < m0.upper
      · rw [if_pos hu]
        have : M' = [] := by
          rw [List.eq_nil_iff_forall_not_mem]
          intro a ha
          have h1 := s.nM.sep
          rw [List.pairwise_cons] at h1
          exact absurd ((h1.1 a ha).trans_le (s.hM1 a (by simp [ha]))) (not_lt.2 hu.le)
        subst this
        have hhu : hullUpper r [m0] = m0.upper := by
          unfold hullUpper; simp [max_eq_right hu.le]
        rw [hhl, hhu]
        rfl
      · rw [if_neg hu, ← hhl]
        exact s.addUpper_eq
    · apply noM
      · rw [List.filter_cons, hM']; simp [not_lt.1 hm0]
      · unfold hullLower; simp [min_eq_left (not_lt.1 hm0)]

end Split

theorem add_toD {rs : List (Range T)} (h : Normal rs) {r : Range T} (hr : r.lower < r.upper) :
    add (toD rs) r = .ok (toD (addSpec rs r)) := by
  have := (split_of_normal h hr).add_eq
  rw [← split3 h hr] at this
  exact this

theorem add_toD_empty {rs : List (Range T)} {r : Range T} (hr : r.isEmpty = true) :
    add (toD rs) r = .ok (toD rs) := by
  unfold add; rw [hr]; rfl

theorem addSpec_normal {rs : List (Range T)} (h : Normal rs) {r : Range T} (hr : r.lower < r.upper) :
    Normal (addSpec rs r) := (split_of_normal h hr).addSpec_normal

theorem normal_nil : Normal ([] : List (Range T)) := ⟨List.Pairwise.nil, by simp⟩

theorem clear_toD {rs : List (Range T)} (h : Normal rs) : clear (toD rs) = .ok (toD []) := by
  unfold clear
  rw [clearRange_toD h, List.filter_eq_nil_iff.2]
  intro r hr
  have := (Range.valid_iff r).1 (h.valid hr)
  have h2 : r.lower < .aboveAll := lt_of_le_of_ne (Cut.le_aboveAll _) this.2.1
  simp [h2]

/-- Members of a normal-form list are pairwise disconnected. -/
theorem Normal.disconnected {rs : List (Range T)} (h : Normal rs) {a b : Range T} (ha : a ∈ rs) (hb : b ∈ rs)
    (hc : a.isConnected b = true) : a = b := by
  rw [Range.isConnected_iff] at hc
  by_contra hab
  have key : a.upper < b.lower ∨ b.upper < a.lower := by
    exact (pairwise_mem_cases h.sep ha hb).resolve_left hab
  rcases key with hk | hk
  · exact absurd hc.2 (not_le.2 hk)
  · exact absurd hc.1 (not_le.2 hk)

end Vista
