import Mathlib.Order.Basic
import Verif.Model.Range

/-! Lemmas: the comparison of cuts is a linear order, and the range operations in terms of it. -/
set_option linter.unusedSectionVars false
set_option linter.unnecessarySeqFocus false
namespace Vista
namespace Cut
variable {T : Type} [LinearOrder T]

theorem le_def (a b : Cut T) : a ≤ b ↔ a.compareTo b ≤ 0 := Iff.rfl
theorem lt_def (a b : Cut T) : a < b ↔ a.compareTo b < 0 := Iff.rfl

instance instLinearOrder : LinearOrder (Cut T) where
  le_refl a := by
    cases a <;> simp [le_def, compareTo, compareValues]
  le_trans a b c := by
    cases a <;> cases b <;> cases c <;> simp only [le_def, compareTo, compareValues] <;> grind
  le_antisymm a b := by
    cases a <;> cases b <;> simp only [le_def, compareTo, compareValues] <;> grind
  le_total a b := by
    cases a <;> cases b <;> simp only [le_def, compareTo, compareValues] <;> grind
  lt_iff_le_not_ge a b := by
    cases a <;> cases b <;> simp only [le_def, lt_def, compareTo, compareValues] <;> grind
  toDecidableLE := inferInstance
  toDecidableLT := inferInstance
  toDecidableEq := inferInstance

theorem compareTo_le (a b : Cut T) : a.compareTo b ≤ 0 ↔ a ≤ b := Iff.rfl
theorem compareTo_ge (a b : Cut T) : a.compareTo b ≥ 0 ↔ b ≤ a := by
  cases a <;> cases b <;> simp only [le_def, compareTo, compareValues] <;> grind
theorem compareTo_ge' (a b : Cut T) : 0 ≤ a.compareTo b ↔ b ≤ a := compareTo_ge a b
theorem compareTo_eq (a b : Cut T) : a.compareTo b = 0 ↔ a = b := by
  have h1 := compareTo_le a b
  have h2 := compareTo_ge a b
  constructor
  · intro h; exact le_antisymm (h1.1 (by omega)) (h2.1 (by omega))
  · rintro rfl; have := (compareTo_le a a).2 (le_refl a); have := (compareTo_ge a a).2 (le_refl a); omega

@[simp] theorem pyEq_iff (a b : Cut T) : a.pyEq b = true ↔ a = b := by
  cases a <;> cases b <;> simp [pyEq, compareTo]

@[simp] theorem belowAll_le (a : Cut T) : belowAll ≤ a := by cases a <;> simp [le_def, compareTo]
@[simp] theorem le_aboveAll (a : Cut T) : a ≤ aboveAll := by cases a <;> simp [le_def, compareTo]

/-- A cut is below a value iff it is at most the cut just below the value. -/
theorem isLessThan_iff (a : Cut T) (v : T) : a.isLessThan v = true ↔ a ≤ belowValue v := by
  cases a <;> simp only [isLessThan, le_def, compareTo, compareValues] <;> grind

theorem belowValue_lt_aboveValue (v : T) : belowValue v < aboveValue v := by
  simp [lt_def, compareTo, compareValues]

/-- There is no cut strictly between the two cuts of a value. -/
theorem not_le_belowValue (a : Cut T) (v : T) : ¬ a ≤ belowValue v ↔ aboveValue v ≤ a := by
  cases a <;> simp only [le_def, compareTo, compareValues] <;> grind

theorem belowValue_lt_iff (a : Cut T) (v : T) : belowValue v < a ↔ aboveValue v ≤ a := by
  rw [← not_le_belowValue, not_le]

theorem lt_aboveValue_iff (a : Cut T) (v : T) : a < aboveValue v ↔ a ≤ belowValue v := by
  rw [← not_le, ← not_le_belowValue, not_not]

theorem belowValue_le_belowValue (x y : T) : belowValue x ≤ belowValue y ↔ x ≤ y := by
  simp only [le_def, compareTo, compareValues]; grind
theorem aboveValue_le_aboveValue (x y : T) : aboveValue x ≤ aboveValue y ↔ x ≤ y := by
  simp only [le_def, compareTo, compareValues]; grind
theorem belowValue_le_aboveValue (x y : T) : belowValue x ≤ aboveValue y ↔ x ≤ y := by
  simp only [le_def, compareTo, compareValues]; grind
theorem aboveValue_le_belowValue (x y : T) : aboveValue x ≤ belowValue y ↔ x < y := by
  simp only [le_def, compareTo, compareValues]; grind
@[simp] theorem not_aboveAll_le_value (x : T) : ¬ (aboveAll : Cut T) ≤ belowValue x ∧ ¬ (aboveAll : Cut T) ≤ aboveValue x := by
  simp [le_def, compareTo]
@[simp] theorem not_value_le_belowAll (x : T) : ¬ belowValue x ≤ (belowAll : Cut T) ∧ ¬ aboveValue x ≤ (belowAll : Cut T) := by
  simp [le_def, compareTo]
theorem not_aboveAll_le_belowAll : ¬ (aboveAll : Cut T) ≤ belowAll := by simp [le_def, compareTo]

theorem le_belowAll_iff (a : Cut T) : a ≤ belowAll ↔ a = belowAll := by
  constructor
  · intro h; exact le_antisymm h (belowAll_le a)
  · rintro rfl; exact le_refl _
theorem aboveAll_le_iff (a : Cut T) : aboveAll ≤ a ↔ a = aboveAll := by
  constructor
  · intro h; exact le_antisymm (le_aboveAll a) h
  · rintro rfl; exact le_refl _
end Cut

namespace Range
variable {T : Type} [LinearOrder T]

theorem new_ok_iff (lo hi : Cut T) (r : Range T) :
    new lo hi = .ok r ↔ (lo ≤ hi ∧ lo ≠ .aboveAll ∧ hi ≠ .belowAll) ∧ r = ⟨lo, hi⟩ := by
  unfold new checkArg
  simp only [bind, Except.bind, decide_eq_true_eq]
  by_cases h1 : lo ≤ hi <;> by_cases h2 : lo = .aboveAll <;> by_cases h3 : hi = .belowAll <;>
    (simp only [h1, if_true, if_false]; simp [h2, h3, eq_comm])

theorem new_error (lo hi : Cut T) (e : Exc) :
    new lo hi = .error e ↔ ¬ (lo ≤ hi ∧ lo ≠ .aboveAll ∧ hi ≠ .belowAll) ∧ e = .valueError := by
  unfold new checkArg
  simp only [bind, Except.bind, decide_eq_true_eq]
  by_cases h1 : lo ≤ hi <;> by_cases h2 : lo = .aboveAll <;> by_cases h3 : hi = .belowAll <;>
    (simp only [h1, if_true, if_false]; simp [h2, h3, eq_comm])

theorem valid_iff (r : Range T) : r.Valid ↔ r.lower ≤ r.upper ∧ r.lower ≠ .aboveAll ∧ r.upper ≠ .belowAll := by
  unfold Valid
  constructor
  · rintro ⟨lo, hi, h⟩
    rw [new_ok_iff] at h
    obtain ⟨h, rfl⟩ := h
    exact h
  · intro h
    exact ⟨r.lower, r.upper, (new_ok_iff _ _ _).2 ⟨h, rfl⟩⟩

instance (r : Range T) : Decidable r.Valid := decidable_of_iff _ (valid_iff r).symm

theorem valid_new {lo hi : Cut T} {r : Range T} (h : new lo hi = .ok r) : r.Valid := ⟨lo, hi, h⟩

theorem contains_iff (r : Range T) (v : T) :
    r.contains v = true ↔ r.lower ≤ .belowValue v ∧ .aboveValue v ≤ r.upper := by
  unfold contains
  rw [Bool.and_eq_true, Cut.isLessThan_iff, Bool.not_eq_true', ← Bool.not_eq_true, Cut.isLessThan_iff,
    Cut.not_le_belowValue]

theorem encloses_iff (r s : Range T) : r.encloses s = true ↔ r.lower ≤ s.lower ∧ s.upper ≤ r.upper := by
  simp [encloses, Cut.compareTo_le, Cut.compareTo_ge']

theorem isConnected_iff (r s : Range T) : r.isConnected s = true ↔ r.lower ≤ s.upper ∧ s.lower ≤ r.upper := by
  simp [isConnected]

theorem isEmpty_iff (r : Range T) : r.isEmpty = true ↔ r.lower = r.upper := by
  simp [isEmpty]

theorem pyEq_iff (r s : Range T) : r.pyEq s = true ↔ r = s := by
  cases r; cases s; simp [pyEq]

theorem ext' {r s : Range T} (h1 : r.lower = s.lower) (h2 : r.upper = s.upper) : r = s := by
  cases r; cases s; simp_all

theorem nonempty_iff {r : Range T} (h : r.Valid) : r.isEmpty = false ↔ r.lower < r.upper := by
  rw [valid_iff] at h
  rw [← Bool.not_eq_true, isEmpty_iff]
  constructor
  · intro h'; exact lt_of_le_of_ne h.1 h'
  · intro h'; exact ne_of_lt h'

theorem valid_of_lt {r : Range T} (h : r.lower < r.upper) : r.Valid := by
  rw [valid_iff]
  refine ⟨le_of_lt h, ?_, ?_⟩
  · intro h'; rw [h', ← not_le] at h; exact h (Cut.le_aboveAll _)
  · intro h'; rw [h', ← not_le] at h; exact h (Cut.belowAll_le _)

theorem intersects_eq (r s : Range T) (hr : r.Valid) (hs : s.Valid) : r.intersects s = r.isConnected s := by
  rw [valid_iff] at hr hs
  unfold intersects isConnected
  simp only [Cut.compareTo_ge, Cut.compareTo_le, ge_iff_le]
  grind

/-- `intersection` is [max lower, min upper], built through the checking constructor. -/
theorem intersection_eq (r s : Range T) (hr : r.Valid) (hs : s.Valid) :
    r.intersection s = new (max r.lower s.lower) (min r.upper s.upper) := by
  rw [valid_iff] at hr hs
  unfold intersection
  simp only [Cut.compareTo_ge, Cut.compareTo_le, ge_iff_le]
  have key : ∀ (t : Range T), (t.lower ≤ t.upper ∧ t.lower ≠ .aboveAll ∧ t.upper ≠ .belowAll) →
      ∀ lo hi, lo = t.lower → hi = t.upper → Except.ok t = new lo hi := by
    intro t ht lo hi h1 h2; subst h1 h2; exact ((new_ok_iff _ _ _).2 ⟨ht, rfl⟩).symm
  split
  · rename_i h
    exact key r hr _ _ (max_eq_left h.1) (min_eq_left h.2)
  · split
    · rename_i h
      exact key s hs _ _ (max_eq_right h.1) (min_eq_right h.2)
    · congr 1 <;> grind

theorem span_eq (r s : Range T) (hr : r.Valid) (hs : s.Valid) :
    r.span s = .ok ⟨min r.lower s.lower, max r.upper s.upper⟩ := by
  rw [valid_iff] at hr hs
  unfold span
  simp only [Cut.compareTo_ge, Cut.compareTo_le, ge_iff_le]
  split
  · rename_i h
    rw [min_eq_left h.1, max_eq_left h.2]
  · split
    · rename_i h
      rw [min_eq_right h.1, max_eq_right h.2]
    · rw [new_ok_iff]
      grind

end Range
end Vista
