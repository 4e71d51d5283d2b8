import Mathlib.Order.Max
import Mathlib.Order.MinMax
import Mathlib.Order.Lattice
import Mathlib.Data.Int.Order.Basic
import Verif.Proofs.Cut

/-!
# Properties C01-C07: `Range`

`Range.Valid r` says that some call of the constructor returned `r`.  All statements are about every linearly ordered
endpoint type.
-/
set_option linter.unusedSectionVars false
namespace Vista
variable {T : Type} [LinearOrder T]
open Range

/-! ## C01 -/

/-- `Range.open(a, b)` is `{x | a < x < b}` and is rejected iff `b <= a`. -/
theorem C01_open (a b : T) :
    (a < b → ∃ r, Range.open a b = .ok r ∧ ∀ v, r.contains v = true ↔ a < v ∧ v < b) ∧
    (b ≤ a → Range.open a b = .error .valueError) := by
  constructor
  · intro h
    refine ⟨⟨.aboveValue a, .belowValue b⟩, (new_ok_iff _ _ _).2 ⟨?_, rfl⟩, fun v => ?_⟩
    · simp [Cut.aboveValue_le_belowValue, h]
    · simp [contains_iff, Cut.aboveValue_le_belowValue]
  · intro h
    exact (new_error _ _ _).2 ⟨by simp [Cut.aboveValue_le_belowValue, h], rfl⟩

/-- `Range.closed(a, b)` is `{x | a <= x <= b}` and is rejected iff `b < a`. -/
theorem C01_closed (a b : T) :
    (a ≤ b → ∃ r, Range.closed a b = .ok r ∧ ∀ v, r.contains v = true ↔ a ≤ v ∧ v ≤ b) ∧
    (b < a → Range.closed a b = .error .valueError) := by
  constructor
  · intro h
    refine ⟨⟨.belowValue a, .aboveValue b⟩, (new_ok_iff _ _ _).2 ⟨?_, rfl⟩, fun v => ?_⟩
    · simp [Cut.belowValue_le_aboveValue, h]
    · simp [contains_iff, Cut.belowValue_le_belowValue, Cut.aboveValue_le_aboveValue]
  · intro h
    exact (new_error _ _ _).2 ⟨by simp [Cut.belowValue_le_aboveValue, h], rfl⟩

/-- `Range.closed_open(a, b)` is `{x | a <= x < b}` and is rejected iff `b < a`. -/
theorem C01_closed_open (a b : T) :
    (a ≤ b → ∃ r, Range.closedOpen a b = .ok r ∧ ∀ v, r.contains v = true ↔ a ≤ v ∧ v < b) ∧
    (b < a → Range.closedOpen a b = .error .valueError) := by
  constructor
  · intro h
    refine ⟨⟨.belowValue a, .belowValue b⟩, (new_ok_iff _ _ _).2 ⟨?_, rfl⟩, fun v => ?_⟩
    · simp [Cut.belowValue_le_belowValue, h]
    · simp [contains_iff, Cut.belowValue_le_belowValue, Cut.aboveValue_le_belowValue]
  · intro h
    exact (new_error _ _ _).2 ⟨by simp [Cut.belowValue_le_belowValue, h], rfl⟩

/-- `Range.open_closed(a, b)` is `{x | a < x <= b}` and is rejected iff `b < a`. -/
theorem C01_open_closed (a b : T) :
    (a ≤ b → ∃ r, Range.openClosed a b = .ok r ∧ ∀ v, r.contains v = true ↔ a < v ∧ v ≤ b) ∧
    (b < a → Range.openClosed a b = .error .valueError) := by
  constructor
  · intro h
    refine ⟨⟨.aboveValue a, .aboveValue b⟩, (new_ok_iff _ _ _).2 ⟨?_, rfl⟩, fun v => ?_⟩
    · simp [Cut.aboveValue_le_aboveValue, h]
    · simp [contains_iff, Cut.aboveValue_le_belowValue, Cut.aboveValue_le_aboveValue]
  · intro h
    exact (new_error _ _ _).2 ⟨by simp [Cut.aboveValue_le_aboveValue, h], rfl⟩

/-- The one-sided factories and `Range.all()` always succeed and contain exactly the documented values. -/
theorem C01_unbounded (a : T) :
    (∃ r, Range.lessThan a = .ok r ∧ ∀ v, r.contains v = true ↔ v < a) ∧
    (∃ r, Range.atMost a = .ok r ∧ ∀ v, r.contains v = true ↔ v ≤ a) ∧
    (∃ r, Range.greaterThan a = .ok r ∧ ∀ v, r.contains v = true ↔ a < v) ∧
    (∃ r, Range.atLeast a = .ok r ∧ ∀ v, r.contains v = true ↔ a ≤ v) ∧
    (∃ r, Range.all = .ok r ∧ ∀ v : T, r.contains v = true) := by
  refine ⟨⟨⟨.belowAll, .belowValue a⟩, (new_ok_iff _ _ _).2 ⟨by simp, rfl⟩, fun v => ?_⟩,
    ⟨⟨.belowAll, .aboveValue a⟩, (new_ok_iff _ _ _).2 ⟨by simp, rfl⟩, fun v => ?_⟩,
    ⟨⟨.aboveValue a, .aboveAll⟩, (new_ok_iff _ _ _).2 ⟨by simp, rfl⟩, fun v => ?_⟩,
    ⟨⟨.belowValue a, .aboveAll⟩, (new_ok_iff _ _ _).2 ⟨by simp, rfl⟩, fun v => ?_⟩,
    ⟨⟨.belowAll, .aboveAll⟩, (new_ok_iff _ _ _).2 ⟨by simp, rfl⟩, fun v => ?_⟩⟩ <;>
  simp [contains_iff, Cut.aboveValue_le_belowValue, Cut.aboveValue_le_aboveValue, Cut.belowValue_le_belowValue]

example : Range.open (3 : Int) 3 = .error .valueError ∧ Range.openClosed (3 : Int) 5 = .ok ⟨.aboveValue 3, .aboveValue 5⟩ ∧
    (⟨.aboveValue 3, .aboveValue 5⟩ : Range Int).contains 5 = true ∧
    (⟨.aboveValue 3, .aboveValue 5⟩ : Range Int).contains 3 = false := by decide +kernel

/-! ## C02 -/

/-- `encloses` is a partial order on ranges (equality being the code's `==`). -/
theorem C02_partial_order :
    (∀ r : Range T, r.encloses r = true) ∧
    (∀ r s t : Range T, r.encloses s = true → s.encloses t = true → r.encloses t = true) ∧
    (∀ r s : Range T, r.encloses s = true → s.encloses r = true → r.pyEq s = true) := by
  simp only [encloses_iff, pyEq_iff]
  refine ⟨fun r => ⟨le_refl _, le_refl _⟩, fun r s t h1 h2 => ⟨h1.1.trans h2.1, h2.2.trans h1.2⟩, fun r s h1 h2 => ?_⟩
  exact Range.ext' (le_antisymm h1.1 h2.1) (le_antisymm h2.2 h1.2)

/-- If `r` encloses `s`, every value of `s` is in `r`. -/
theorem C02_encloses_contains (r s : Range T) (h : r.encloses s = true) (v : T) (hv : s.contains v = true) :
    r.contains v = true := by
  rw [encloses_iff] at h; rw [contains_iff] at *
  exact ⟨h.1.trans hv.1, hv.2.trans h.2⟩

/-- Between two cuts of a dense order without end points there is a value. -/
theorem exists_value_between [DenselyOrdered T] [NoMinOrder T] [NoMaxOrder T] [Nonempty T] {a b : Cut T} (h : a < b) :
    ∃ v, a ≤ .belowValue v ∧ .aboveValue v ≤ b := by
  cases a with
  | belowAll => cases b with
    | belowAll => exact absurd h (lt_irrefl _)
    | belowValue y =>
      obtain ⟨v, hv⟩ := exists_lt y
      exact ⟨v, by simp, (Cut.aboveValue_le_belowValue _ _).2 hv⟩
    | aboveValue y => exact ⟨y, by simp, le_refl _⟩
    | aboveAll => exact ⟨Classical.arbitrary T, by simp, by simp⟩
  | belowValue x => cases b with
    | belowAll => exact absurd h (not_lt.2 (Cut.belowAll_le _))
    | belowValue y =>
      have hxy : x < y := lt_of_not_ge fun h' => not_lt.2 ((Cut.belowValue_le_belowValue _ _).2 h') h
      exact ⟨x, le_refl _, (Cut.aboveValue_le_belowValue _ _).2 hxy⟩
    | aboveValue y => exact ⟨x, le_refl _, (Cut.belowValue_lt_iff _ _).1 h⟩
    | aboveAll => exact ⟨x, le_refl _, by simp⟩
  | aboveValue x => cases b with
    | belowAll => exact absurd h (not_lt.2 (Cut.belowAll_le _))
    | belowValue y =>
      have hxy : x < y := (Cut.aboveValue_le_belowValue _ _).1 (le_of_lt h)
      obtain ⟨v, h1, h2⟩ := exists_between hxy
      exact ⟨v, (Cut.aboveValue_le_belowValue _ _).2 h1, (Cut.aboveValue_le_belowValue _ _).2 h2⟩
    | aboveValue y => exact ⟨y, (Cut.lt_aboveValue_iff _ _).1 h, le_refl _⟩
    | aboveAll =>
      obtain ⟨v, hv⟩ := exists_gt x
      exact ⟨v, (Cut.aboveValue_le_belowValue _ _).2 hv, by simp⟩
  | aboveAll => exact absurd h (not_lt.2 (Cut.le_aboveAll _))

/-- Over a dense order without end points, a range whose values include all those of a non-empty range encloses it. -/
theorem C02_contains_encloses [DenselyOrdered T] [NoMinOrder T] [NoMaxOrder T] [Nonempty T]
    (r s : Range T) (hs : s.Valid) (hne : s.isEmpty = false)
    (h : ∀ v, s.contains v = true → r.contains v = true) : r.encloses s = true := by
  rw [nonempty_iff hs] at hne
  rw [encloses_iff]
  simp only [contains_iff] at h
  constructor
  · by_contra hc
    rw [not_le] at hc
    obtain ⟨v, h1, h2⟩ := exists_value_between (lt_min hc hne)
    have h3 := (h v ⟨h1, h2.trans (min_le_right _ _)⟩).1
    exact absurd (h3.trans_lt (Cut.belowValue_lt_aboveValue v)) (not_lt.2 (h2.trans (min_le_left _ _)))
  · by_contra hc
    rw [not_le] at hc
    obtain ⟨v, h1, h2⟩ := exists_value_between (max_lt hc hne)
    have h3 := (h v ⟨(le_max_right _ _).trans h1, h2⟩).2
    exact absurd ((Cut.belowValue_lt_aboveValue v).trans_le h3) (not_lt.2 ((le_max_left _ _).trans h1))

example : (⟨.belowValue 1, .aboveValue 5⟩ : Range Int).encloses ⟨.aboveValue 1, .belowValue 5⟩ = true ∧
    (⟨.aboveValue 1, .belowValue 5⟩ : Range Int).contains 2 = true := by decide +kernel

/-! ## C03 -/

/-- `r.is_connected(s)` iff some range is enclosed by both. -/
theorem C03_connected_iff (r s : Range T) (hr : r.Valid) (hs : s.Valid) :
    r.isConnected s = true ↔ ∃ t : Range T, t.Valid ∧ r.encloses t = true ∧ s.encloses t = true := by
  simp only [isConnected_iff, encloses_iff]
  rw [valid_iff] at hr hs
  constructor
  · rintro ⟨h1, h2⟩
    refine ⟨⟨max r.lower s.lower, min r.upper s.upper⟩, (valid_iff _).2 ⟨?_, ?_, ?_⟩, ?_, ?_⟩
    · exact max_le (le_min hr.1 h1) (le_min h2 hs.1)
    · rcases max_choice r.lower s.lower with h | h <;> simp only [h]
      exacts [hr.2.1, hs.2.1]
    · rcases min_choice r.upper s.upper with h | h <;> simp only [h]
      exacts [hr.2.2, hs.2.2]
    · exact ⟨le_max_left _ _, min_le_left _ _⟩
    · exact ⟨le_max_right _ _, min_le_right _ _⟩
  · rintro ⟨t, ht, ⟨h1, h2⟩, h3, h4⟩
    rw [valid_iff] at ht
    exact ⟨h1.trans (ht.1.trans h4), h3.trans (ht.1.trans h2)⟩

/-- Connectedness is reflexive and symmetric. -/
theorem C03_reflexive_symmetric :
    (∀ r : Range T, r.Valid → r.isConnected r = true) ∧
    (∀ r s : Range T, r.isConnected s = s.isConnected r) := by
  constructor
  · intro r hr; rw [valid_iff] at hr; rw [isConnected_iff]; exact ⟨hr.1, hr.1⟩
  · intro r s; rw [Bool.eq_iff_iff, isConnected_iff, isConnected_iff, and_comm]

/-- `Range.intersects` gives the same answer as `is_connected`. -/
theorem C03_intersects_eq_connected (r s : Range T) (hr : r.Valid) (hs : s.Valid) :
    r.intersects s = r.isConnected s := intersects_eq r s hr hs

example : (⟨.belowValue 2, .belowValue 4⟩ : Range Int).Valid ∧ (⟨.belowValue 4, .belowValue 6⟩ : Range Int).Valid ∧
    (⟨.belowValue 2, .belowValue 4⟩ : Range Int).intersects ⟨.belowValue 4, .belowValue 6⟩ = true := by decide +kernel

/-! ## C04 -/

/-- `r.intersection(s)` raises `ValueError` iff the ranges are not connected. -/
theorem C04_defined_iff (r s : Range T) (hr : r.Valid) (hs : s.Valid) :
    (r.isConnected s = true → ∃ t, r.intersection s = .ok t) ∧
    (r.isConnected s = false → r.intersection s = .error .valueError) := by
  rw [intersection_eq r s hr hs, ← Bool.not_eq_true, isConnected_iff]
  rw [valid_iff] at hr hs
  have key : (max r.lower s.lower ≤ min r.upper s.upper ∧ max r.lower s.lower ≠ .aboveAll ∧
      min r.upper s.upper ≠ .belowAll) ↔ (r.lower ≤ s.upper ∧ s.lower ≤ r.upper) := by
    constructor
    · rintro ⟨h, -, -⟩
      exact ⟨(le_max_left _ _).trans (h.trans (min_le_right _ _)), (le_max_right _ _).trans (h.trans (min_le_left _ _))⟩
    · rintro ⟨h1, h2⟩
      refine ⟨max_le (le_min hr.1 h1) (le_min h2 hs.1), ?_, ?_⟩
      · rcases max_choice r.lower s.lower with h | h <;> rw [h]
        exacts [hr.2.1, hs.2.1]
      · rcases min_choice r.upper s.upper with h | h <;> rw [h]
        exacts [hr.2.2, hs.2.2]
  constructor
  · intro h; exact ⟨_, (new_ok_iff _ _ _).2 ⟨key.2 h, rfl⟩⟩
  · intro h; exact (new_error _ _ _).2 ⟨fun h' => h (key.1 h'), rfl⟩

/-- When defined, `r.intersection(s)` is the greatest range enclosed by both and contains exactly the common values. -/
theorem C04_greatest (r s t : Range T) (hr : r.Valid) (hs : s.Valid) (h : r.intersection s = .ok t) :
    t.Valid ∧ r.encloses t = true ∧ s.encloses t = true ∧
    (∀ u : Range T, r.encloses u = true → s.encloses u = true → t.encloses u = true) ∧
    (∀ v, t.contains v = true ↔ r.contains v = true ∧ s.contains v = true) := by
  rw [intersection_eq r s hr hs] at h
  refine ⟨valid_new h, ?_⟩
  rw [new_ok_iff] at h
  obtain ⟨h, rfl⟩ := h
  simp only [encloses_iff, contains_iff]
  refine ⟨⟨le_max_left _ _, min_le_left _ _⟩, ⟨le_max_right _ _, min_le_right _ _⟩, fun u h1 h2 =>
    ⟨max_le h1.1 h2.1, le_min h1.2 h2.2⟩, fun v => ?_⟩
  rw [max_le_iff, le_min_iff]
  grind

/-- `intersection` is commutative, idempotent and has identity `Range.all()`. -/
theorem C04_comm_idem_identity (r s : Range T) (hr : r.Valid) (hs : s.Valid) :
    r.intersection s = s.intersection r ∧ r.intersection r = .ok r ∧
    (∀ a, Range.all = .ok a → r.intersection a = .ok r ∧ a.intersection r = .ok r) := by
  refine ⟨?_, ?_, ?_⟩
  · rw [intersection_eq r s hr hs, intersection_eq s r hs hr, max_comm, min_comm]
  · rw [intersection_eq r r hr hr, max_self, min_self, new_ok_iff]; exact ⟨(valid_iff r).1 hr, rfl⟩
  · intro a ha
    have hav : a.Valid := valid_new ha
    unfold Range.all at ha
    rw [new_ok_iff] at ha
    obtain ⟨-, rfl⟩ := ha
    rw [intersection_eq _ _ hr hav, intersection_eq _ _ hav hr]
    simp only [new_ok_iff]
    rw [valid_iff] at hr
    simp [hr]

/-- `intersection` is associative, including definedness: both groupings give the same value or both raise. -/
theorem C04_assoc (r s t : Range T) (hr : r.Valid) (hs : s.Valid) (ht : t.Valid) :
    (r.intersection s >>= fun x => x.intersection t) = (s.intersection t >>= fun x => r.intersection x) := by
  have e1 : ∀ (a b c : Range T), a.Valid → b.Valid → c.Valid →
      (a.intersection b >>= fun x => x.intersection c) =
        new (max (max a.lower b.lower) c.lower) (min (min a.upper b.upper) c.upper) := by
    intro a b c ha hb hc
    cases h : a.intersection b with
    | ok x =>
      have hx := (C04_greatest a b x ha hb h).1
      rw [intersection_eq a b ha hb, new_ok_iff] at h
      obtain ⟨-, rfl⟩ := h
      exact intersection_eq _ _ hx hc
    | error e =>
      rw [intersection_eq a b ha hb, new_error] at h
      obtain ⟨h, rfl⟩ := h
      refine ((new_error _ _ _).2 ⟨fun h' => h ⟨?_, ?_, ?_⟩, rfl⟩).symm
      · exact (le_max_left _ _).trans (h'.1.trans (min_le_left _ _))
      · intro h2; rw [h2] at h'; exact h'.2.1 ((Cut.aboveAll_le_iff _).1 (le_max_left _ _))
      · intro h2; rw [h2] at h'; exact h'.2.2 ((Cut.le_belowAll_iff _).1 (min_le_left _ _))
  have e2 : (s.intersection t >>= fun x => r.intersection x) = (s.intersection t >>= fun x => x.intersection r) := by
    cases h : s.intersection t with
    | ok x =>
      have hx := (C04_greatest s t x hs ht h).1
      exact (C04_comm_idem_identity r x hr hx).1
    | error e => rfl
  rw [e1 r s t hr hs ht, e2, e1 s t r hs ht hr]
  congr 1
  · rw [max_comm (max s.lower t.lower), ← max_assoc]
  · rw [min_comm (min s.upper t.upper), ← min_assoc]

example : (⟨.belowValue 1, .aboveValue 5⟩ : Range Int).intersection ⟨.aboveValue 3, .belowValue 7⟩ =
    .ok ⟨.aboveValue 3, .aboveValue 5⟩ := by decide +kernel

/-! ## C05 -/

/-- `r.span(s)` always succeeds and is the least range enclosing both. -/
theorem C05_span_least (r s : Range T) (hr : r.Valid) (hs : s.Valid) :
    ∃ t, r.span s = .ok t ∧ t.Valid ∧ t.encloses r = true ∧ t.encloses s = true ∧
      ∀ u : Range T, u.encloses r = true → u.encloses s = true → u.encloses t = true := by
  refine ⟨_, span_eq r s hr hs, ?_, ?_⟩
  · rw [valid_iff] at *
    refine ⟨(min_le_left _ _).trans (hr.1.trans (le_max_left _ _)), ?_, ?_⟩
    · rcases min_choice r.lower s.lower with h | h <;> simp only [h]
      exacts [hr.2.1, hs.2.1]
    · rcases max_choice r.upper s.upper with h | h <;> simp only [h]
      exacts [hr.2.2, hs.2.2]
  · simp only [encloses_iff]
    exact ⟨⟨min_le_left _ _, le_max_left _ _⟩, ⟨min_le_right _ _, le_max_right _ _⟩, fun u h1 h2 =>
      ⟨le_min h1.1 h2.1, max_le h1.2 h2.2⟩⟩

/-- `span` is commutative, associative and idempotent. -/
theorem C05_span_laws (r s t : Range T) (hr : r.Valid) (hs : s.Valid) (ht : t.Valid) :
    r.span s = s.span r ∧ r.span r = .ok r ∧
    (r.span s >>= fun x => x.span t) = (s.span t >>= fun x => r.span x) := by
  refine ⟨?_, ?_, ?_⟩
  · rw [span_eq r s hr hs, span_eq s r hs hr, min_comm, max_comm]
  · rw [span_eq r r hr hr, min_self, max_self]
  · obtain ⟨x, hx, hxv, -⟩ := C05_span_least r s hr hs
    obtain ⟨y, hy, hyv, -⟩ := C05_span_least s t hs ht
    rw [hx, hy]
    show x.span t = r.span y
    rw [span_eq x t hxv ht, span_eq r y hr hyv]
    rw [span_eq r s hr hs] at hx
    rw [span_eq s t hs ht] at hy
    cases hx; cases hy
    simp only [min_assoc, max_assoc]

theorem pyMin_spec (m : Cut T) (cs : List (Cut T)) :
    (pyMin m cs = m ∨ pyMin m cs ∈ cs) ∧ pyMin m cs ≤ m ∧ ∀ c ∈ cs, pyMin m cs ≤ c := by
  induction cs generalizing m with
  | nil => simp [pyMin]
  | cons c cs ih =>
    have := ih (if c < m then c else m)
    simp only [pyMin, List.mem_cons]
    grind

theorem pyMax_spec (m : Cut T) (cs : List (Cut T)) :
    (pyMax m cs = m ∨ pyMax m cs ∈ cs) ∧ m ≤ pyMax m cs ∧ ∀ c ∈ cs, c ≤ pyMax m cs := by
  induction cs generalizing m with
  | nil => simp [pyMax]
  | cons c cs ih =>
    have := ih (if m < c then c else m)
    simp only [pyMax, List.mem_cons]
    grind

/-- `create_spanning` raises `ValueError` on no ranges and otherwise gives the least range enclosing every member. -/
theorem C05_create_spanning (rs : List (Range T)) (hrs : ∀ r ∈ rs, r.Valid) :
    (rs = [] → createSpanning rs = .error .valueError) ∧
    (rs ≠ [] → ∃ t, createSpanning rs = .ok t ∧ t.Valid ∧ (∀ r ∈ rs, t.encloses r = true) ∧
      ∀ u : Range T, (∀ r ∈ rs, u.encloses r = true) → u.encloses t = true) := by
  cases rs with
  | nil => exact ⟨fun _ => rfl, fun h => absurd rfl h⟩
  | cons r rs =>
    refine ⟨fun h => absurd h (by simp), fun _ => ?_⟩
    obtain ⟨a1, a2, a3⟩ := pyMin_spec r.lower (rs.map (·.lower))
    obtain ⟨b1, b2, b3⟩ := pyMax_spec r.upper (rs.map (·.upper))
    have hr := (valid_iff r).1 (hrs r (by simp))
    have aw : ∃ s ∈ r :: rs, pyMin r.lower (rs.map (·.lower)) = s.lower := by
      rcases a1 with h | h
      · exact ⟨r, by simp, h⟩
      · obtain ⟨s, hs, h⟩ := List.mem_map.1 h
        exact ⟨s, by simp [hs], h.symm⟩
    have bw : ∃ s ∈ r :: rs, pyMax r.upper (rs.map (·.upper)) = s.upper := by
      rcases b1 with h | h
      · exact ⟨r, by simp, h⟩
      · obtain ⟨s, hs, h⟩ := List.mem_map.1 h
        exact ⟨s, by simp [hs], h.symm⟩
    obtain ⟨sa, hsa, ea⟩ := aw
    obtain ⟨sb, hsb, eb⟩ := bw
    have ok : createSpanning (r :: rs) =
        .ok ⟨pyMin r.lower (rs.map (·.lower)), pyMax r.upper (rs.map (·.upper))⟩ := by
      refine (new_ok_iff _ _ _).2 ⟨⟨a2.trans (hr.1.trans b2), ?_, ?_⟩, rfl⟩
      · rw [ea]; exact ((valid_iff sa).1 (hrs sa hsa)).2.1
      · rw [eb]; exact ((valid_iff sb).1 (hrs sb hsb)).2.2
    refine ⟨_, ok, valid_new ok, ?_, ?_⟩
    · intro s hs
      rw [encloses_iff]
      rcases List.mem_cons.1 hs with rfl | hs
      · exact ⟨a2, b2⟩
      · exact ⟨a3 _ (List.mem_map.2 ⟨s, hs, rfl⟩), b3 _ (List.mem_map.2 ⟨s, hs, rfl⟩)⟩
    · intro u hu
      rw [encloses_iff]
      simp only [encloses_iff] at hu
      exact ⟨by simpa only [ea] using (hu sa hsa).1, by simpa only [eb] using (hu sb hsb).2⟩

example : (⟨.belowValue 1, .aboveValue 3⟩ : Range Int).span ⟨.aboveValue 5, .belowValue 7⟩ =
    .ok ⟨.belowValue 1, .belowValue 7⟩ ∧
    createSpanning [(⟨.belowValue 1, .aboveValue 3⟩ : Range Int), ⟨.belowAll, .belowValue 0⟩] =
      .ok ⟨.belowAll, .aboveValue 3⟩ := by decide +kernel

/-! ## C06 -/

/-- Equal ranges (`==`) have the same hash whatever the endpoint hash, the same values and the same bounds. -/
theorem C06_eq_consistent (r s : Range T) (h : r.pyEq s = true) :
    (∀ hash : T → Int, r.hash hash = s.hash hash) ∧ (∀ v, r.contains v = s.contains v) ∧
    r.lowerEndpoint = s.lowerEndpoint ∧ r.upperEndpoint = s.upperEndpoint ∧
    r.hasLowerBound = s.hasLowerBound ∧ r.hasUpperBound = s.hasUpperBound ∧
    r.lowerBoundType = s.lowerBoundType ∧ r.upperBoundType = s.upperBoundType ∧ r.isEmpty = s.isEmpty := by
  rw [pyEq_iff] at h; subst h; simp

/-- `==` is an equivalence relation, and different factories' results are told apart by it. -/
theorem C06_eq_equivalence :
    (∀ r : Range T, r.pyEq r = true) ∧ (∀ r s : Range T, r.pyEq s = s.pyEq r) ∧
    (∀ r s t : Range T, r.pyEq s = true → s.pyEq t = true → r.pyEq t = true) := by
  refine ⟨fun r => by rw [pyEq_iff], fun r s => ?_, fun r s t => ?_⟩
  · rw [Bool.eq_iff_iff, pyEq_iff, pyEq_iff, eq_comm]
  · simp only [pyEq_iff]; rintro rfl rfl; rfl

/-- `is_empty` holds exactly for `[v..v)` and `(v..v]`, and an empty range contains nothing. -/
theorem C06_empty (r : Range T) (hr : r.Valid) :
    (r.isEmpty = true ↔ ∃ v, Range.closedOpen v v = .ok r ∨ Range.openClosed v v = .ok r) ∧
    (r.isEmpty = true → ∀ v, r.contains v = false) := by
  rw [Range.isEmpty_iff]
  rw [valid_iff] at hr
  constructor
  · constructor
    · intro h
      obtain ⟨lo, hi⟩ := r
      simp only at h
      subst h
      cases lo with
      | belowAll => simp at hr
      | aboveAll => simp at hr
      | belowValue v => exact ⟨v, .inl ((new_ok_iff _ _ _).2 ⟨by simp, rfl⟩)⟩
      | aboveValue v => exact ⟨v, .inr ((new_ok_iff _ _ _).2 ⟨by simp, rfl⟩)⟩
    · rintro ⟨v, h | h⟩ <;> (simp only [closedOpen, openClosed, new_ok_iff] at h; rw [h.2])
  · intro h v
    rw [← Bool.not_eq_true, contains_iff, h]
    rintro ⟨h1, h2⟩
    exact absurd (h2.trans h1) (not_le.2 (Cut.belowValue_lt_aboveValue v))

/-- End points are available exactly when the range is bounded on that side; `ValueError` otherwise.  Bound types say
whether the end point itself is excluded: a closed bound's endpoint is a member of every non-empty range. -/
theorem C06_bounds (r : Range T) (hr : r.Valid) :
    (r.hasLowerBound = true → ∃ v, r.lowerEndpoint = .ok v ∧
      ((r.lowerBoundType = .ok .closed ∧ (r.isEmpty = false → r.contains v = true) ∨
       (r.lowerBoundType = .ok .opened ∧ r.contains v = false)) ∧ ∀ w, r.contains w = true → v ≤ w)) ∧
    (r.hasLowerBound = false → r.lowerEndpoint = .error .valueError ∧ r.lowerBoundType = .error .assertionError) ∧
    (r.hasUpperBound = true → ∃ v, r.upperEndpoint = .ok v ∧
      ((r.upperBoundType = .ok .closed ∧ (r.isEmpty = false → r.contains v = true) ∨
       (r.upperBoundType = .ok .opened ∧ r.contains v = false)) ∧ ∀ w, r.contains w = true → w ≤ v)) ∧
    (r.hasUpperBound = false → r.upperEndpoint = .error .valueError ∧ r.upperBoundType = .error .assertionError) := by
  have hne := nonempty_iff hr
  rw [valid_iff] at hr
  obtain ⟨lo, hi⟩ := r
  refine ⟨?_, ?_, ?_, ?_⟩
  · cases lo with
    | belowAll => simp [hasLowerBound]
    | aboveAll => simp at hr
    | belowValue v =>
      intro _
      refine ⟨v, rfl, .inl ⟨rfl, ?_⟩, ?_⟩
      · rw [hne, contains_iff]; exact fun h => ⟨le_refl _, (Cut.belowValue_lt_iff _ _).1 h⟩
      · intro w hw; rw [contains_iff] at hw; exact (Cut.belowValue_le_belowValue _ _).1 hw.1
    | aboveValue v =>
      intro _
      refine ⟨v, rfl, .inr ⟨rfl, ?_⟩, ?_⟩
      · rw [← Bool.not_eq_true, contains_iff]; rintro ⟨h, -⟩
        exact lt_irrefl _ ((Cut.aboveValue_le_belowValue _ _).1 h)
      · intro w hw; rw [contains_iff] at hw; exact ((Cut.aboveValue_le_belowValue _ _).1 hw.1).le
  · cases lo <;> simp [hasLowerBound, lowerEndpoint, Cut.endpoint, lowerBoundType, Cut.asLowerBound]
  · cases hi with
    | aboveAll => simp [hasUpperBound]
    | belowAll => simp at hr
    | aboveValue v =>
      intro _
      refine ⟨v, rfl, .inl ⟨rfl, ?_⟩, ?_⟩
      · rw [hne, contains_iff]; exact fun h => ⟨(Cut.lt_aboveValue_iff _ _).1 h, le_refl _⟩
      · intro w hw; rw [contains_iff] at hw; exact (Cut.aboveValue_le_aboveValue _ _).1 hw.2
    | belowValue v =>
      intro _
      refine ⟨v, rfl, .inr ⟨rfl, ?_⟩, ?_⟩
      · rw [← Bool.not_eq_true, contains_iff]; rintro ⟨-, h⟩
        exact lt_irrefl _ ((Cut.aboveValue_le_belowValue _ _).1 h)
      · intro w hw; rw [contains_iff] at hw; exact ((Cut.aboveValue_le_belowValue _ _).1 hw.2).le
  · cases hi <;> simp [hasUpperBound, upperEndpoint, Cut.endpoint, upperBoundType, Cut.asUpperBound]

example : (⟨.aboveValue 3, .aboveValue 3⟩ : Range Int).Valid ∧
    (⟨.aboveValue 3, .aboveValue 3⟩ : Range Int).isEmpty = true ∧
    (⟨.aboveValue 3, .aboveValue 4⟩ : Range Int).isEmpty = false ∧
    (⟨.aboveValue 3, .aboveAll⟩ : Range Int).upperEndpoint = .error .valueError := by decide +kernel

/-- A rendering of endpoints from which the description of a range can be understood: different values are rendered differently, without
dots, and neither as `-∞` nor as `+∞`. -/
structure ClearRendering (str : T → Str) : Prop where
  inj : ∀ a b, str a = str b → a = b
  noDot : ∀ a, '.' ∉ str a
  notInfinite : ∀ a, str a ≠ "-∞".toList ∧ str a ≠ "+∞".toList

theorem append_dot_inj {a b c d : Str} (ha : '.' ∉ a) (hb : '.' ∉ b) (h : a ++ "..".toList ++ c = b ++ "..".toList ++ d) : a = b ∧ c = d := by
  induction a generalizing b with
  | nil =>
    cases b with
    | nil => simpa using h
    | cons x b => simp at h; exact absurd h.1.symm (by simp at hb; exact fun e => hb.1 e.symm)
  | cons y a ih =>
    simp only [List.mem_cons, not_or] at ha
    cases b with
    | nil => simp at h; exact absurd h.1.symm ha.1
    | cons x b =>
      simp only [List.mem_cons, not_or] at hb
      simp only [List.cons_append, List.cons.injEq] at h
      obtain ⟨e1, e2⟩ := ih ha.2 hb.2 h.2
      exact ⟨by rw [h.1, e1], e2⟩

/-- Every range has a description; with a clear rendering of the endpoints different ranges have different descriptions. -/
theorem C06_repr (str : T → Str) (r s : Range T) (hr : r.Valid) (hs : s.Valid) :
    (∃ d, r.repr str = .ok d) ∧ (ClearRendering str → (r.repr str = s.repr str ↔ r = s)) := by
  rw [valid_iff] at hr hs
  obtain ⟨a, b⟩ := r
  obtain ⟨c, d⟩ := s
  constructor
  · cases a <;> cases b <;> simp [Range.repr, Cut.describeAsLowerBound, Cut.describeAsUpperBound, bind, Except.bind] at hr ⊢
  · intro hc
    refine ⟨fun h => ?_, fun h => by rw [h]⟩
    have low : ∀ x : Cut T, x ≠ .aboveAll → ∃ l, x.describeAsLowerBound str = .ok l ∧ '.' ∉ l := by
      intro x hx
      cases x with
      | belowAll => exact ⟨_, rfl, by decide⟩
      | aboveAll => exact absurd rfl hx
      | belowValue v => exact ⟨_, rfl, by simpa using hc.noDot v⟩
      | aboveValue v => exact ⟨_, rfl, by simpa using hc.noDot v⟩
    have upp : ∀ x : Cut T, x ≠ .belowAll → ∃ l, x.describeAsUpperBound str = .ok l := by
      intro x hx
      cases x with
      | belowAll => exact absurd rfl hx
      | aboveAll => exact ⟨_, rfl⟩
      | belowValue v => exact ⟨_, rfl⟩
      | aboveValue v => exact ⟨_, rfl⟩
    obtain ⟨la, ha1, ha2⟩ := low a hr.2.1
    obtain ⟨lc, hc1, hc2⟩ := low c hs.2.1
    obtain ⟨ub, hb1⟩ := upp b hr.2.2
    obtain ⟨ud, hd1⟩ := upp d hs.2.2
    simp only [Range.repr, ha1, hb1, hc1, hd1, bind, Except.bind] at h
    injection h with h
    obtain ⟨e1, e2⟩ := append_dot_inj ha2 hc2 h
    subst e1 e2
    have hlow : ∀ x y : Cut T, x.describeAsLowerBound str = y.describeAsLowerBound str → x ≠ .aboveAll → x = y := by
      intro x y h hx
      cases x <;> cases y <;> simp [Cut.describeAsLowerBound] at h hx ⊢
      · exact absurd h.symm (hc.notInfinite _).1
      · exact hc.inj _ _ h
      · exact absurd h (hc.notInfinite _).1
      · exact hc.inj _ _ h
    have hupp : ∀ x y : Cut T, x.describeAsUpperBound str = y.describeAsUpperBound str → x ≠ .belowAll → x = y := by
      intro x y h hx
      have snoc : ∀ (u v : Str) (p q : Char), u ++ [p] = v ++ [q] → u = v ∧ p = q := by
        intro u v p q h
        have := List.append_inj' h rfl
        simpa using this
      have inf : "+∞)".toList = "+∞".toList ++ [')'] := rfl
      cases x <;> cases y <;> simp only [Cut.describeAsUpperBound, inf, Except.ok.injEq, reduceCtorEq] at h hx ⊢
      all_goals first
        | (obtain ⟨h1, h2⟩ := snoc _ _ _ _ h
           first
             | exact absurd h1 (hc.notInfinite _).2
             | exact absurd h1.symm (hc.notInfinite _).2
             | exact absurd h2 (by decide)
             | exact congrArg _ (hc.inj _ _ h1))
        | exact absurd rfl hx
    rw [hlow a c (ha1.trans hc1.symm) hr.2.1, hupp b d (hb1.trans hd1.symm) hr.2.2]

/-- A rendering with dots. -/
def dottedStr (n : Nat) : Str :=
  if n = 0 then "a".toList else if n = 1 then "a..b".toList else if n = 2 then "b..c".toList
    else if n = 3 then "c".toList else 'd' :: List.replicate n 'd'

/-- With dots in the way: `[a..b..c)` describes the range from `a` to `b..c` as well as that from `a..b` to `c`. -/
theorem C06_repr_counterexample : ∃ r s : Range Nat, r.Valid ∧ s.Valid ∧ r ≠ s ∧
    ∃ str : Nat → Str, (∀ a b, str a = str b → a = b) ∧ r.repr str = s.repr str := by
  refine ⟨⟨.belowValue 0, .belowValue 2⟩, ⟨.belowValue 1, .belowValue 3⟩, by decide +kernel, by decide +kernel, by decide +kernel, dottedStr, ?_, by
    decide +kernel⟩
  intro a b h
  have big : ∀ n, 4 ≤ n → dottedStr n = 'd' :: List.replicate n 'd' := by
    intro n hn
    unfold dottedStr
    rw [if_neg (by omega), if_neg (by omega), if_neg (by omega), if_neg (by omega)]
  have small : ∀ n, n < 4 → ∀ k, dottedStr n ≠ 'd' :: k := by
    intro n hn k
    have : n = 0 ∨ n = 1 ∨ n = 2 ∨ n = 3 := by omega
    rcases this with rfl | rfl | rfl | rfl <;> simp [dottedStr]
  by_cases ha : 4 ≤ a
  · by_cases hb : 4 ≤ b
    · rw [big a ha, big b hb] at h
      have := congrArg List.length h
      simpa using this
    · exact absurd (h.symm.trans (big a ha)) (small b (by omega) _)
  · by_cases hb : 4 ≤ b
    · exact absurd (h.trans (big b hb)) (small a (by omega) _)
    · have h1 : a = 0 ∨ a = 1 ∨ a = 2 ∨ a = 3 := by omega
      have h2 : b = 0 ∨ b = 1 ∨ b = 2 ∨ b = 3 := by omega
      rcases h1 with rfl | rfl | rfl | rfl <;> rcases h2 with rfl | rfl | rfl | rfl <;> first | rfl | exact absurd h (by decide +kernel)

example : ClearRendering (fun n : Nat => List.replicate n '1') ∧
    (⟨.belowAll, .aboveValue 3⟩ : Range Nat).repr (fun n => List.replicate n '1') = .ok "(-∞..111]".toList := by
  refine ⟨⟨?_, ?_, ?_⟩, by decide +kernel⟩
  · intro a b h
    simpa using congrArg List.length h
  · intro a h
    have := (List.mem_replicate.1 h).2
    revert this; decide
  · intro a
    constructor <;> intro h
    · have : '∞' ∈ List.replicate a '1' := by rw [h]; decide
      exact absurd (List.mem_replicate.1 this).2 (by decide)
    · have : '∞' ∈ List.replicate a '1' := by rw [h]; decide
      exact absurd (List.mem_replicate.1 this).2 (by decide)

/-! ## C07 -/

/-- Ranges are convex. -/
theorem C07_convex (r : Range T) (c₁ c₂ c₃ : T) (h₁₂ : c₁ ≤ c₂) (h₂₃ : c₂ ≤ c₃)
    (h₁ : r.contains c₁ = true) (h₃ : r.contains c₃ = true) : r.contains c₂ = true := by
  rw [contains_iff] at *
  exact ⟨h₁.1.trans ((Cut.belowValue_le_belowValue _ _).2 h₁₂), ((Cut.aboveValue_le_aboveValue _ _).2 h₂₃).trans h₃.2⟩

example : (⟨.aboveValue 3, .belowValue 9⟩ : Range Int).contains 4 = true ∧
    (⟨.aboveValue 3, .belowValue 9⟩ : Range Int).contains 8 = true := by decide +kernel

end Vista
