import Verif.Props.RangeMap
import Verif.Proofs.PyDict
import Verif.Proofs.PyList
import Verif.Model.Span

/-!
# Properties C24-C29: spans and span indices

Everything is stated in terms of the offsets of a span: `s.containsOffset i`.
-/
set_option linter.unusedSectionVars false
namespace Vista
open RangeSet

theorem Span.valid_iff (s : Span) : s.Valid ↔ s.start < s.stop := by
  constructor
  · rintro ⟨a, b, h⟩
    unfold Span.new checkArg at h
    by_cases hab : a < b
    · simp [hab, bind, Except.bind] at h; subst h; exact hab
    · simp [hab, bind, Except.bind] at h
  · intro h
    exact ⟨s.start, s.stop, by simp [Span.new, checkArg, h, bind, Except.bind]⟩

theorem Span.new_ok {a b : Int} (h : a < b) : Span.new a b = .ok ⟨a, b⟩ := by
  simp [Span.new, checkArg, h, bind, Except.bind]

theorem Span.containsOffset_iff (s : Span) (i : Int) : s.containsOffset i = true ↔ s.start ≤ i ∧ i < s.stop := by
  simp [Span.containsOffset]

theorem Span.overlaps_iff (a b : Span) : a.overlaps b = true ↔ a.start < b.stop ∧ b.start < a.stop := by
  simp [Span.overlaps, Span.precedes]; omega

theorem Span.containsSpan_iff (a b : Span) : a.containsSpan b = true ↔ a.start ≤ b.start ∧ b.stop ≤ a.stop := by
  simp [Span.containsSpan]

/-! ## C24 -/

/-- A span can be built iff `start < end`; otherwise `ValueError`. -/
theorem C24_constructible (a b : Int) :
    (a < b → Span.new a b = .ok ⟨a, b⟩) ∧ (¬ a < b → Span.new a b = .error .valueError) := by
  refine ⟨Span.new_ok, fun h => ?_⟩
  simp [Span.new, checkArg, h, bind, Except.bind]

/-- A constructed span contains an offset iff it lies between its start (inclusive) and its end (exclusive). -/
theorem C24_offsets (a b i : Int) (s : Span) (h : Span.new a b = .ok s) : s.containsOffset i = true ↔ a ≤ i ∧ i < b := by
  unfold Span.new at h
  simp only [checkArg, bind, Except.bind] at h
  split at h
  · cases h
  · rename_i h'
    cases h
    rw [Span.containsOffset_iff]

example : ∃ s, Span.new 2 5 = .ok s ∧ s.containsOffset 4 = true ∧ s.containsOffset 5 = false := ⟨⟨2, 5⟩, by decide +kernel⟩

/-- The predicates say what they should about the offsets. -/
theorem C24_predicates (a b : Span) (ha : a.Valid) (hb : b.Valid) :
    (a.overlaps b = true ↔ ∃ i, a.containsOffset i = true ∧ b.containsOffset i = true) ∧
    (a.containsSpan b = true ↔ ∀ i, b.containsOffset i = true → a.containsOffset i = true) ∧
    (a.precedes b = true ↔ ∀ i j, a.containsOffset i = true → b.containsOffset j = true → i < j) ∧
    (a.follows b = true ↔ ∀ i j, a.containsOffset i = true → b.containsOffset j = true → j < i) := by
  have ha := a.valid_iff.1 ha
  have hb := b.valid_iff.1 hb
  simp only [Span.overlaps_iff, Span.containsSpan_iff, Span.containsOffset_iff]
  refine ⟨⟨fun h => ⟨max a.start b.start, by omega⟩, fun ⟨i, h⟩ => by omega⟩,
    ⟨fun h i hi => by omega, fun h => ?_⟩, ⟨?_, ?_⟩, ⟨?_, ?_⟩⟩
  · have h1 := h b.start (by omega)
    have h2 := h (b.stop - 1) (by omega)
    omega
  · intro h i j; simp [Span.precedes] at h; omega
  · intro h
    have := h (a.stop - 1) b.start (by omega) (by omega)
    simp [Span.precedes]; omega
  · intro h i j; simp [Span.follows] at h; omega
  · intro h
    have := h a.start (b.stop - 1) (by omega) (by omega)
    simp [Span.follows]; omega

/-- Exactly one of precedes, follows, overlaps. -/
theorem C24_trichotomy (a b : Span) (ha : a.Valid) (hb : b.Valid) :
    (a.precedes b = true ∧ a.follows b = false ∧ a.overlaps b = false) ∨
    (a.precedes b = false ∧ a.follows b = true ∧ a.overlaps b = false) ∨
    (a.precedes b = false ∧ a.follows b = false ∧ a.overlaps b = true) := by
  have ha := a.valid_iff.1 ha
  have hb := b.valid_iff.1 hb
  simp only [Span.overlaps, Span.precedes, Span.follows, Bool.not_eq_true', Bool.not_eq_false', Bool.or_eq_true,
    Bool.or_eq_false_iff, decide_eq_true_eq, decide_eq_false_iff_not]
  omega

/-- `len` is the number of offsets in the span. -/
theorem C24_len (s : Span) (hs : s.Valid) :
    ∃ l : List Int, l.Nodup ∧ (∀ i, i ∈ l ↔ s.containsOffset i = true) ∧ (l.length : Int) = s.len ∧ 0 < s.len := by
  have hs := s.valid_iff.1 hs
  refine ⟨(List.range (s.stop - s.start).toNat).map (fun n : Nat => s.start + (n : Int)), ?_, ?_, ?_, ?_⟩
  · exact List.pairwise_map.2 (List.nodup_range.imp fun h => by omega)
  · intro i
    simp only [List.mem_map, List.mem_range, Span.containsOffset_iff]
    constructor
    · rintro ⟨n, hn, rfl⟩; omega
    · intro h; exact ⟨(i - s.start).toNat, by omega, by omega⟩
  · simp [Span.len]; omega
  · simp [Span.len]; omega

example : (⟨3, 7⟩ : Span).Valid ∧ (⟨6, 9⟩ : Span).Valid ∧ (⟨3, 7⟩ : Span).overlaps ⟨6, 9⟩ = true ∧
    (⟨3, 7⟩ : Span).overlaps ⟨7, 9⟩ = false := by
  refine ⟨⟨3, 7, rfl⟩, ⟨6, 9, rfl⟩, by decide, by decide⟩

/-! ## C25 -/

theorem Span.asRange_ok {s : Span} (h : s.start < s.stop) :
    s.asRange = .ok ⟨.belowValue s.start, .aboveValue (s.stop - 1)⟩ := by
  unfold Span.asRange Range.closed
  rw [Range.new_ok_iff]
  simp only [Cut.belowValue_le_aboveValue]
  exact ⟨⟨by omega, by simp, by simp⟩, trivial⟩

/-- The range of a span. -/
abbrev Span.rng (s : Span) : Range Int := ⟨.belowValue s.start, .aboveValue (s.stop - 1)⟩

theorem Span.rng_valid {s : Span} (h : s.start < s.stop) : s.rng.Valid := by
  rw [Range.valid_iff]
  simp only [Cut.belowValue_le_aboveValue]
  exact ⟨by omega, by simp, by simp⟩

/-- `intersection` never raises; `None` iff no shared offset, else the span of exactly the shared offsets. -/
theorem C25_intersection (a b : Span) (ha : a.Valid) (hb : b.Valid) :
    (a.intersection b = .ok none ∧ ∀ i, ¬ (a.containsOffset i = true ∧ b.containsOffset i = true)) ∨
    ∃ c : Span, a.intersection b = .ok (some c) ∧ c.Valid ∧
      ∀ i, c.containsOffset i = true ↔ a.containsOffset i = true ∧ b.containsOffset i = true := by
  have ha := a.valid_iff.1 ha
  have hb := b.valid_iff.1 hb
  unfold Span.intersection
  by_cases ho : a.overlaps b = true
  · right
    rw [if_pos ho]
    rw [Span.overlaps_iff] at ho
    rw [Span.asRange_ok ha, Span.asRange_ok hb]
    refine ⟨⟨max a.start b.start, min a.stop b.stop⟩, ?_, ?_, ?_⟩
    · have hlo : max a.start b.start < min a.stop b.stop := by omega
      have h1 : max (Cut.belowValue a.start) (.belowValue b.start) = .belowValue (max a.start b.start) := by
        rcases le_total a.start b.start with h | h
        · rw [max_eq_right h, max_eq_right ((Cut.belowValue_le_belowValue _ _).2 h)]
        · rw [max_eq_left h, max_eq_left ((Cut.belowValue_le_belowValue _ _).2 h)]
      have h2 : min (Cut.aboveValue (a.stop - 1)) (.aboveValue (b.stop - 1)) = .aboveValue (min a.stop b.stop - 1) := by
        rcases le_total a.stop b.stop with h | h
        · rw [min_eq_left h, min_eq_left ((Cut.aboveValue_le_aboveValue _ _).2 (by omega))]
        · rw [min_eq_right h, min_eq_right ((Cut.aboveValue_le_aboveValue _ _).2 (by omega))]
      have h3 := Range.intersection_eq a.rng b.rng (Span.rng_valid ha) (Span.rng_valid hb)
      have h4 := Span.asRange_ok (s := ⟨max a.start b.start, min a.stop b.stop⟩) hlo
      simp only [Span.asRange, Range.closed] at h4
      simp only [Span.rng, h1, h2, h4] at h3
      simp only [bind, Except.bind, h3, Range.lowerEndpoint, Range.upperEndpoint, Cut.endpoint, Int.sub_add_cancel,
        Span.new_ok hlo]
    · rw [Span.valid_iff]; show max a.start b.start < min a.stop b.stop; omega
    · intro i; simp only [Span.containsOffset_iff]; omega
  · left
    rw [if_neg ho]
    refine ⟨rfl, fun i => ?_⟩
    rw [Span.overlaps_iff] at ho
    simp only [Span.containsOffset_iff]; omega

/-- The same for `clip_to`. -/
theorem C25_clip_to (a b : Span) (ha : a.Valid) (hb : b.Valid) :
    (a.clipTo b = .ok none ∧ ∀ i, ¬ (a.containsOffset i = true ∧ b.containsOffset i = true)) ∨
    ∃ c : Span, a.clipTo b = .ok (some c) ∧ c.Valid ∧
      ∀ i, c.containsOffset i = true ↔ a.containsOffset i = true ∧ b.containsOffset i = true := by
  have ha := a.valid_iff.1 ha
  have hb := b.valid_iff.1 hb
  unfold Span.clipTo
  by_cases ho : b.overlaps a = true
  · right
    simp only [ho, Bool.not_true, Bool.false_eq_true, if_false]
    rw [Span.overlaps_iff] at ho
    by_cases hc : b.containsSpan a = true
    · rw [if_pos hc]
      rw [Span.containsSpan_iff] at hc
      refine ⟨a, rfl, a.valid_iff.2 ha, fun i => ?_⟩
      simp only [Span.containsOffset_iff]; omega
    · rw [if_neg hc]
      refine ⟨⟨max a.start b.start, min a.stop b.stop⟩, ?_, ?_, ?_⟩
      · rw [Span.new_ok (by omega)]; rfl
      · rw [Span.valid_iff]; show max a.start b.start < min a.stop b.stop; omega
      · intro i; simp only [Span.containsOffset_iff]; omega
  · left
    simp only [ho, Bool.not_false, if_true]
    refine ⟨trivial, fun i => ?_⟩
    rw [Span.overlaps_iff] at ho
    simp only [Span.containsOffset_iff]; omega

/-- A span is determined by its offsets. -/
theorem Span.ext_offsets {a b : Span} (ha : a.Valid) (hb : b.Valid) (h : ∀ i, a.containsOffset i = true ↔ b.containsOffset i = true) :
    a = b := by
  have ha := a.valid_iff.1 ha
  have hb := b.valid_iff.1 hb
  simp only [Span.containsOffset_iff] at h
  have h1 := h a.start
  have h2 := h b.start
  have h3 := h (a.stop - 1)
  have h4 := h (b.stop - 1)
  cases a; cases b
  simp only [Span.mk.injEq]
  simp only at *
  omega

/-- The two operations agree, are commutative and idempotent. -/
theorem C25_agree (a b : Span) (ha : a.Valid) (hb : b.Valid) :
    a.intersection b = a.clipTo b ∧ a.intersection b = b.intersection a ∧ a.intersection a = .ok (some a) := by
  refine ⟨?_, ?_, ?_⟩
  · rcases C25_intersection a b ha hb with ⟨e1, h1⟩ | ⟨c, e1, v1, h1⟩ <;>
    rcases C25_clip_to a b ha hb with ⟨e2, h2⟩ | ⟨d, e2, v2, h2⟩
    · rw [e1, e2]
    · exact absurd ((h2 d.start).1 (by rw [Span.containsOffset_iff]; have := d.valid_iff.1 v2; omega)) (h1 _)
    · exact absurd ((h1 c.start).1 (by rw [Span.containsOffset_iff]; have := c.valid_iff.1 v1; omega)) (h2 _)
    · rw [e1, e2, Span.ext_offsets v1 v2 fun i => (h1 i).trans (h2 i).symm]
  · rcases C25_intersection a b ha hb with ⟨e1, h1⟩ | ⟨c, e1, v1, h1⟩ <;>
    rcases C25_intersection b a hb ha with ⟨e2, h2⟩ | ⟨d, e2, v2, h2⟩
    · rw [e1, e2]
    · exact absurd ((h2 d.start).1 (by rw [Span.containsOffset_iff]; have := d.valid_iff.1 v2; omega)).symm (h1 _)
    · exact absurd ((h1 c.start).1 (by rw [Span.containsOffset_iff]; have := c.valid_iff.1 v1; omega)).symm (h2 _)
    · rw [e1, e2, Span.ext_offsets v1 v2 fun i => (h1 i).trans (and_comm.trans (h2 i).symm)]
  · rcases C25_intersection a a ha ha with ⟨-, h1⟩ | ⟨c, e1, v1, h1⟩
    · have := a.valid_iff.1 ha
      exact absurd ⟨by rw [Span.containsOffset_iff]; omega, by rw [Span.containsOffset_iff]; omega⟩ (h1 a.start)
    · rw [e1, Span.ext_offsets v1 ha fun i => (h1 i).trans (and_self_iff)]

example : (⟨3, 7⟩ : Span).intersection ⟨6, 9⟩ = .ok (some ⟨6, 7⟩) ∧ (⟨3, 7⟩ : Span).clipTo ⟨7, 9⟩ = .ok none := by
  decide +kernel

/-! ## C26 -/

/-- `shift` never raises, translates every offset, keeps the length. -/
theorem C26_shift (s : Span) (hs : s.Valid) (d : Int) :
    ∃ t, s.shift d = .ok t ∧ t.Valid ∧ t.len = s.len ∧ ∀ i, t.containsOffset i = true ↔ s.containsOffset (i - d) = true := by
  have hs := s.valid_iff.1 hs
  refine ⟨⟨s.start + d, s.stop + d⟩, Span.new_ok (by omega), ?_, ?_, ?_⟩
  · rw [Span.valid_iff]; show s.start + d < s.stop + d; omega
  · simp [Span.len]; omega
  · intro i; simp only [Span.containsOffset_iff]; omega

/-- Shifts compose by addition, and shifting by zero does nothing. -/
theorem C26_compose (s t : Span) (hs : s.Valid) (d e : Int) (h : s.shift d = .ok t) :
    t.shift e = s.shift (d + e) ∧ s.shift 0 = .ok s := by
  have hs := s.valid_iff.1 hs
  have h' : s.shift d = .ok ⟨s.start + d, s.stop + d⟩ := Span.new_ok (by omega)
  rw [h'] at h
  simp only [Except.ok.injEq] at h
  subst h
  constructor
  · unfold Span.shift
    simp only [Int.add_assoc]
  · unfold Span.shift
    simp only [Int.add_zero]
    exact Span.new_ok hs

/-- Shifting two spans by the same amount preserves every relation between them. -/
theorem C26_preserves (a b a' b' : Span) (ha : a.Valid) (hb : b.Valid) (d : Int) (h1 : a.shift d = .ok a') (h2 : b.shift d = .ok b') :
    a'.overlaps b' = a.overlaps b ∧ a'.containsSpan b' = a.containsSpan b ∧ a'.precedes b' = a.precedes b ∧
      a'.follows b' = a.follows b := by
  have ha := a.valid_iff.1 ha
  have hb := b.valid_iff.1 hb
  have e1 : a.shift d = .ok ⟨a.start + d, a.stop + d⟩ := Span.new_ok (by omega)
  have e2 : b.shift d = .ok ⟨b.start + d, b.stop + d⟩ := Span.new_ok (by omega)
  rw [e1] at h1; rw [e2] at h2
  simp only [Except.ok.injEq] at h1 h2
  subst h1 h2
  simp only [Span.overlaps, Span.containsSpan, Span.precedes, Span.follows]
  refine ⟨?_, ?_, ?_, ?_⟩ <;> rw [Bool.eq_iff_iff] <;> simp

example : (⟨3, 7⟩ : Span).Valid ∧ (⟨3, 7⟩ : Span).shift (-5) = .ok ⟨-2, 2⟩ := ⟨⟨3, 7, rfl⟩, by decide +kernel⟩

/-! ## C27 -/

theorem Span.minInt_spec (xs : List Int) (x : Int) :
    ∃ m, Span.minInt (x :: xs) = .ok m ∧ m ∈ x :: xs ∧ ∀ y ∈ x :: xs, m ≤ y := by
  unfold Span.minInt
  refine ⟨_, rfl, ?_⟩
  induction xs generalizing x with
  | nil => simp
  | cons y xs ih =>
    simp only [List.foldl_cons]
    by_cases h : y < x
    · rw [if_pos h]
      obtain ⟨h1, h2⟩ := ih y
      refine ⟨?_, ?_⟩
      · rcases List.mem_cons.1 h1 with e | e
        · rw [e]; simp
        · simp [e]
      · intro z hz
        rcases List.mem_cons.1 hz with e | e
        · have := h2 y (by simp); omega
        · exact h2 z e
    · rw [if_neg h]
      obtain ⟨h1, h2⟩ := ih x
      refine ⟨?_, ?_⟩
      · rcases List.mem_cons.1 h1 with e | e
        · rw [e]; simp
        · simp [e]
      · intro z hz
        rcases List.mem_cons.1 hz with e | e
        · rw [e]; exact h2 x (by simp)
        · rcases List.mem_cons.1 e with e | e
          · have := h2 x (by simp); omega
          · exact h2 z (by simp [e])

theorem Span.maxInt_spec (xs : List Int) (x : Int) :
    ∃ m, Span.maxInt (x :: xs) = .ok m ∧ m ∈ x :: xs ∧ ∀ y ∈ x :: xs, y ≤ m := by
  unfold Span.maxInt
  refine ⟨_, rfl, ?_⟩
  induction xs generalizing x with
  | nil => simp
  | cons y xs ih =>
    simp only [List.foldl_cons]
    by_cases h : x < y
    · rw [if_pos h]
      obtain ⟨h1, h2⟩ := ih y
      refine ⟨?_, ?_⟩
      · rcases List.mem_cons.1 h1 with e | e
        · rw [e]; simp
        · simp [e]
      · intro z hz
        rcases List.mem_cons.1 hz with e | e
        · have := h2 y (by simp); omega
        · exact h2 z e
    · rw [if_neg h]
      obtain ⟨h1, h2⟩ := ih x
      refine ⟨?_, ?_⟩
      · rcases List.mem_cons.1 h1 with e | e
        · rw [e]; simp
        · simp [e]
      · intro z hz
        rcases List.mem_cons.1 hz with e | e
        · rw [e]; exact h2 x (by simp)
        · rcases List.mem_cons.1 e with e | e
          · have := h2 x (by simp); omega
          · exact h2 z (by simp [e])

/-- For a collection: `ValueError` iff it is empty, else the least span containing every member. -/
theorem C27_minimal_enclosing_span (spans : List Span) (hv : ∀ s ∈ spans, s.Valid) :
    (spans = [] → Span.minimalEnclosingSpan (.collection spans) = .error .valueError) ∧
    (spans ≠ [] → ∃ m, Span.minimalEnclosingSpan (.collection spans) = .ok m ∧ m.Valid ∧
      (∀ s ∈ spans, m.containsSpan s = true) ∧
      ∀ t : Span, t.Valid → (∀ s ∈ spans, t.containsSpan s = true) → t.containsSpan m = true) := by
  constructor
  · rintro rfl; rfl
  · intro hne
    obtain ⟨s, ss, rfl⟩ := List.exists_cons_of_ne_nil hne
    obtain ⟨lo, h1, h2, h3⟩ := Span.minInt_spec (ss.map (·.start)) s.start
    obtain ⟨hi, h4, h5, h6⟩ := Span.maxInt_spec (ss.map (·.stop)) s.stop
    simp only [← List.map_cons (f := fun x : Span => x.start)] at h1 h2 h3
    simp only [← List.map_cons (f := fun x : Span => x.stop)] at h4 h5 h6
    obtain ⟨sl, hsl, rfl⟩ := List.mem_map.1 h2
    obtain ⟨sh, hsh, rfl⟩ := List.mem_map.1 h5
    have hlo : ∀ x ∈ s :: ss, sl.start ≤ x.start := fun x hx => h3 _ (List.mem_map.2 ⟨x, hx, rfl⟩)
    have hhi : ∀ x ∈ s :: ss, x.stop ≤ sh.stop := fun x hx => h6 _ (List.mem_map.2 ⟨x, hx, rfl⟩)
    have hlt : sl.start < sh.stop := by
      have a := hlo sh hsh
      have b := (Span.valid_iff sh).1 (hv sh hsh)
      omega
    refine ⟨⟨sl.start, sh.stop⟩, ?_, ?_, ?_, ?_⟩
    · simp only [Span.minimalEnclosingSpan, Span.PyIterable.consume, h1, h4, bind, Except.bind]
      exact Span.new_ok hlt
    · rw [Span.valid_iff]; exact hlt
    · intro x hx
      rw [Span.containsSpan_iff]; exact ⟨hlo x hx, hhi x hx⟩
    · intro t _ ht
      have a := (Span.containsSpan_iff t sl).1 (ht sl hsl)
      have b := (Span.containsSpan_iff t sh).1 (ht sh hsh)
      rw [Span.containsSpan_iff]; exact ⟨a.1, b.2⟩

/-- Deviation: given a one-shot iterator (which the declared type `Iterable` admits) the call always raises `ValueError`. -/
theorem C27_iterator_raises (spans : List Span) :
    Span.minimalEnclosingSpan (.iterator spans) = .error .valueError := by
  unfold Span.minimalEnclosingSpan
  simp only [Span.PyIterable.consume, bind, Except.bind]
  cases spans with
  | nil => rfl
  | cons s ss =>
    obtain ⟨lo, h1, -, -⟩ := Span.minInt_spec (ss.map (·.start)) s.start
    simp only [List.map_cons, h1, List.map_nil, Span.maxInt]

example : (∀ s ∈ [(⟨3, 7⟩ : Span), ⟨-2, 1⟩], s.Valid) ∧
    Span.minimalEnclosingSpan (.collection [⟨3, 7⟩, ⟨-2, 1⟩]) = .ok ⟨-2, 7⟩ := by
  refine ⟨?_, by decide +kernel⟩
  intro s hs
  rw [Span.valid_iff]
  simp only [List.mem_cons, List.not_mem_nil, or_false] at hs
  rcases hs with rfl | rfl <;> decide

/-! ## C75 -/

/-- `sorted(spans, key=Span.earliest_then_longest_first_key)`. -/
def Span.sortedEarliestLongest (spans : List Span) : List Span :=
  stableSort (fun a b => pairLe a.earliestThenLongestFirstKey b.earliestThenLongestFirstKey) spans

/-- Sorting spans by `earliest_then_longest_first_key` rearranges them so that an earlier start comes first and, among equal
starts, the longer span comes first; so a span never comes after a
different span it contains.  Two listings of the same spans sort to the same list. -/
theorem C75_earliest_then_longest (spans : List Span) :
    (Span.sortedEarliestLongest spans).Perm spans ∧
    (Span.sortedEarliestLongest spans).Pairwise (fun a b =>
      a.start < b.start ∨ (a.start = b.start ∧ b.stop ≤ a.stop)) ∧
    (Span.sortedEarliestLongest spans).Pairwise (fun a b => b.containsSpan a = true → a = b) := by
  have hs := stableSort_sorted
    (le := fun a b : Span => pairLe a.earliestThenLongestFirstKey b.earliestThenLongestFirstKey)
    (fun a b => pairLe_total _ _) (fun a b c => pairLe_trans _ _ _) spans
  have h : (Span.sortedEarliestLongest spans).Pairwise (fun a b =>
      a.start < b.start ∨ (a.start = b.start ∧ b.stop ≤ a.stop)) := by
    refine hs.imp fun {a b} h => ?_
    rw [pairLe_iff] at h
    simp only [Span.earliestThenLongestFirstKey] at h
    omega
  refine ⟨stableSort_perm _ _, h, h.imp fun {a b} h hc => ?_⟩
  rw [Span.containsSpan_iff] at hc
  obtain ⟨a1, a2⟩ := a
  obtain ⟨b1, b2⟩ := b
  simp only [Span.mk.injEq] at *
  omega

theorem C75_order_irrelevant (xs ys : List Span) (h : xs.Perm ys) :
    Span.sortedEarliestLongest xs = Span.sortedEarliestLongest ys := by
  refine List.Perm.eq_of_pairwise (le := fun a b : Span => a.start < b.start ∨ (a.start = b.start ∧ b.stop ≤ a.stop))
    ?_ (C75_earliest_then_longest xs).2.1 (C75_earliest_then_longest ys).2.1
    ((stableSort_perm _ _).trans (h.trans (stableSort_perm _ _).symm))
  rintro ⟨a1, a2⟩ ⟨b1, b2⟩ - - h1 h2
  simp only [Span.mk.injEq] at *
  omega

example : Span.sortedEarliestLongest [⟨4, 6⟩, ⟨1, 2⟩, ⟨1, 9⟩, ⟨4, 9⟩] = [⟨1, 9⟩, ⟨1, 2⟩, ⟨4, 9⟩, ⟨4, 6⟩] := by decide +kernel

end Vista
