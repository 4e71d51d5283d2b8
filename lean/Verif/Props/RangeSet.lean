import Verif.Proofs.RangeSetHistory
import Verif.Model.RangeSetHeap

/-!
# Properties C08-C20: range sets

`Reachable d`: some client history of `add` / `add_all` / `clear`, with ranges made by the `Range` constructor, produced
the range set `d`.  Vocabulary in `Verif/Spec/RangeSet.lean`.
-/
set_option linter.unusedSectionVars false
namespace Vista
variable {T : Type} [LinearOrder T]
open RangeSet

/-- The history used by the non-vacuity examples: {[1, 5], (7, 9)} after coalescing. -/
def exOps : List (RsOp Int) :=
  [.add ⟨.belowValue 40, .aboveValue 50⟩, .clear, .add ⟨.belowValue 1, .belowValue 3⟩,
   .addAll [⟨.aboveValue 7, .belowValue 9⟩, ⟨.belowValue 6, .belowValue 6⟩, ⟨.belowValue 3, .aboveValue 5⟩]]
def exSet : RDict Int := toD [⟨.belowValue 1, .aboveValue 5⟩, ⟨.aboveValue 7, .belowValue 9⟩]
theorem exOps_valid : ValidOps exOps := by
  unfold ValidOps exOps
  simp only [List.mem_cons, List.not_mem_nil, or_false, forall_eq_or_imp, forall_eq, RsOp.ranges, false_imp_iff, implies_true, true_and]
  decide +kernel
theorem exOps_run : runRs RangeSet.create exOps = .ok exSet := by decide +kernel
theorem exSet_reachable : Reachable exSet := ⟨exOps, exOps_valid, exOps_run⟩

/-! ## C08 -/

/-- Every history succeeds, and the reported ranges are non-empty, in increasing order, pairwise disconnected; `len` and
`is_empty` agree with them. -/
theorem C08_normal_form (ops : List (RsOp T)) (hops : ValidOps ops) :
    ∃ d, runRs RangeSet.create ops = .ok d ∧
      (∀ m ∈ asRanges d, m.Valid ∧ m.isEmpty = false) ∧
      (asRanges d).Pairwise (fun a b => a.isConnected b = false ∧ a.lower < b.lower ∧
        ∀ v w, a.contains v = true → b.contains w = true → v < w) ∧
      len d = (asRanges d).length ∧ (isEmpty d = true ↔ asRanges d = []) := by
  obtain ⟨rs, h, i⟩ := inv_run ops hops
  refine ⟨toD rs, h, ?_, ?_, ?_, ?_⟩
  · intro m hm
    rw [asRanges_toD] at hm
    exact ⟨i.normal.valid hm, (Range.nonempty_iff (i.normal.valid hm)).2 (i.normal.ne m hm)⟩
  · rw [asRanges_toD]
    refine List.Pairwise.imp_of_mem (fun {a b} ha _ hab => ⟨?_, ?_, ?_⟩) i.normal.sep
    · rw [← Bool.not_eq_true, Range.isConnected_iff]
      rintro ⟨-, h'⟩
      exact absurd hab (not_lt.2 h')
    · exact (i.normal.ne a ha).trans hab
    · intro v w hv hw
      rw [Range.contains_iff] at hv hw
      exact (Cut.aboveValue_le_belowValue v w).1 (hv.2.trans (hab.le.trans hw.1))
  · rw [asRanges_toD]; simp [len]
  · rw [asRanges_toD]; simp [isEmpty]

/-- `remove` and `remove_all` of a non-empty list always raise `NotImplementedError` (documented as supported). -/
theorem C08_remove_raises (d : RDict T) (r : Range T) (rs : List (Range T)) :
    remove d r = .error .notImplementedError ∧ removeAll d (r :: rs) = .error .notImplementedError := ⟨rfl, rfl⟩

example : ValidOps exOps ∧ runRs RangeSet.create exOps = .ok exSet ∧
    asRanges exSet = [⟨.belowValue 1, .aboveValue 5⟩, ⟨.aboveValue 7, .belowValue 9⟩] :=
  ⟨exOps_valid, exOps_run, by decide +kernel⟩

/-! ## C09 -/

/-- After any history, `v in rs` iff `v` is in some range added since the last `clear`. -/
theorem C09_membership (ops : List (RsOp T)) (hops : ValidOps ops) (v : T) :
    ∃ d b, runRs RangeSet.create ops = .ok d ∧ contains d v = .ok b ∧
      (b = true ↔ ∃ r ∈ liveRanges ops, r.contains v = true) := by
  obtain ⟨rs, h, i⟩ := inv_run ops hops
  obtain ⟨b, h1, h2⟩ := contains_toD i.normal v
  exact ⟨toD rs, b, h, h1, h2.trans (i.values v)⟩

example : contains exSet 4 = .ok true ∧ contains exSet 6 = .ok false ∧ contains exSet 45 = .ok false := by decide +kernel

/-! ## C10 -/

/-- After any history the set is the least pairwise disconnected family enclosing every non-empty range added since the
last `clear`. -/
theorem C10_least (ops : List (RsOp T)) (hops : ValidOps ops) :
    ∃ d, runRs RangeSet.create ops = .ok d ∧ IsLeastCover (asRanges d) (liveRanges ops) := by
  obtain ⟨rs, h, i⟩ := inv_run ops hops
  refine ⟨toD rs, h, ?_⟩
  rw [asRanges_toD]
  exact ⟨i.normal.disconnectedFamily,
    fun m hm => ⟨i.normal.valid hm, (Range.nonempty_iff (i.normal.valid hm)).2 (i.normal.ne m hm)⟩, i.covers, i.least⟩

/-- The docstring of `add`: the result is the minimal range set enclosing all members of the old one and the new range. -/
theorem C10_add_minimal (d : RDict T) (hd : Reachable d) (r : Range T) (hr : r.Valid) :
    ∃ d', add d r = .ok d' ∧ IsLeastCover (asRanges d') (asRanges d ++ [r]) := by
  obtain ⟨rs, rfl, hn⟩ := hd.normal
  have hi : Inv rs rs := ⟨hn, fun a ha _ => ⟨a, ha, by rw [Range.encloses_iff]; exact ⟨le_refl _, le_refl _⟩⟩,
    fun F _ hA m hm => hA m hm ((Range.nonempty_iff (hn.valid hm)).2 (hn.ne m hm)), fun v => Iff.rfl⟩
  obtain ⟨rs', h, i⟩ := inv_add hi hr
  refine ⟨toD rs', h, ?_⟩
  rw [asRanges_toD, asRanges_toD]
  exact ⟨i.normal.disconnectedFamily,
    fun m hm => ⟨i.normal.valid hm, (Range.nonempty_iff (i.normal.valid hm)).2 (i.normal.ne m hm)⟩, i.covers, i.least⟩

/-- Only the set of non-empty ranges added since the last `clear` matters: two histories with the same ones produce the
same range set. -/
theorem C10_history_irrelevant (ops₁ ops₂ : List (RsOp T)) (h₁ : ValidOps ops₁) (h₂ : ValidOps ops₂) (d₁ d₂ : RDict T)
    (r₁ : runRs RangeSet.create ops₁ = .ok d₁) (r₂ : runRs RangeSet.create ops₂ = .ok d₂)
    (h : ∀ r, r.isEmpty = false → (r ∈ liveRanges ops₁ ↔ r ∈ liveRanges ops₂)) :
    d₁ = d₂ ∧ asRanges d₁ = asRanges d₂ ∧ pyEq d₁ d₂ = true := by
  obtain ⟨rs1, e1, i1⟩ := inv_run ops₁ h₁
  obtain ⟨rs2, e2, i2⟩ := inv_run ops₂ h₂
  rw [e1] at r₁; cases r₁
  rw [e2] at r₂; cases r₂
  have := inv_unique i1 i2 h
  subst this
  refine ⟨rfl, rfl, ?_⟩
  simp only [pyEq, asRanges_toD, Bool.and_self, List.all_eq_true, List.any_eq_true]
  intro r hr
  exact ⟨r, hr, (Range.pyEq_iff _ _).2 rfl⟩

/-- Adding the same ranges in any order gives the same range set. -/
theorem C10_order_irrelevant (rs₁ rs₂ : List (Range T)) (h₁ : ∀ r ∈ rs₁, r.Valid) (hp : rs₁.Perm rs₂) :
    ∃ d, addAll RangeSet.create rs₁ = .ok d ∧ addAll RangeSet.create rs₂ = .ok d := by
  have h₂ : ∀ r ∈ rs₂, r.Valid := fun r hr => h₁ r (hp.mem_iff.2 hr)
  obtain ⟨a, ha, ia⟩ := inv_addAll (inv_nil (T := T)) rs₁ h₁
  obtain ⟨b, hb, ib⟩ := inv_addAll (inv_nil (T := T)) rs₂ h₂
  have : a = b := inv_unique ia ib fun r _ => by simpa using hp.mem_iff
  subst this
  exact ⟨toD a, ha, hb⟩

example : ∃ d, addAll RangeSet.create ([⟨.belowValue 1, .belowValue 3⟩, ⟨.belowValue 3, .aboveValue 5⟩] : List (Range Int)) = .ok d ∧
    asRanges d = [⟨.belowValue 1, .aboveValue 5⟩] := ⟨_, rfl, by decide +kernel⟩

/-! ## C11 -/

/-- `rs.encloses(r)` iff some member encloses `r`; `encloses_all` iff every one is; `range_enclosing_range` returns that
member, or `None` iff there is none. -/
theorem C11_encloses (d : RDict T) (hd : Reachable d) (q : Range T) (hq : q.Valid) :
    (∃ b, encloses d q = .ok b ∧ (b = true ↔ ∃ m ∈ asRanges d, m.encloses q = true)) ∧
    (∀ m, rangeEnclosingRange d q = .ok (some m) ↔ m ∈ asRanges d ∧ m.encloses q = true) ∧
    (rangeEnclosingRange d q = .ok none ↔ ∀ m ∈ asRanges d, m.encloses q = false) := by
  obtain ⟨rs, rfl, hn⟩ := hd.normal
  rw [asRanges_toD]
  exact ⟨encloses_toD hn hq, (rangeEnclosing_toD hn hq).1, (rangeEnclosing_toD hn hq).2⟩

theorem C11_encloses_all (d : RDict T) (hd : Reachable d) (qs : List (Range T)) (hq : ∀ q ∈ qs, q.Valid) :
    ∃ b, enclosesAll d qs = .ok b ∧ (b = true ↔ ∀ q ∈ qs, ∃ m ∈ asRanges d, m.encloses q = true) := by
  obtain ⟨rs, rfl, hn⟩ := hd.normal
  rw [asRanges_toD]
  exact enclosesAll_toD hn qs hq

example : encloses exSet ⟨.belowValue 2, .aboveValue 5⟩ = .ok true ∧ encloses exSet ⟨.belowValue 5, .belowValue 6⟩ = .ok false ∧
    rangeEnclosingRange exSet ⟨.aboveValue 7, .belowValue 8⟩ = .ok (some ⟨.aboveValue 7, .belowValue 9⟩) := by decide +kernel

/-! ## C12 -/

/-- `range_containing(v)` is the unique member containing `v`, `None` iff there is none. -/
theorem C12_range_containing (d : RDict T) (hd : Reachable d) (v : T) :
    (∀ m, rangeContaining d v = .ok (some m) ↔ m ∈ asRanges d ∧ m.contains v = true) ∧
    (rangeContaining d v = .ok none ↔ ∀ m ∈ asRanges d, m.contains v = false) ∧
    (∀ m ∈ asRanges d, ∀ m' ∈ asRanges d, m.contains v = true → m'.contains v = true → m = m') := by
  obtain ⟨rs, rfl, hn⟩ := hd.normal
  rw [asRanges_toD]
  refine ⟨(rangeContaining_toD hn v).1, (rangeContaining_toD hn v).2, fun m hm m' hm' h1 h2 => ?_⟩
  have e1 := ((rangeContaining_toD hn v).1 m).2 ⟨hm, h1⟩
  have e2 := ((rangeContaining_toD hn v).1 m').2 ⟨hm', h2⟩
  rw [e1] at e2
  simpa using e2

example : rangeContaining exSet 5 = .ok (some ⟨.belowValue 1, .aboveValue 5⟩) ∧ rangeContaining exSet 7 = .ok none := by
  decide +kernel

/-! ## C13 -/

/-- `rs.intersects(r)` iff some non-empty range is enclosed both by `r` and by a member; it never raises. -/
theorem C13_intersects (d : RDict T) (hd : Reachable d) (r : Range T) (hr : r.Valid) :
    ∃ b, intersects d r = .ok b ∧ (b = true ↔
      ∃ m ∈ asRanges d, ∃ t : Range T, t.Valid ∧ t.isEmpty = false ∧ m.encloses t = true ∧ r.encloses t = true) := by
  obtain ⟨rs, rfl, hn⟩ := hd.normal
  rw [asRanges_toD]
  obtain ⟨b, h1, h2⟩ := intersects_toD hn hr
  refine ⟨b, h1, h2.trans ?_⟩
  refine exists_congr fun m => and_congr_right fun _ => ?_
  unfold Overlap
  constructor
  · intro h
    have hv := Range.valid_of_lt (r := ⟨max m.lower r.lower, min m.upper r.upper⟩) h
    refine ⟨_, hv, (Range.nonempty_iff hv).2 h, ?_, ?_⟩ <;> rw [Range.encloses_iff]
    · exact ⟨le_max_left _ _, min_le_left _ _⟩
    · exact ⟨le_max_right _ _, min_le_right _ _⟩
  · rintro ⟨t, ht, hte, h1, h2⟩
    rw [Range.encloses_iff] at h1 h2
    rw [Range.nonempty_iff ht] at hte
    exact lt_of_le_of_lt (max_le h1.1 h2.1) (lt_of_lt_of_le hte (le_min h1.2 h2.2))

example : intersects exSet ⟨.belowValue 5, .aboveValue 6⟩ = .ok true ∧ intersects exSet ⟨.aboveValue 5, .aboveValue 7⟩ = .ok false := by
  decide +kernel

/-! ## C14 -/

/-- `ranges_overlapping(r)` is the sub-sequence of `as_ranges()` of members connected to `r`. -/
theorem C14_ranges_overlapping (d : RDict T) (hd : Reachable d) (r : Range T) (hr : r.Valid) :
    rangesOverlapping d r = .ok ((asRanges d).filter fun m => m.isConnected r) := by
  obtain ⟨rs, rfl, hn⟩ := hd.normal
  rw [asRanges_toD]
  exact rangesOverlapping_toD hn hr

/-- Disagreement between two queries: `ranges_overlapping` can be non-empty while `intersects` is False. -/
theorem C14_overlapping_without_intersecting_counterexample :
    rangesOverlapping exSet ⟨.aboveValue 5, .belowValue 6⟩ = .ok [⟨.belowValue 1, .aboveValue 5⟩] ∧
    intersects exSet ⟨.aboveValue 5, .belowValue 6⟩ = .ok false := by decide +kernel

example : rangesOverlapping exSet ⟨.belowValue 4, .aboveAll⟩ =
    .ok [⟨.belowValue 1, .aboveValue 5⟩, ⟨.aboveValue 7, .belowValue 9⟩] := by decide +kernel

/-! ## C15 -/

/-- `ranges_enclosed_by(r)` is the sub-sequence of `as_ranges()` of members enclosed by `r`. -/
theorem C15_ranges_enclosed_by (d : RDict T) (hd : Reachable d) (q : Range T) :
    rangesEnclosedBy d q = .ok ((asRanges d).filter fun m => q.encloses m) := by
  obtain ⟨rs, rfl, hn⟩ := hd.normal
  rw [asRanges_toD]
  exact rangesEnclosedBy_toD hn q

example : rangesEnclosedBy exSet ⟨.belowValue 2, .aboveValue 9⟩ = .ok [⟨.aboveValue 7, .belowValue 9⟩] := by decide +kernel

/-! ## C16 -/

/-- `rightmost_containing_or_below(x)` is the rightmost member not enclosed by `(x, +inf)`, `None` iff there is none. -/
theorem C16_rightmost (d : RDict T) (hd : Reachable d) (limit : T) :
    (∀ m, rightmostContainingOrBelow d limit = .ok (some m) ↔
      m ∈ asRanges d ∧ NotAbove m limit ∧ ∀ m' ∈ asRanges d, NotAbove m' limit → m' = m ∨ m'.upper < m.lower) ∧
    (rightmostContainingOrBelow d limit = .ok none ↔ ∀ m ∈ asRanges d, ¬ NotAbove m limit) := by
  obtain ⟨rs, rfl, hn⟩ := hd.normal
  rw [asRanges_toD, rightmost_toD hn]
  simp only [notAbove_iff]
  have hp : (rs.filter fun m => decide (m.lower ≤ .belowValue limit)).Pairwise fun a b => a.upper < b.lower :=
    List.Pairwise.filter _ hn.sep
  have hmem : ∀ m, m ∈ rs.filter (fun m => decide (m.lower ≤ .belowValue limit)) ↔ m ∈ rs ∧ m.lower ≤ .belowValue limit := by
    intro m; rw [List.mem_filter]; simp
  cases hl : (rs.filter fun m => decide (m.lower ≤ .belowValue limit)).getLast? with
  | none =>
    rw [List.getLast?_eq_none_iff] at hl
    have hno : ∀ m ∈ rs, ¬ m.lower ≤ .belowValue limit := by
      intro m hm hc
      have := (hmem m).2 ⟨hm, hc⟩
      rw [hl] at this; simp at this
    refine ⟨fun m => ⟨by simp, fun h => absurd h.2.1 (hno m h.1)⟩, fun _ => hno, fun _ => rfl⟩
  | some x =>
    have hx := (hmem x).1 (List.mem_of_getLast? hl)
    have hall : ∀ m' ∈ rs, m'.lower ≤ .belowValue limit → m' = x ∨ m'.upper < x.lower := fun m' hm' hc =>
      pairwise_getLast? hp hl ((hmem m').2 ⟨hm', hc⟩)
    refine ⟨fun m => ⟨?_, ?_⟩, by simp, fun h => absurd hx.2 (h x hx.1)⟩
    · intro e
      simp only [Except.ok.injEq, Option.some.injEq] at e
      subst e
      exact ⟨hx.1, hx.2, hall⟩
    · rintro ⟨h1, h2, h3⟩
      rcases h3 x hx.1 hx.2 with e | e
      · rw [e]
      · rcases hall m h1 h2 with e' | e'
        · rw [e']
        · exact absurd ((e.trans (hn.ne m h1)).trans (e'.trans (hn.ne x hx.1))) (lt_irrefl _)

example : rightmostContainingOrBelow exSet 7 = .ok (some ⟨.belowValue 1, .aboveValue 5⟩) ∧
    rightmostContainingOrBelow exSet 8 = .ok (some ⟨.aboveValue 7, .belowValue 9⟩) ∧
    rightmostContainingOrBelow exSet 0 = .ok none := by decide +kernel

/-! ## C17 -/

/-- `leftmost_containing_or_above(x)` is the leftmost member not enclosed by `(-inf, x)`, `None` iff there is none. -/
theorem C17_leftmost (d : RDict T) (hd : Reachable d) (limit : T) :
    (∀ m, leftmostContainingOrAbove d limit = .ok (some m) ↔
      m ∈ asRanges d ∧ NotBelow m limit ∧ ∀ m' ∈ asRanges d, NotBelow m' limit → m' = m ∨ m.upper < m'.lower) ∧
    (leftmostContainingOrAbove d limit = .ok none ↔ ∀ m ∈ asRanges d, ¬ NotBelow m limit) := by
  obtain ⟨rs, rfl, hn⟩ := hd.normal
  rw [asRanges_toD, leftmost_toD hn]
  simp only [notBelow_iff]
  cases hl : rs.find? fun m => decide (Cut.aboveValue limit ≤ m.upper) with
  | none =>
    rw [List.find?_eq_none] at hl
    have hno : ∀ m ∈ rs, ¬ Cut.aboveValue limit ≤ m.upper := fun m hm => by simpa using hl m hm
    refine ⟨fun m => ⟨by simp, fun h => absurd h.2.1 (hno m h.1)⟩, fun _ => hno, fun _ => rfl⟩
  | some x =>
    have hxm := List.mem_of_find?_eq_some hl
    obtain ⟨hx2, as, bs, hsplit, has⟩ := List.find?_eq_some_iff_append.1 hl
    simp only [decide_eq_true_eq] at hx2
    have hall : ∀ m' ∈ rs, Cut.aboveValue limit ≤ m'.upper → m' = x ∨ x.upper < m'.lower := by
      intro m' hm' hc
      have hs := hn.sep
      rw [hsplit] at hs hm'
      rcases List.mem_append.1 hm' with h | h
      · have := has m' h
        simp only [Bool.not_eq_true', decide_eq_false_iff_not] at this
        exact absurd hc this
      · rcases List.mem_cons.1 h with h | h
        · exact .inl h
        · exact .inr ((List.pairwise_cons.1 (List.pairwise_append.1 hs).2.1).1 m' h)
    refine ⟨fun m => ⟨?_, ?_⟩, by simp, fun h => absurd hx2 (h x hxm)⟩
    · intro e
      simp only [Except.ok.injEq, Option.some.injEq] at e
      subst e
      exact ⟨hxm, hx2, hall⟩
    · rintro ⟨h1, h2, h3⟩
      rcases h3 x hxm hx2 with e | e
      · rw [e]
      · rcases hall m h1 h2 with e' | e'
        · rw [e']
        · exact absurd ((e.trans (hn.ne x hxm)).trans (e'.trans (hn.ne m h1))) (lt_irrefl _)

example : leftmostContainingOrAbove exSet 5 = .ok (some ⟨.belowValue 1, .aboveValue 5⟩) ∧
    leftmostContainingOrAbove exSet 6 = .ok (some ⟨.aboveValue 7, .belowValue 9⟩) ∧
    leftmostContainingOrAbove exSet 9 = .ok none := by decide +kernel

/-! ## C18 -/

/-- `span` raises `ValueError` iff no non-empty range was added since the last `clear`; otherwise it is the least range
enclosing each of them. -/
theorem C18_span (ops : List (RsOp T)) (hops : ValidOps ops) :
    ∃ d, runRs RangeSet.create ops = .ok d ∧
      ((∀ a ∈ liveRanges ops, a.isEmpty = true) → span d = .error .valueError) ∧
      ((∃ a ∈ liveRanges ops, a.isEmpty = false) → ∃ s, span d = .ok s ∧ s.Valid ∧
        (∀ a ∈ liveRanges ops, a.isEmpty = false → s.encloses a = true) ∧
        ∀ u : Range T, (∀ a ∈ liveRanges ops, a.isEmpty = false → u.encloses a = true) → u.encloses s = true) := by
  obtain ⟨rs, h, i⟩ := inv_run ops hops
  refine ⟨toD rs, h, ?_, ?_⟩
  · intro hall
    refine (span_toD i.normal).1 ?_
    by_contra hne
    obtain ⟨m, hm⟩ := List.exists_mem_of_ne_nil rs hne
    obtain ⟨f, hf, -⟩ := i.least (fun _ => False) (fun _ _ h => h.elim) (fun a ha hae => by rw [hall a ha] at hae; cases hae) m hm
    exact hf
  · rintro ⟨a, ha, hae⟩
    obtain ⟨m, hm, -⟩ := i.covers a ha hae
    have hne : rs ≠ [] := List.ne_nil_of_mem hm
    obtain ⟨x, hx⟩ : ∃ x, rs.head? = some x := ⟨rs.head hne, List.head?_eq_some_head hne⟩
    obtain ⟨y, hy⟩ : ∃ y, rs.getLast? = some y := ⟨rs.getLast hne, List.getLast?_eq_some_getLast hne⟩
    have hs := (span_toD i.normal).2 x y hx hy
    have hlow : ∀ m ∈ rs, x.lower ≤ m.lower := by
      intro m hm
      rcases pairwise_head? i.normal.lowers hx hm with e | e
      · rw [e]
      · exact e.le
    have hup : ∀ m ∈ rs, m.upper ≤ y.upper := by
      intro m hm
      rcases pairwise_getLast? i.normal.uppers hy hm with e | e
      · rw [e]
      · exact e.le
    refine ⟨_, hs, ?_, ?_, ?_⟩
    · refine Range.valid_of_lt ?_
      exact lt_of_lt_of_le (i.normal.ne x (List.mem_of_head? hx)) (hup x (List.mem_of_head? hx))
    · intro a ha hae
      obtain ⟨m, hm, hme⟩ := i.covers a ha hae
      rw [Range.encloses_iff] at *
      exact ⟨(hlow m hm).trans hme.1, hme.2.trans (hup m hm)⟩
    · intro u hu
      have key : ∀ m ∈ rs, u.encloses m = true := by
        intro m hm
        obtain ⟨f, rfl, hf⟩ := i.least (· = u) (fun a b h1 h2 _ => h1.trans h2.symm)
          (fun a ha hae => ⟨u, rfl, hu a ha hae⟩) m hm
        exact hf
      have h1 := (Range.encloses_iff _ _).1 (key x (List.mem_of_head? hx))
      have h2 := (Range.encloses_iff _ _).1 (key y (List.mem_of_getLast? hy))
      rw [Range.encloses_iff]
      exact ⟨h1.1, h2.2⟩

/-- `span` of a range set raises exactly when the set is empty. -/
theorem C18_span_empty (d : RDict T) (hd : Reachable d) :
    (isEmpty d = true → span d = .error .valueError) ∧ (isEmpty d = false → ∃ s, span d = .ok s) := by
  obtain ⟨rs, rfl, hn⟩ := hd.normal
  constructor
  · intro h
    refine (span_toD hn).1 ?_
    simpa [isEmpty] using h
  · intro h
    have hne : rs ≠ [] := by simpa [isEmpty] using h
    exact ⟨_, (span_toD hn).2 _ _ (List.head?_eq_some_head hne) (List.getLast?_eq_some_getLast hne)⟩

example : span exSet = .ok ⟨.belowValue 1, .belowValue 9⟩ := by decide +kernel

/-! ## C19 -/

/-- Pickling and unpickling gives back the same range set, so every query answers the same. -/
theorem C19_pickle (d : RDict T) (hd : Reachable d) : setState (getState d) = d := by
  obtain ⟨rs, rfl, hn⟩ := hd.normal
  have : getState (toD rs) = rs := by
    unfold getState isEmpty
    rw [length_toD, asRanges_toD]
    cases rs <;> simp
  rw [this]
  exact setState_toD hn

/-- `a == b` iff they report the same ranges in the same order. -/
theorem C19_eq_extensional (a b : RDict T) (ha : Reachable a) (hb : Reachable b) :
    pyEq a b = true ↔ asRanges a = asRanges b := by
  obtain ⟨as, rfl, hna⟩ := ha.normal
  obtain ⟨bs, rfl, hnb⟩ := hb.normal
  rw [asRanges_toD, asRanges_toD]
  simp only [pyEq, asRanges_toD, Bool.and_eq_true, List.all_eq_true, List.any_eq_true, Range.pyEq_iff]
  constructor
  · rintro ⟨h1, h2⟩
    refine eq_of_same_members hna hnb fun m => ⟨fun hm => ?_, fun hm => ?_⟩
    · obtain ⟨s, hs, e⟩ := h1 m hm; rw [e]; exact hs
    · obtain ⟨s, hs, e⟩ := h2 m hm; rw [e]; exact hs
  · rintro rfl
    exact ⟨fun r hr => ⟨r, hr, rfl⟩, fun r hr => ⟨r, hr, rfl⟩⟩

example : Reachable exSet ∧ setState (getState exSet) = exSet := ⟨exSet_reachable, by decide +kernel⟩

/-! ## C20 -/

namespace RsHeap

/-- Builders and snapshots refer to allocated, different dictionaries. -/
structure Ok (h : RsHeap T) : Prop where
  b : ∀ a ∈ h.builders, a < h.cells.length
  s : ∀ a ∈ h.snapshots, a < h.cells.length
  disj : ∀ a ∈ h.builders, a ∉ h.snapshots

theorem ok_step {h : RsHeap T} (hk : h.Ok) (c : RsCall T) : (h.step c).Ok ∧
    ∀ i d, h.snapshot? i = some d → (h.step c).snapshot? i = some d := by
  have keep : ∀ (a : Nat) (d' : RDict T), a ∈ h.builders →
      ({ h with cells := h.cells.set a d' } : RsHeap T).Ok ∧
      ∀ i d, h.snapshot? i = some d → ({ h with cells := h.cells.set a d' } : RsHeap T).snapshot? i = some d := by
    intro a d' ha
    refine ⟨⟨by simpa using hk.b, by simpa using hk.s, hk.disj⟩, ?_⟩
    intro i d hi
    unfold snapshot? at *
    cases hs : h.snapshots[i]? with
    | none => rw [hs] at hi; simp at hi
    | some a' =>
      rw [hs] at hi
      simp only [Option.bind_eq_bind, Option.bind_some] at hi ⊢
      have hne : a ≠ a' := by
        rintro rfl
        exact hk.disj a ha (List.mem_of_getElem? hs)
      rw [List.getElem?_set_ne hne]; exact hi
  have grow : ∀ (d0 : RDict T) (bs ss : List Nat),
      ∀ i d, h.snapshot? i = some d → (⟨h.cells ++ [d0], bs, h.snapshots ++ ss⟩ : RsHeap T).snapshot? i = some d := by
    intro d0 bs ss i d hi
    unfold snapshot? at *
    cases hs : h.snapshots[i]? with
    | none => rw [hs] at hi; simp at hi
    | some a' =>
      rw [hs] at hi
      simp only [Option.bind_eq_bind, Option.bind_some] at hi ⊢
      rw [List.getElem?_append_left (by
        by_contra hc
        rw [List.getElem?_eq_none (by omega)] at hs; cases hs), hs]
      simp only [Option.bind_some]
      rw [List.getElem?_append_left (hk.s a' (List.mem_of_getElem? hs))]
      exact hi
  cases c with
  | newBuilder =>
    refine ⟨⟨?_, ?_, ?_⟩, ?_⟩
    · intro a ha
      simp only [step, List.mem_append, List.mem_singleton, List.length_append, List.length_singleton] at ha ⊢
      rcases ha with ha | rfl
      · have := hk.b a ha; omega
      · omega
    · intro a ha
      simp only [step, List.length_append, List.length_singleton] at ha ⊢
      have := hk.s a ha; omega
    · intro a ha
      simp only [step, List.mem_append, List.mem_singleton] at ha ⊢
      rcases ha with ha | rfl
      · exact hk.disj a ha
      · intro hc; have := hk.s _ hc; omega
    · have := grow RangeSet.create (h.builders ++ [h.cells.length]) []
      simpa [step] using this
  | add b r =>
    simp only [step]
    split
    · rename_i a d h1 h2
      split
      · exact keep a _ (List.mem_of_getElem? h1)
      · exact ⟨hk, fun _ _ h => h⟩
    · exact ⟨hk, fun _ _ h => h⟩
  | clear b =>
    simp only [step]
    split
    · rename_i a d h1 h2
      split
      · exact keep a _ (List.mem_of_getElem? h1)
      · exact ⟨hk, fun _ _ h => h⟩
    · exact ⟨hk, fun _ _ h => h⟩
  | build b =>
    simp only [step]
    split
    · rename_i d hd
      refine ⟨⟨?_, ?_, ?_⟩, ?_⟩
      · intro a ha
        simp only [List.length_append, List.length_singleton] at ha ⊢
        have := hk.b a ha; omega
      · intro a ha
        simp only [List.mem_append, List.mem_singleton, List.length_append, List.length_singleton] at ha ⊢
        rcases ha with ha | rfl
        · have := hk.s a ha; omega
        · omega
      · intro a ha
        simp only [List.mem_append, List.mem_singleton, not_or]
        exact ⟨hk.disj a ha, by have := hk.b a ha; omega⟩
      · exact grow d h.builders [h.cells.length]
    · exact ⟨hk, fun _ _ h => h⟩

theorem ok_run {h : RsHeap T} (hk : h.Ok) (cs : List (RsCall T)) : (h.run cs).Ok ∧
    ∀ i d, h.snapshot? i = some d → (h.run cs).snapshot? i = some d := by
  induction cs generalizing h with
  | nil => exact ⟨hk, fun _ _ h => h⟩
  | cons c cs ih =>
    obtain ⟨h1, h2⟩ := ok_step hk c
    obtain ⟨h3, h4⟩ := ih h1
    exact ⟨h3, fun i d hi => h4 i d (h2 i d hi)⟩

theorem ok_empty : (empty : RsHeap T).Ok := ⟨by simp [empty], by simp [empty], by simp [empty]⟩

end RsHeap

/-- An immutable range set, once built, never changes: after any calls `before`, whatever calls `after` follow on any
builders, each immutable set handed out so far still has the same content. -/
theorem C20_snapshot_frozen (before after : List (RsCall T)) (i : Nat) (d : RDict T)
    (h : (RsHeap.empty.run before).snapshot? i = some d) :
    (RsHeap.empty.run (before ++ after)).snapshot? i = some d := by
  have h1 := (RsHeap.ok_run (RsHeap.ok_empty (T := T)) before).1
  have h2 := (RsHeap.ok_run h1 after).2 i d h
  simpa [RsHeap.run, List.foldl_append] using h2

/-- `build()` returns a set with the builder's current content. -/
theorem C20_build_content (before : List (RsCall T)) (b : Nat) (d : RDict T)
    (h : (RsHeap.empty.run before).builder? b = some d) :
    (RsHeap.empty.run (before ++ [.build b])).snapshot? (RsHeap.empty.run before).snapshots.length = some d := by
  have : (RsHeap.empty.run (before ++ [.build b])) = (RsHeap.empty.run before).step (.build b) := by
    simp [RsHeap.run, List.foldl_append]
  rw [this]
  simp [RsHeap.step, h, RsHeap.snapshot?]

example : (RsHeap.empty.run ([.newBuilder, .add 0 ⟨.belowValue 1, .belowValue 3⟩, .build 0] : List (RsCall Int))).snapshot? 0 =
    some (toD [⟨.belowValue 1, .belowValue 3⟩]) := by decide +kernel

/-! ### What is in a builder -/

/-- The calls made on the `b`-th builder, as operations of a range set. -/
def RsCall.opOn (b : Nat) : RsCall T → Option (RsOp T)
  | .add b' r => if b' = b then some (.add r) else none
  | .clear b' => if b' = b then some .clear else none
  | .newBuilder => none
  | .build _ => none

/-- The number of builders made by some calls. -/
def RsCall.created (cs : List (RsCall T)) : Nat := (cs.filter fun c => match c with | .newBuilder => true | _ => false).length

namespace RsHeap

theorem nodup_step {h : RsHeap T} (hk : h.Ok) (hn : h.builders.Nodup) (c : RsCall T) : (h.step c).builders.Nodup := by
  cases c with
  | newBuilder =>
    simp only [step]
    rw [List.nodup_append]
    refine ⟨hn, by simp, fun a ha b hb => ?_⟩
    simp only [List.mem_singleton] at hb
    have := hk.b a ha
    omega
  | add b r => simp only [step]; repeat' split
               all_goals exact hn
  | clear b => simp only [step]; repeat' split
               all_goals exact hn
  | build b => simp only [step]; split <;> exact hn

theorem builders_step (h : RsHeap T) (c : RsCall T) :
    (h.step c).builders.length = h.builders.length + RsCall.created [c] := by
  cases c with
  | newBuilder => simp [step, RsCall.created]
  | add b r => simp only [step, RsCall.created]; repeat' split
               all_goals simp
  | clear b => simp only [step, RsCall.created]; repeat' split
               all_goals simp
  | build b => simp only [step, RsCall.created]; split <;> simp

theorem set_other {h : RsHeap T} (hn : h.builders.Nodup) {b b' a : Nat} {d d' : RDict T} (hb' : h.builders[b']? = some a) (hbb : b' ≠ b)
    (h1 : h.builder? b = some d) : ({ h with cells := h.cells.set a d' } : RsHeap T).builder? b = some d := by
  unfold builder? at *
  cases hs : h.builders[b]? with
  | none => rw [hs] at h1; simp at h1
  | some c =>
    simp only [hs, Option.bind_eq_bind, Option.bind_some] at h1 ⊢
    have : a ≠ c := by
      rintro rfl
      obtain ⟨i1, e1⟩ := List.getElem?_eq_some_iff.1 hs
      obtain ⟨i2, e2⟩ := List.getElem?_eq_some_iff.1 hb'
      exact hbb ((List.pairwise_iff_getElem.1 hn |> fun hp => by
        rcases Nat.lt_trichotomy b' b with hlt | heq | hgt
        · exact absurd (e2.trans e1.symm) (hp _ _ i2 i1 hlt)
        · exact heq
        · exact absurd (e1.trans e2.symm) (hp _ _ i1 i2 hgt)))
    rw [List.getElem?_set_ne this]
    exact h1

theorem set_self {h : RsHeap T} {b a : Nat} {d d' : RDict T} (hb : h.builders[b]? = some a)
    (h1 : h.builder? b = some d) : ({ h with cells := h.cells.set a d' } : RsHeap T).builder? b = some d' := by
  unfold builder? at *
  simp only [hb, Option.bind_eq_bind, Option.bind_some] at h1 ⊢
  obtain ⟨i1, _⟩ := List.getElem?_eq_some_iff.1 h1
  simp [i1]

theorem alloc_keep {h : RsHeap T} {b : Nat} {d : RDict T} (bs ss : List Nat) (x : List (RDict T)) (h1 : h.builder? b = some d) :
    (⟨h.cells ++ x, h.builders ++ bs, ss⟩ : RsHeap T).builder? b = some d := by
  unfold builder? at *
  cases hs : h.builders[b]? with
  | none => rw [hs] at h1; simp at h1
  | some c =>
    obtain ⟨i1, e1⟩ := List.getElem?_eq_some_iff.1 hs
    simp only [hs, Option.bind_eq_bind, Option.bind_some] at h1 ⊢
    rw [List.getElem?_append_left i1, hs]
    simp only [Option.bind_some]
    obtain ⟨i2, e2⟩ := List.getElem?_eq_some_iff.1 h1
    rw [List.getElem?_append_left i2]
    exact h1

theorem builder_step {h : RsHeap T} (hn : h.builders.Nodup) {b : Nat} {d : RDict T} (h1 : h.builder? b = some d) (c : RsCall T) :
    (c.opOn b = none → (h.step c).builder? b = some d) ∧
    (∀ op d', c.opOn b = some op → stepRs d op = .ok d' → (h.step c).builder? b = some d') := by
  have hbs : ∃ a, h.builders[b]? = some a := by
    unfold builder? at h1
    cases hs : h.builders[b]? with
    | none => rw [hs] at h1; simp at h1
    | some a => exact ⟨a, rfl⟩
  obtain ⟨a, ha⟩ := hbs
  cases c with
  | newBuilder => exact ⟨fun _ => alloc_keep _ _ _ h1, fun _ _ h => by cases h⟩
  | build b' =>
    refine ⟨fun _ => ?_, fun _ _ h => (by cases h)⟩
    simp only [step]
    split
    · have := alloc_keep [] (h.snapshots ++ [h.cells.length]) [‹_›] h1
      simpa using this
    · exact h1
  | add b' r =>
    by_cases hb : b' = b
    · subst hb
      simp only [RsCall.opOn, if_true, step, ha, h1, reduceCtorEq, false_implies, true_and, Option.some.injEq]
      rintro op d' rfl hs
      simp only [stepRs] at hs
      simp only [hs]
      exact set_self ha h1
    · simp only [RsCall.opOn, if_neg hb, reduceCtorEq, false_implies, implies_true, and_true, true_implies, step]
      split
      · split
        · exact set_other hn ‹_› hb h1
        · exact h1
      · exact h1
  | clear b' =>
    by_cases hb : b' = b
    · subst hb
      simp only [RsCall.opOn, if_true, step, ha, h1, reduceCtorEq, false_implies, true_and, Option.some.injEq]
      rintro op d' rfl hs
      simp only [stepRs] at hs
      simp only [hs]
      exact set_self ha h1
    · simp only [RsCall.opOn, if_neg hb, reduceCtorEq, false_implies, implies_true, and_true, true_implies, step]
      split
      · split
        · exact set_other hn ‹_› hb h1
        · exact h1
      · exact h1

theorem builder_run {h : RsHeap T} (hk : h.Ok) (hn : h.builders.Nodup) {b : Nat} {d : RDict T} (h1 : h.builder? b = some d) (cs : List (RsCall T)) {d' : RDict T}
    (hr : runRs d (cs.filterMap (·.opOn b)) = .ok d') : (h.run cs).builder? b = some d' := by
  induction cs generalizing h d with
  | nil => cases hr; exact h1
  | cons c cs ih =>
    have hok := (ok_step hk c).1
    have hnd := nodup_step hk hn c
    show ((h.step c).run cs).builder? b = some d'
    obtain ⟨s1, s2⟩ := builder_step hn h1 c
    cases ho : c.opOn b with
    | none =>
      rw [List.filterMap_cons_none ho] at hr
      exact ih hok hnd (s1 ho) hr
    | some op =>
      rw [List.filterMap_cons_some ho] at hr
      simp only [runRs, bind, Except.bind] at hr
      cases hs : stepRs d op with
      | error e => rw [hs] at hr; cases hr
      | ok d1 =>
        rw [hs] at hr
        exact ih hok hnd (s2 op d1 ho hs) hr

theorem run_shape (cs : List (RsCall T)) : ((empty : RsHeap T).run cs).Ok ∧ ((empty : RsHeap T).run cs).builders.Nodup ∧
    ((empty : RsHeap T).run cs).builders.length = RsCall.created cs := by
  refine ⟨(ok_run ok_empty cs).1, ?_⟩
  suffices hs : ∀ h : RsHeap T, h.Ok → h.builders.Nodup → (h.run cs).builders.Nodup ∧ (h.run cs).builders.length = h.builders.length + RsCall.created cs by
    have := hs empty ok_empty (by simp [empty])
    simpa [empty] using this
  induction cs with
  | nil => exact fun h _ hn => ⟨hn, rfl⟩
  | cons c cs ih =>
    intro h hk hn
    obtain ⟨h1, h2⟩ := ih (h.step c) (ok_step hk c).1 (nodup_step hk hn c)
    refine ⟨h1, ?_⟩
    show ((h.step c).run cs).builders.length = _
    rw [h2, builders_step]
    have : RsCall.created (c :: cs) = RsCall.created [c] + RsCall.created cs := by
      unfold RsCall.created
      rw [← List.length_append, ← List.filter_append]
      rfl
    omega

end RsHeap

/-- A builder (or mutable set) contains what was added to it since it was made, or last cleared: calls on other builders, and `build`, do not
matter. -/
theorem C20_builder_content (before after : List (RsCall T)) (hv : ∀ b r, .add b r ∈ after → r.Valid) :
    ∃ d, (RsHeap.empty.run (before ++ .newBuilder :: after)).builder? (RsCall.created before) = some d ∧
      runRs RangeSet.create (after.filterMap (·.opOn (RsCall.created before))) = .ok d := by
  have hval : ValidOps (after.filterMap (·.opOn (RsCall.created before))) := by
    intro op hop r hr
    obtain ⟨c, hc, hco⟩ := List.mem_filterMap.1 hop
    cases c with
    | newBuilder => cases hco
    | build b => cases hco
    | add b r' =>
      simp only [RsCall.opOn] at hco
      split at hco
      · cases hco
        simp only [RsOp.ranges, List.mem_singleton] at hr
        subst hr
        exact hv b _ hc
      · cases hco
    | clear b =>
      simp only [RsCall.opOn] at hco
      split at hco
      · cases hco; simp [RsOp.ranges] at hr
      · cases hco
  obtain ⟨d, hd, -⟩ := C18_span _ hval
  refine ⟨d, ?_, hd⟩
  obtain ⟨hk, hn, hl⟩ := RsHeap.run_shape before
  have hrun : RsHeap.empty.run (before ++ .newBuilder :: after) = ((RsHeap.empty.run before).step .newBuilder).run after := by
    simp [RsHeap.run, List.foldl_append]
  rw [hrun]
  refine RsHeap.builder_run (RsHeap.ok_step hk _).1 (RsHeap.nodup_step hk hn _) ?_ after hd
  rw [← hl]
  simp [RsHeap.step, RsHeap.builder?]

example : RsCall.created ([.newBuilder, .add 0 ⟨.belowValue 1, .belowValue 3⟩, .build 0] : List (RsCall Int)) = 1 := by decide
example : ([.add 0 ⟨.belowValue 1, .belowValue 3⟩, .add 1 ⟨.belowValue 5, .belowValue 6⟩, .clear 0] : List (RsCall Int)).filterMap (·.opOn 1) =
    [.add ⟨.belowValue 5, .belowValue 6⟩] := rfl

theorem RsHeap.builders_prefix (h : RsHeap T) (cs : List (RsCall T)) {b a : Nat} (hb : h.builders[b]? = some a) : (h.run cs).builders[b]? = some a := by
  induction cs generalizing h with
  | nil => exact hb
  | cons c cs ih =>
    show ((h.step c).run cs).builders[b]? = some a
    refine ih _ ?_
    cases c with
    | newBuilder =>
      simp only [step]
      rw [List.getElem?_append_left (List.getElem?_eq_some_iff.1 hb).1, hb]
    | build b => simp only [step]; split <;> exact hb
    | add b r => simp only [step]; repeat' split
                 all_goals exact hb
    | clear b => simp only [step]; repeat' split
                 all_goals exact hb

theorem RsHeap.snapshots_prefix (h : RsHeap T) (cs : List (RsCall T)) {i a : Nat} (hb : h.snapshots[i]? = some a) : (h.run cs).snapshots[i]? = some a := by
  induction cs generalizing h with
  | nil => exact hb
  | cons c cs ih =>
    show ((h.step c).run cs).snapshots[i]? = some a
    refine ih _ ?_
    cases c with
    | newBuilder => exact hb
    | build b =>
      simp only [step]
      split
      · simp only
        rw [List.getElem?_append_left (List.getElem?_eq_some_iff.1 hb).1, hb]
      · exact hb
    | add b r => simp only [step]; repeat' split
                 all_goals exact hb
    | clear b => simp only [step]; repeat' split
                 all_goals exact hb

/-- `as_ranges()` is a view: of a mutable set it shows at any later time what is in the set then; of an immutable set it always shows the same. -/
theorem C20_views (before after : List (RsCall T)) :
    (∀ b view d, (RsHeap.empty.run before).asRangesOfBuilder b = some view → (RsHeap.empty.run (before ++ after)).builder? b = some d →
      (RsHeap.empty.run (before ++ after)).look view = some (RangeSet.asRanges d)) ∧
    (∀ i view d, (RsHeap.empty.run before).asRangesOfSnapshot i = some view → (RsHeap.empty.run before).snapshot? i = some d →
      (RsHeap.empty.run (before ++ after)).look view = some (RangeSet.asRanges d)) := by
  have hrun : (RsHeap.empty : RsHeap T).run (before ++ after) = ((RsHeap.empty : RsHeap T).run before).run after := by
    simp [RsHeap.run, List.foldl_append]
  refine ⟨fun b view d hv hd => ?_, fun i view d hv hd => ?_⟩
  · have h1 := RsHeap.builders_prefix _ after hv
    rw [← hrun] at h1
    unfold RsHeap.builder? at hd
    simp only [h1, Option.bind_eq_bind, Option.bind_some] at hd
    unfold RsHeap.look
    rw [hd]
    rfl
  · have h1 := RsHeap.snapshots_prefix _ after hv
    rw [← hrun] at h1
    have h2 := C20_snapshot_frozen before after i d hd
    unfold RsHeap.snapshot? at h2
    simp only [h1, Option.bind_eq_bind, Option.bind_some] at h2
    unfold RsHeap.look
    rw [h2]
    rfl

/-- So what `as_ranges()` of a mutable set returned can change later. -/
theorem C20_view_counterexample : ∃ (before after : List (RsCall Int)) (view : Nat) (r r' : Range Int),
    (RsHeap.empty.run before).asRangesOfBuilder 0 = some view ∧ (RsHeap.empty.run before).look view = some [r] ∧
    (RsHeap.empty.run (before ++ after)).look view = some [r'] ∧ r ≠ r' :=
  ⟨[.newBuilder, .add 0 ⟨.belowValue 1, .belowValue 3⟩], [.add 0 ⟨.belowValue 2, .belowValue 5⟩], 0, ⟨.belowValue 1, .belowValue 3⟩,
    ⟨.belowValue 1, .belowValue 5⟩, by decide +kernel, by decide +kernel, by decide +kernel, by decide +kernel⟩

end Vista
