import Verif.Proofs.NumRange
import Verif.Props.RangeSet
import Verif.Props.RangeMap

/-!
# C107: ranges of Python numbers, with equal numbers that are different objects, and NaN
-/
set_option linter.unusedSectionVars false
set_option linter.unusedSimpArgs false
namespace Vista
namespace Numeric
variable {V T : Type} [LinearOrder T] {num : V → Option T}

/-! ## Making ranges -/

theorem less_iff (x y : V) : less num x y = true ↔ Less num x y := by
  unfold less Less
  cases num x <;> cases num y <;> simp

theorem lessEq_iff (x y : V) : (less num x y || equal num x y) = true ↔ AtMost num x y := by
  unfold less equal AtMost
  cases num x <;> cases num y <;> simp [le_iff_lt_or_eq]

theorem less_asymm {x y : V} (h : Less num x y) : ¬ Less num y x := by
  obtain ⟨a, b, h1, h2, h3⟩ := h
  rintro ⟨b', a', h4, h5, h6⟩
  rw [h2] at h4; rw [h1] at h5
  simp only [Option.some.injEq] at h4 h5
  subst h4 h5
  exact lt_asymm h3 h6

theorem new_values (lo hi : Cut V) (hlo : lo ≠ .aboveAll) (hhi : hi ≠ .belowAll) :
    (Cut.le num lo hi = true → Range.new num lo hi = .ok ⟨lo, hi⟩) ∧ (Cut.le num lo hi = false → Range.new num lo hi = .error .valueError) := by
  have h1 : Cut.isAboveAll lo = false := by cases lo <;> first | rfl | exact absurd rfl hlo
  have h2 : Cut.isBelowAll hi = false := by cases hi <;> first | rfl | exact absurd rfl hhi
  constructor <;> intro h <;> simp [Range.new, checkArg, h, h1, h2, bind, Except.bind]

theorem le_values (s o : Bool) (a b : V) : decide (Cut.compareValues num s o a b ≤ 0) = true ↔ Less num a b ∨ (¬ Less num b a ∧ (s = true → o = true)) := by
  unfold Cut.compareValues
  by_cases h1 : less num a b = true
  · simp [h1, (less_iff a b).1 h1]
  · by_cases h2 : less num b a = true
    · have h3 := (less_iff b a).1 h2
      simp [h1, h2, h3, less_asymm h3]
    · have h3 : ¬ Less num b a := fun h => h2 ((less_iff b a).2 h)
      have h4 : ¬ Less num a b := fun h => h1 ((less_iff a b).2 h)
      cases s <;> cases o <;> simp [h1, h2, h3, h4]

theorem contains_iff (lo hi : Cut V) (v : V) :
    Range.contains num ⟨lo, hi⟩ v = true ↔ Cut.isLessThan num lo v = true ∧ ¬ Cut.isLessThan num hi v = true := by
  simp [Range.contains]

/-- The factories with two endpoints, for any numbers, NaN or not: which raise, and what the ranges contain. -/
theorem C107_factories (num : V → Option T) (a b : V) :
    ((Less num a b → ∃ r, Range.open num a b = .ok r ∧ ∀ v, Range.contains num r v = true ↔ Less num a v ∧ ¬ AtMost num b v) ∧
      (¬ Less num a b → Range.open num a b = .error .valueError)) ∧
    ((¬ Less num b a → ∃ r, Range.closed num a b = .ok r ∧ ∀ v, Range.contains num r v = true ↔ AtMost num a v ∧ ¬ Less num b v) ∧
      (Less num b a → Range.closed num a b = .error .valueError)) ∧
    ((¬ Less num b a → ∃ r, Range.closedOpen num a b = .ok r ∧ ∀ v, Range.contains num r v = true ↔ AtMost num a v ∧ ¬ AtMost num b v) ∧
      (Less num b a → Range.closedOpen num a b = .error .valueError)) ∧
    ((¬ Less num b a → ∃ r, Range.openClosed num a b = .ok r ∧ ∀ v, Range.contains num r v = true ↔ Less num a v ∧ ¬ Less num b v) ∧
      (Less num b a → Range.openClosed num a b = .error .valueError)) := by
  have key : ∀ (lo hi : Cut V) (P : Prop), lo ≠ .aboveAll → hi ≠ .belowAll → (Cut.le num lo hi = true ↔ P) → ∀ C : V → Prop,
      (∀ v, Range.contains num ⟨lo, hi⟩ v = true ↔ C v) →
      (P → ∃ r, Range.new num lo hi = .ok r ∧ ∀ v, Range.contains num r v = true ↔ C v) ∧ (¬ P → Range.new num lo hi = .error .valueError) := by
    intro lo hi P h1 h2 h3 C h4
    refine ⟨fun hP => ⟨_, (new_values lo hi h1 h2).1 (h3.2 hP), h4⟩, fun hP => (new_values lo hi h1 h2).2 ?_⟩
    cases h : Cut.le num lo hi with
    | false => rfl
    | true => exact absurd (h3.1 h) hP
  have hle : ∀ s o, (decide (Cut.compareValues num s o a b ≤ 0) = true) ↔ Less num a b ∨ (¬ Less num b a ∧ (s = true → o = true)) :=
    fun s o => le_values s o a b
  have hnot : ∀ {s o : Bool}, (s = true → o = true) → ((decide (Cut.compareValues num s o a b ≤ 0) = true) ↔ ¬ Less num b a) := by
    intro s o h
    rw [hle]
    exact ⟨fun h' => h'.elim less_asymm And.left, fun h' => .inr ⟨h', h⟩⟩
  have nn : ∀ {P : Prop}, P → ¬ ¬ P := fun h h' => h' h
  refine ⟨?_, ?_, ?_, ?_⟩
  · exact key (.aboveValue a) (.belowValue b) _ (by simp) (by simp) ((hle true false).trans (by simp)) _
      fun v => by rw [contains_iff]; exact and_congr (less_iff _ _) (not_congr (lessEq_iff _ _))
  · have := key (.belowValue a) (.aboveValue b) _ (by simp) (by simp) (hnot (s := false) (o := true) (by simp)) (fun v => AtMost num a v ∧ ¬ Less num b v)
      fun v => by rw [contains_iff]; exact and_congr (lessEq_iff _ _) (not_congr (less_iff _ _))
    exact ⟨this.1, fun h => this.2 (nn h)⟩
  · have := key (.belowValue a) (.belowValue b) _ (by simp) (by simp) (hnot (s := false) (o := false) (by simp)) (fun v => AtMost num a v ∧ ¬ AtMost num b v)
      fun v => by rw [contains_iff]; exact and_congr (lessEq_iff _ _) (not_congr (lessEq_iff _ _))
    exact ⟨this.1, fun h => this.2 (nn h)⟩
  · have := key (.aboveValue a) (.aboveValue b) _ (by simp) (by simp) (hnot (s := true) (o := true) (by simp)) (fun v => Less num a v ∧ ¬ Less num b v)
      fun v => by rw [contains_iff]; exact and_congr (less_iff _ _) (not_congr (less_iff _ _))
    exact ⟨this.1, fun h => this.2 (nn h)⟩

/-- The factories with one endpoint, for any number, NaN or not. -/
theorem C107_unbounded (num : V → Option T) (a : V) :
    (∃ r, Range.lessThan num a = .ok r ∧ ∀ v, Range.contains num r v = true ↔ ¬ AtMost num a v) ∧
    (∃ r, Range.atMost num a = .ok r ∧ ∀ v, Range.contains num r v = true ↔ ¬ Less num a v) ∧
    (∃ r, Range.greaterThan num a = .ok r ∧ ∀ v, Range.contains num r v = true ↔ Less num a v) ∧
    (∃ r, Range.atLeast num a = .ok r ∧ ∀ v, Range.contains num r v = true ↔ AtMost num a v) ∧
    (∃ r, Range.all num = .ok r ∧ ∀ v : V, Range.contains num r v = true) := by
  refine ⟨⟨_, (new_values _ _ (by simp) (by simp)).1 rfl, fun v => ?_⟩, ⟨_, (new_values _ _ (by simp) (by simp)).1 rfl, fun v => ?_⟩,
    ⟨_, (new_values _ _ (by simp) (by simp)).1 rfl, fun v => ?_⟩, ⟨_, (new_values _ _ (by simp) (by simp)).1 rfl, fun v => ?_⟩,
    ⟨_, (new_values _ _ (by simp) (by simp)).1 rfl, fun v => ?_⟩⟩
  · rw [contains_iff]; exact ⟨fun h => fun h' => h.2 ((lessEq_iff _ _).2 h'), fun h => ⟨rfl, fun h' => h ((lessEq_iff _ _).1 h')⟩⟩
  · rw [contains_iff]; exact ⟨fun h => fun h' => h.2 ((less_iff _ _).2 h'), fun h => ⟨rfl, fun h' => h ((less_iff _ _).1 h')⟩⟩
  · rw [contains_iff]; exact ⟨fun h => (less_iff _ _).1 h.1, fun h => ⟨(less_iff _ _).2 h, by simp [Cut.isLessThan]⟩⟩
  · rw [contains_iff]; exact ⟨fun h => (lessEq_iff _ _).1 h.1, fun h => ⟨(lessEq_iff _ _).2 h, by simp [Cut.isLessThan]⟩⟩
  · rfl

/-- So NaN is in a range iff the range has no lower bound. -/
theorem C107_nan_in (lo hi : Cut V) (r : Range V) (hr : Range.new num lo hi = .ok r) (v : V) (hv : num v = none) :
    Range.contains num r v = true ↔ Range.hasLowerBound r = false := by
  have : r = ⟨lo, hi⟩ ∧ hi ≠ .belowAll := by
    simp only [Range.new, checkArg, bind, Except.bind] at hr
    cases h1 : Cut.le num lo hi <;> cases h2 : Cut.isAboveAll lo <;> cases h3 : Cut.isBelowAll hi <;> simp [h1, h2, h3] at hr
    exact ⟨hr.symm, fun h => by simp [h, Cut.isBelowAll] at h3⟩
  obtain ⟨rfl, hhi⟩ := this
  cases lo <;> cases hi <;> simp_all [Range.contains, Range.hasLowerBound, Cut.isBelowAll, Cut.isLessThan, less, equal]

/-- A range with a NaN endpoint is not equal to itself, and not empty. -/
theorem C107_nan_endpoint (lo hi : Cut V) (r : Range V) (hr : Range.new num lo hi = .ok r) (x : V) (hx : num x = none)
    (h : lo = .belowValue x ∨ lo = .aboveValue x ∨ hi = .belowValue x ∨ hi = .aboveValue x) :
    Range.pyEq num r r = false ∧ Range.isEmpty num r = false := by
  have : r = ⟨lo, hi⟩ := by
    simp only [Range.new, checkArg, bind, Except.bind] at hr
    cases h1 : Cut.le num lo hi <;> cases h2 : Cut.isAboveAll lo <;> cases h3 : Cut.isBelowAll hi <;> simp [h1, h2, h3] at hr
    exact hr.symm
  subst this
  have hself : ∀ y, equal num x y = false := fun y => by simp [equal, hx]
  have hself' : ∀ y, equal num y x = false := fun y => by unfold equal; rw [hx]; cases num y <;> rfl
  rcases h with rfl | rfl | rfl | rfl
  · refine ⟨by simp [Range.pyEq, Cut.pyEq, hself], ?_⟩
    cases hi <;> simp [Range.isEmpty, Cut.pyEq, hself]
  · refine ⟨by simp [Range.pyEq, Cut.pyEq, hself], ?_⟩
    cases hi <;> simp [Range.isEmpty, Cut.pyEq, hself]
  · refine ⟨by simp [Range.pyEq, Cut.pyEq, hself], ?_⟩
    cases lo <;> simp [Range.isEmpty, Cut.pyEq, hself', Cut.compareTo]
  · refine ⟨by simp [Range.pyEq, Cut.pyEq, hself], ?_⟩
    cases lo <;> simp [Range.isEmpty, Cut.pyEq, hself', Cut.compareTo]

/-! ## Ranges without NaN do what the ranges they stand for do -/

/-- Making a range, and all operations on one range or two. -/
theorem C107_ranges {lo hi : Cut V} {Lo Hi : Cut T} (hlo : CutMeans num lo Lo) (hhi : CutMeans num hi Hi) {r s : Range V} {R S : Range T}
    (hr : Means num r R) (hs : Means num s S) :
    Same (Means num) (Range.new num lo hi) (Vista.Range.new Lo Hi) ∧
    (∀ v t, num v = some t → Range.contains num r v = R.contains t) ∧
    Range.isEmpty num r = R.isEmpty ∧ Range.hasLowerBound r = R.hasLowerBound ∧ Range.hasUpperBound r = R.hasUpperBound ∧
    Range.pyEq num r s = R.pyEq S ∧ Range.encloses num r s = R.encloses S ∧ Range.isConnected num r s = R.isConnected S ∧
    Range.intersects num r s = R.intersects S ∧
    Same (Means num) (Range.span num r s) (R.span S) ∧ Same (Means num) (Range.intersection num r s) (R.intersection S) := by
  refine ⟨new_same hlo hhi, fun v t hv => contains_eq hr hv, isEmpty_eq hr, ?_, ?_, range_pyEq_eq hr hs, encloses_eq hr hs, isConnected_eq hr hs,
    intersects_eq hr hs, span_same hr hs, intersection_same hr hs⟩
  · simp [Range.hasLowerBound, Vista.Range.hasLowerBound, isBelowAll_eq hr.lower]
  · simp [Range.hasUpperBound, Vista.Range.hasUpperBound, isAboveAll_eq hr.upper]

/-- Equal ranges have equal hashes, if equal numbers have, and contain the same values. -/
theorem C107_equality (r s : Range V) (h : Range.pyEq num r s = true) :
    (∀ hash : V → Int, (∀ x y, equal num x y = true → hash x = hash y) → r.hash hash = s.hash hash) ∧
    (∀ v, Range.contains num r v = Range.contains num s v) := by
  have hcut : ∀ a b : Cut V, Cut.pyEq num a b = true →
      (∀ hash : V → Int, (∀ x y, equal num x y = true → hash x = hash y) → a.hash hash = b.hash hash) ∧
      ∀ v, Cut.isLessThan num a v = Cut.isLessThan num b v := by
    have hv : ∀ x y, equal num x y = true → num x = num y := fun x y h => by
      unfold equal at h
      cases hx : num x <;> cases hy : num y <;> simp_all
    intro a b hab
    cases a <;> cases b <;> simp only [Cut.pyEq, Cut.compareTo, decide_eq_true_eq, Bool.false_eq_true] at hab <;>
      first
        | exact ⟨fun _ _ => rfl, fun _ => rfl⟩
        | (exfalso; revert hab; simp; done)
        | exact ⟨fun hash hh => by simp [Vista.Cut.hash, hh _ _ hab], fun v => by simp [Cut.isLessThan, less, equal, hv _ _ hab]⟩
  simp only [Range.pyEq, Bool.and_eq_true] at h
  obtain ⟨h1, h2⟩ := hcut _ _ h.1
  obtain ⟨h3, h4⟩ := hcut _ _ h.2
  exact ⟨fun hash hh => by simp [Vista.Range.hash, h1 hash hh, h3 hash hh], fun v => by simp [Range.contains, h2, h4]⟩

/-! ## Range sets -/

theorem forall₂_nil : DictMeans num (RangeSet.create : Dict V) (Vista.RangeSet.create : RDict T) := .nil

/-- Any history of a range set gives what the history it stands for gives, and so do all queries. -/
theorem C107_sets {ops : List (RsOp V)} {Ops : List (RsOp T)} (hops : List.Forall₂ (OpMeans num) ops Ops) (hv : ValidOps Ops) :
    ∃ d D, run num RangeSet.create ops = .ok d ∧ runRs Vista.RangeSet.create Ops = .ok D ∧
      List.Forall₂ (Means num) (RangeSet.asRanges d) (Vista.RangeSet.asRanges D) ∧
      (∀ v t, num v = some t →
        RangeSet.contains num d v = Vista.RangeSet.contains D t ∧
        Same (SameOption (Means num)) (RangeSet.rangeContaining num d v) (Vista.RangeSet.rangeContaining D t) ∧
        Same (SameOption (Means num)) (RangeSet.rightmostContainingOrBelow num d v) (Vista.RangeSet.rightmostContainingOrBelow D t) ∧
        Same (SameOption (Means num)) (RangeSet.leftmostContainingOrAbove num d v) (Vista.RangeSet.leftmostContainingOrAbove D t)) ∧
      (∀ q Q, Means num q Q →
        RangeSet.encloses num d q = Vista.RangeSet.encloses D Q ∧ RangeSet.intersects num d q = Vista.RangeSet.intersects D Q ∧
        Same (SameOption (Means num)) (RangeSet.rangeEnclosingRange num d q) (Vista.RangeSet.rangeEnclosingRange D Q) ∧
        Same (List.Forall₂ (Means num)) (RangeSet.rangesEnclosedBy num d q) (Vista.RangeSet.rangesEnclosedBy D Q) ∧
        Same (List.Forall₂ (Means num)) (RangeSet.rangesOverlapping num d q) (Vista.RangeSet.rangesOverlapping D Q)) ∧
      Same (Means num) (RangeSet.span num d) (Vista.RangeSet.span D) := by
  obtain ⟨D, hD, -⟩ := C08_normal_form Ops hv
  have h := run_same (num := num) forall₂_nil hops
  rw [hD] at h
  cases hd : run num RangeSet.create ops with
  | error e => rw [hd] at h; exact h.elim
  | ok d =>
    rw [hd] at h
    exact ⟨d, D, rfl, hD, asRanges_rel h, fun v t hv => ⟨set_contains_eq h hv, rangeContaining_same h hv, rightmost_same h hv, leftmost_same h hv⟩,
      fun q Q hq => ⟨set_encloses_eq h hq, set_intersects_eq h hq, rangeEnclosingRange_same h hq, rangesEnclosedBy_same h hq,
        rangesOverlapping_same h hq⟩, set_span_same h⟩

/-! ### NaN -/

theorem pyEq_nan (v : V) (hv : num v = none) (k : Cut V) : Cut.pyEq num (.belowValue v) k = false := by
  cases k <;> simp [Cut.pyEq, equal, hv]

theorem lt_nan (v : V) (hv : num v = none) (k : Cut V) : Cut.lt num k (.belowValue v) = Cut.isBelowAll k := by
  have h1 : ∀ x, less num x v = false := fun x => by unfold less; rw [hv]; cases num x <;> rfl
  have h2 : ∀ x, less num v x = false := fun x => by simp [less, hv]
  cases k <;> simp [Cut.lt, Cut.compareTo, Cut.compareValues, Cut.isBelowAll, h1, h2]

theorem forall₂_left {α β : Type} {rel : α → β → Prop} {l : List α} {L : List β} (hl : List.Forall₂ rel l L) : ∀ x ∈ l, ∃ y ∈ L, rel x y := by
  induction hl with
  | nil => intro x hx; cases hx
  | cons h _ ih =>
    intro x hx
    rcases List.mem_cons.1 hx with rfl | hx
    · exact ⟨_, by simp, h⟩
    · obtain ⟨y, hy, hxy⟩ := ih x hx
      exact ⟨y, by simp [hy], hxy⟩

theorem forall₂_right {α β : Type} {rel : α → β → Prop} {l : List α} {L : List β} (hl : List.Forall₂ rel l L) : ∀ y ∈ L, ∃ x ∈ l, rel x y := by
  induction hl with
  | nil => intro x hx; cases hx
  | cons h _ ih =>
    intro x hx
    rcases List.mem_cons.1 hx with rfl | hx
    · exact ⟨_, by simp, h⟩
    · obtain ⟨y, hy, hxy⟩ := ih x hx
      exact ⟨y, by simp [hy], hxy⟩

theorem not_lt_belowAll (A : Cut T) : ¬ A < .belowAll := by
  intro h
  have h : A.compareTo .belowAll < 0 := h
  cases A <;> simp [Vista.Cut.compareTo] at h

theorem means_belowAll {a : Cut V} {A : Cut T} (h : CutMeans num a A) : a = .belowAll ↔ A = .belowAll := by
  cases a <;> cases A <;> first | exact h.elim | simp

theorem nan_valueAtOrBelow {d : Dict V} {rs : List (Range T)} (hn : Normal rs) (hd : DictMeans num d (toD rs)) (v : V) (hv : num v = none) :
    (∀ m ∈ RangeSet.asRanges d, m.lower = .belowAll → valueAtOrBelow num d (.belowValue v) = .ok (some m)) ∧
    ((∀ m ∈ RangeSet.asRanges d, m.lower ≠ .belowAll) → valueAtOrBelow num d (.belowValue v) = .ok none) := by
  cases rs with
  | nil =>
    cases hd
    exact ⟨fun m hm => by simp [RangeSet.asRanges] at hm, fun _ => rfl⟩
  | cons R rs =>
    obtain ⟨e, d', h1, h2, rfl⟩ := List.forall₂_cons_right_iff.1 hd
    have hrest : ∀ x ∈ d', Cut.isBelowAll x.1 = false ∧ x.2.lower ≠ .belowAll := by
      intro x hx
      obtain ⟨y, hy, h3, h4⟩ := forall₂_left h2 x hx
      obtain ⟨M, hM, rfl⟩ := List.mem_map.1 hy
      have hne : M.lower ≠ .belowAll := by
        intro h
        have hlt : R.upper < M.lower := (List.pairwise_cons.1 hn.sep).1 M hM
        rw [h] at hlt
        exact not_lt_belowAll _ hlt
      exact ⟨by rw [isBelowAll_eq h3]; simp [hne], fun h => hne ((means_belowAll h4.lower).1 h)⟩
    have he : e.1 = .belowAll ↔ e.2.lower = .belowAll := (means_belowAll h1.1).trans (means_belowAll h1.2.lower).symm
    have hcount : bisectLeft num (e :: d') (.belowValue v) = if Cut.isBelowAll e.1 then 1 else 0 := by
      simp only [bisectLeft, lt_nan v hv, List.countP_cons]
      rw [List.countP_eq_zero.2 fun x hx => by simp [(hrest x hx).1]]
      simp
    obtain ⟨k, r⟩ := e
    refine ⟨fun m hm hlow => ?_, fun h => ?_⟩
    · rcases List.mem_cons.1 hm with rfl | hm
      · have hk : k = .belowAll := he.2 hlow
        subst hk
        simp only [Cut.isBelowAll, if_true] at hcount
        simp only [valueAtOrBelow, hcount, List.isEmpty_cons, Bool.false_eq_true, if_false]
        cases d' with
        | nil => simp [keyAt, get, Cut.pyEq, Cut.compareTo, bind, Except.bind]
        | cons x d' => simp [keyAt, get, bind, Except.bind, pyEq_nan v hv, show Cut.pyEq num .belowAll .belowAll = true from rfl]
      · obtain ⟨x, hx, rfl⟩ := List.mem_map.1 hm
        exact absurd hlow (hrest x hx).2
    · have hk : k ≠ .belowAll := fun hk => h r (by simp [RangeSet.asRanges]) (he.1 hk)
      have hk' : Cut.isBelowAll k = false := by cases k <;> first | rfl | exact absurd rfl hk
      simp only [hk', Bool.false_eq_true, if_false] at hcount
      simp [valueAtOrBelow, hcount, keyAt, bind, Except.bind, pyEq_nan v hv]

theorem live_rel {ops : List (RsOp V)} {Ops : List (RsOp T)} (hops : List.Forall₂ (OpMeans num) ops Ops) :
    List.Forall₂ (Means num) (live ops) (liveRanges Ops) := by
  suffices h : ∀ (l : List (Range V)) (L : List (Range T)), List.Forall₂ (Means num) l L →
      List.Forall₂ (Means num) (ops.foldl (fun acc op => match op with
        | .add r => acc ++ [r]
        | .addAll rs => acc ++ rs
        | .clear => []) l) (Ops.foldl liveStep L) from h [] [] .nil
  induction hops with
  | nil => intro l L h; exact h
  | @cons op Op _ _ h1 _ ih =>
    intro l L h
    refine ih _ _ ?_
    cases op <;> cases Op <;> first | exact h1.elim | skip
    · exact List.rel_append h (.cons h1 .nil)
    · exact List.rel_append h h1
    · exact .nil

theorem exists_meaning {r : Range V} (hr : Range.new num r.lower r.upper = .ok r)
    (h : ∀ x, (r.lower = .belowValue x ∨ r.lower = .aboveValue x ∨ r.upper = .belowValue x ∨ r.upper = .aboveValue x) → num x ≠ none) :
    ∃ R : Range T, Means num r R ∧ R.Valid := by
  have hc : ∀ c : Cut V, (∀ x, c = .belowValue x ∨ c = .aboveValue x → num x ≠ none) → ∃ C : Cut T, CutMeans num c C := by
    intro c hc
    cases c with
    | belowAll => exact ⟨.belowAll, trivial⟩
    | aboveAll => exact ⟨.aboveAll, trivial⟩
    | belowValue x =>
      obtain ⟨t, ht⟩ := Option.ne_none_iff_exists'.1 (hc x (.inl rfl))
      exact ⟨.belowValue t, ht⟩
    | aboveValue x =>
      obtain ⟨t, ht⟩ := Option.ne_none_iff_exists'.1 (hc x (.inr rfl))
      exact ⟨.aboveValue t, ht⟩
  obtain ⟨A, hA⟩ := hc r.lower fun x hx => h x (by rcases hx with hx | hx <;> simp [hx])
  obtain ⟨B, hB⟩ := hc r.upper fun x hx => h x (by rcases hx with hx | hx <;> simp [hx])
  have hn := new_same hA hB
  rw [hr] at hn
  cases hAB : Vista.Range.new A B with
  | error e => rw [hAB] at hn; exact hn.elim
  | ok R => rw [hAB] at hn; exact ⟨R, hn, A, B, hAB⟩

theorem exists_meanings {rs : List (Range V)} (h : ∀ r ∈ rs, ∃ R : Range T, Means num r R ∧ R.Valid) :
    ∃ Rs : List (Range T), List.Forall₂ (Means num) rs Rs ∧ ∀ R ∈ Rs, R.Valid := by
  induction rs with
  | nil => exact ⟨[], .nil, by simp⟩
  | cons r rs ih =>
    obtain ⟨R, h1, h2⟩ := h r (by simp)
    obtain ⟨Rs, h3, h4⟩ := ih fun x hx => h x (by simp [hx])
    exact ⟨R :: Rs, .cons h1 h3, by simpa using ⟨h2, h4⟩⟩

theorem exists_ops {ops : List (RsOp V)} (h : WithoutNaN num ops) :
    ∃ Ops : List (RsOp T), List.Forall₂ (OpMeans num) ops Ops ∧ ValidOps Ops := by
  induction ops with
  | nil => exact ⟨[], .nil, fun op hop => by cases hop⟩
  | cons op ops ih =>
    obtain ⟨Ops, h1, h2⟩ := ih fun o ho => h o (by simp [ho])
    have hop : ∀ r, (op = .add r ∨ ∃ rs, op = .addAll rs ∧ r ∈ rs) → ∃ R : Range T, Means num r R ∧ R.Valid := fun r hr =>
      exists_meaning (h op (by simp) r hr).1 (h op (by simp) r hr).2
    have : ∃ Op : RsOp T, OpMeans num op Op ∧ ∀ R ∈ Op.ranges, R.Valid := by
      cases op with
      | add r =>
        obtain ⟨R, hR, hV⟩ := hop r (.inl rfl)
        exact ⟨.add R, hR, by simpa [RsOp.ranges] using hV⟩
      | addAll rs =>
        obtain ⟨Rs, hR, hV⟩ := exists_meanings fun r hr => hop r (.inr ⟨rs, rfl, hr⟩)
        exact ⟨.addAll Rs, hR, hV⟩
      | clear => exact ⟨.clear, trivial, by simp [RsOp.ranges]⟩
    obtain ⟨Op, h3, h4⟩ := this
    refine ⟨Op :: Ops, .cons h3 h1, fun o ho => ?_⟩
    rcases List.mem_cons.1 ho with rfl | ho
    · exact h4
    · exact h2 o ho

theorem live_valid {Ops : List (RsOp T)} (hv : ValidOps Ops) : ∀ R ∈ liveRanges Ops, R.Valid := by
  have : ∀ (ops : List (RsOp T)) (acc : List (Range T)), ValidOps ops → (∀ R ∈ acc, R.Valid) → ∀ R ∈ ops.foldl liveStep acc, R.Valid := by
    intro ops
    induction ops with
    | nil => intro acc _ h; exact h
    | cons op ops ih =>
      intro acc ho h
      refine ih _ (fun o h' => ho o (by simp [h'])) ?_
      have := ho op (by simp)
      cases op <;> simp [liveStep, RsOp.ranges] at this ⊢
      · rintro R (hR | rfl)
        exacts [h R hR, this]
      · rintro R (hR | hR)
        exacts [h R hR, this R hR]
  exact this Ops [] hv (by simp)

theorem belowAll_member {Ops : List (RsOp T)} (hv : ValidOps Ops) {D : RDict T} (hD : runRs Vista.RangeSet.create Ops = .ok D) :
    (∃ M ∈ Vista.RangeSet.asRanges D, M.lower = .belowAll) ↔ ∃ R ∈ liveRanges Ops, R.lower = .belowAll := by
  obtain ⟨D', hD', hleast⟩ := C10_least Ops hv
  rw [hD] at hD'
  obtain rfl := Except.ok.inj hD'
  have hvalid := live_valid hv
  constructor
  · rintro ⟨M, hM, hlow⟩
    by_contra hno
    have : ∃ m : Cut T, m ≠ .belowAll ∧ ∀ R ∈ liveRanges Ops, m ≤ R.lower := by
      generalize liveRanges Ops = l at hno
      induction l with
      | nil => exact ⟨.aboveAll, by simp, by simp⟩
      | cons R l ih =>
        obtain ⟨m, h1, h2⟩ := ih fun ⟨R', h, h'⟩ => hno ⟨R', by simp [h], h'⟩
        refine ⟨min m R.lower, ?_, ?_⟩
        · rcases min_choice m R.lower with h | h <;> rw [h]
          · exact h1
          · exact fun h' => hno ⟨R, by simp, h'⟩
        · intro R' hR'
          rcases List.mem_cons.1 hR' with rfl | hR'
          · exact min_le_right _ _
          · exact (min_le_left _ _).trans (h2 R' hR')
    obtain ⟨m, hm, hle⟩ := this
    obtain ⟨f, rfl, hf⟩ := hleast.least (· = ⟨m, .aboveAll⟩) (fun a b ha hb _ => ha.trans hb.symm)
      (fun R hR _ => ⟨_, rfl, by
        have h1 : m.compareTo R.lower ≤ 0 := hle R hR
        have h2 : (0 : Int) ≤ Vista.Cut.compareTo (.aboveAll : Cut T) R.upper := by cases R.upper <;> simp [Vista.Cut.compareTo]
        simp [Vista.Range.encloses, h1, h2]⟩) M hM
    have h1 : m.compareTo M.lower ≤ 0 := by simp [Vista.Range.encloses] at hf; exact hf.1
    rw [hlow] at h1
    cases m <;> simp [Vista.Cut.compareTo] at h1 hm
  · rintro ⟨R, hR, hlow⟩
    have hne : R.isEmpty = false := by
      have h2 := ((Vista.Range.valid_iff R).1 (hvalid R hR)).2.2
      unfold Vista.Range.isEmpty
      rw [hlow]
      cases hu : R.upper <;> first | exact absurd hu h2 | rfl
    obtain ⟨M, hM, henc⟩ := hleast.covers R hR hne
    refine ⟨M, hM, ?_⟩
    have h1 : M.lower.compareTo R.lower ≤ 0 := by simp [Vista.Range.encloses] at henc; exact henc.1
    rw [hlow] at h1
    cases hM' : M.lower <;> rw [hM'] at h1 <;> simp [Vista.Cut.compareTo] at h1 ⊢

/-- Membership after any history of ranges without NaN, for every number, NaN or not: a number is in the set iff it is in a range added since
the last `clear`. -/
theorem C107_membership (ops : List (RsOp V)) (hops : WithoutNaN num ops) :
    ∃ d, run num RangeSet.create ops = .ok d ∧
      ∀ v, ∃ b, RangeSet.contains num d v = .ok b ∧ (b = true ↔ ∃ r ∈ live ops, Range.contains num r v = true) := by
  obtain ⟨Ops, h1, h2⟩ := exists_ops hops
  obtain ⟨d, D, hd, hD, has, hq, -⟩ := C107_sets h1 h2
  have hlive := live_rel h1
  refine ⟨d, hd, fun v => ?_⟩
  cases hv : num v with
  | some t =>
    obtain ⟨D', b, hD', hb, hiff⟩ := C09_membership Ops h2 t
    rw [hD] at hD'
    obtain rfl := Except.ok.inj hD'
    refine ⟨b, (hq v t hv).1.trans hb, hiff.trans ⟨fun ⟨R, hR, hc⟩ => ?_, fun ⟨r, hr, hc⟩ => ?_⟩⟩
    · obtain ⟨r, hr, hm⟩ := forall₂_right hlive R hR
      exact ⟨r, hr, (contains_eq hm hv).trans hc⟩
    · obtain ⟨R, hR, hm⟩ := forall₂_left hlive r hr
      exact ⟨R, hR, (contains_eq hm hv).symm.trans hc⟩
  | none =>
    have hrun := run_same (num := num) forall₂_nil h1
    rw [hd, hD] at hrun
    obtain ⟨rs, rfl, hn⟩ := Reachable.normal ⟨Ops, h2, hD⟩
    have hnan := nan_valueAtOrBelow hn hrun v hv
    have hin : ∀ {r : Range V} {R : Range T}, Means num r R → R.Valid → (Range.contains num r v = true ↔ R.lower = .belowAll) := by
      intro r R hm hV
      have hu := ((Vista.Range.valid_iff R).1 hV).2.2
      have hu' : r.upper ≠ .belowAll := fun h => by
        have := hm.upper
        rw [h] at this
        cases hR : R.upper <;> rw [hR] at this <;> first | exact hu hR | exact this
      rw [← means_belowAll hm.lower]
      obtain ⟨lo, hi⟩ := r
      cases lo <;> cases hi <;> simp_all [Range.contains, Cut.isLessThan, less, equal]
    have hvalid : ∀ R ∈ liveRanges Ops, R.Valid := live_valid h2
    have key : (∃ r ∈ live ops, Range.contains num r v = true) ↔ ∃ m ∈ RangeSet.asRanges d, m.lower = .belowAll := by
      have e1 : (∃ r ∈ live ops, Range.contains num r v = true) ↔ ∃ R ∈ liveRanges Ops, R.lower = .belowAll := by
        constructor
        · rintro ⟨r, hr, hc⟩
          obtain ⟨R, hR, hm⟩ := forall₂_left hlive r hr
          exact ⟨R, hR, (hin hm (hvalid R hR)).1 hc⟩
        · rintro ⟨R, hR, hc⟩
          obtain ⟨r, hr, hm⟩ := forall₂_right hlive R hR
          exact ⟨r, hr, (hin hm (hvalid R hR)).2 hc⟩
      rw [e1, ← belowAll_member h2 hD]
      constructor
      · rintro ⟨M, hM, hc⟩
        obtain ⟨m, hm, hmM⟩ := forall₂_right has M hM
        exact ⟨m, hm, (means_belowAll hmM.lower).2 hc⟩
      · rintro ⟨m, hm, hc⟩
        obtain ⟨M, hM, hmM⟩ := forall₂_left has m hm
        exact ⟨M, hM, (means_belowAll hmM.lower).1 hc⟩
    rw [key]
    by_cases hex : ∃ m ∈ RangeSet.asRanges d, m.lower = .belowAll
    · obtain ⟨m, hm, hlow⟩ := hex
      have h := hnan.1 m hm hlow
      obtain ⟨M, hM, hmM⟩ := forall₂_left has m hm
      have hMV : M.Valid := by
        rw [Vista.asRanges_toD] at hM
        exact hn.valid hM
      refine ⟨true, ?_, by simp; exact ⟨m, hm, hlow⟩⟩
      simp only [RangeSet.contains, h, bind, Except.bind, (hin hmM hMV).2 ((means_belowAll hmM.lower).1 hlow)]
    · have h := hnan.2 fun m hm hlow => hex ⟨m, hm, hlow⟩
      exact ⟨false, by simp only [RangeSet.contains, h, bind, Except.bind], by simp; exact fun m hm hlow => hex ⟨m, hm, hlow⟩⟩

/-- `range_containing` and `rightmost_containing_or_below` of NaN: the member without lower bound, if there is one. -/
theorem C107_nan_queries (ops : List (RsOp V)) (hops : WithoutNaN num ops) (d : Dict V) (hd : run num RangeSet.create ops = .ok d) (v : V)
    (hv : num v = none) :
    (∀ m, RangeSet.rangeContaining num d v = .ok (some m) ↔ m ∈ RangeSet.asRanges d ∧ Range.hasLowerBound m = false) ∧
    (∀ m, RangeSet.rightmostContainingOrBelow num d v = .ok (some m) ↔ m ∈ RangeSet.asRanges d ∧ Range.hasLowerBound m = false) ∧
    ((∀ m ∈ RangeSet.asRanges d, Range.hasLowerBound m = true) →
      RangeSet.rangeContaining num d v = .ok none ∧ RangeSet.rightmostContainingOrBelow num d v = .ok none) := by
  obtain ⟨Ops, h1, h2⟩ := exists_ops hops
  obtain ⟨d', D, hd', hD, has, hq, -⟩ := C107_sets h1 h2
  rw [hd] at hd'
  obtain rfl := Except.ok.inj hd'
  have hrun := run_same (num := num) forall₂_nil h1
  rw [hd, hD] at hrun
  obtain ⟨rs, rfl, hn⟩ := Reachable.normal ⟨Ops, h2, hD⟩
  have hnan := nan_valueAtOrBelow hn hrun v hv
  have hlb : ∀ m : Range V, Range.hasLowerBound m = false ↔ m.lower = .belowAll := fun m => by
    unfold Range.hasLowerBound; cases m.lower <;> simp [Cut.isBelowAll]
  have hrc : ∀ m ∈ RangeSet.asRanges d, m.lower = .belowAll → RangeSet.rangeContaining num d v = .ok (some m) := by
    intro m hm hlow
    obtain ⟨M, hM, hmM⟩ := forall₂_left has m hm
    have hMV : M.Valid := by
      rw [Vista.asRanges_toD] at hM
      exact hn.valid hM
    have hu := ((Vista.Range.valid_iff M).1 hMV).2.2
    have hc : Range.contains num m v = true := by
      obtain ⟨lo, hi⟩ := m
      have := hmM.upper
      cases hi <;> simp_all [Range.contains, Cut.isLessThan, less, equal]
      cases hM' : M.upper <;> rw [hM'] at this <;> first | exact hu hM' | exact this
    simp only [RangeSet.rangeContaining, hnan.1 m hm hlow, bind, Except.bind, hc, if_true]
  have hnone : (∀ m ∈ RangeSet.asRanges d, Range.hasLowerBound m = true) →
      RangeSet.rangeContaining num d v = .ok none ∧ RangeSet.rightmostContainingOrBelow num d v = .ok none := by
    intro h
    have := hnan.2 fun m hm hlow => by
      have h3 := h m hm
      rw [(hlb m).2 hlow] at h3
      cases h3
    exact ⟨by simp only [RangeSet.rangeContaining, this, bind, Except.bind], this⟩
  have hex : ∀ {x : Res (Option (Range V))} {m}, x = .ok (some m) → ((∀ m ∈ RangeSet.asRanges d, Range.hasLowerBound m = true) → x = .ok none) →
      (∀ m ∈ RangeSet.asRanges d, m.lower = .belowAll → x = .ok (some m)) → m ∈ RangeSet.asRanges d ∧ Range.hasLowerBound m = false := by
    intro x m hx hn' hs
    by_cases h : ∃ m' ∈ RangeSet.asRanges d, m'.lower = .belowAll
    · obtain ⟨m', hm', hlow⟩ := h
      have := hs m' hm' hlow
      rw [hx] at this
      simp only [Except.ok.injEq, Option.some.injEq] at this
      subst this
      exact ⟨hm', (hlb _).2 hlow⟩
    · have := hn' fun m hm => by
        cases hb : Range.hasLowerBound m with
        | true => rfl
        | false => exact absurd ⟨m, hm, (hlb m).1 hb⟩ h
      rw [hx] at this
      cases this
  exact ⟨fun m => ⟨fun h => hex h (fun h' => (hnone h').1) hrc, fun h => hrc m h.1 ((hlb m).1 h.2)⟩,
    fun m => ⟨fun h => hex h (fun h' => (hnone h').2) hnan.1, fun h => hnan.1 m h.1 ((hlb m).1 h.2)⟩, hnone⟩

/-! ## Range maps -/
section Maps
variable {W : Type}

theorem lookup_eq {m : List (Range V × W)} {M : List (Range T × W)} (hm : List.Forall₂ (KeyMeans num) m M) (d : Dict V) (D : RDict T)
    {r : Range V} {R : Range T} (hr : Means num r R) : RangeMap.lookup num ⟨m, d⟩ r = Vista.RangeMap.lookup ⟨M, D⟩ R := by
  unfold RangeMap.lookup Vista.RangeMap.lookup
  induction hm with
  | nil => rfl
  | @cons e E _ _ h1 _ ih =>
    obtain ⟨k, w⟩ := E
    have hk : Range.pyEq num r e.1 = (R == k) := by
      rw [range_pyEq_eq hr h1.key, Bool.eq_iff_iff]
      simp [Vista.Range.pyEq_iff]
    simp only [List.find?_cons, hk, List.lookup]
    cases R == k with
    | true => simp [h1.value]
    | false => exact ih

theorem lookupOpt_eq {m : List (Range V × W)} {M : List (Range T × W)} (hm : List.Forall₂ (KeyMeans num) m M) (d : Dict V) (D : RDict T)
    {o : Res (Option (Range V))} {O : Res (Option (Range T))} (h : Same (SameOption (Means num)) o O) :
    (do RangeMap.lookupOpt num ⟨m, d⟩ (← o)) = (do Vista.RangeMap.lookupOpt ⟨M, D⟩ (← O)) := by
  cases o with
  | error e => cases O with
    | error e' => obtain rfl : e = e' := h; rfl
    | ok _ => exact h.elim
  | ok o => cases O with
    | error e' => exact h.elim
    | ok O =>
      cases o with
      | none => cases O with
        | none => rfl
        | some _ => exact False.elim h
      | some r => cases O with
        | none => exact False.elim h
        | some R =>
          have h : Means num r R := h
          simp only [bind, Except.bind, RangeMap.lookupOpt, Vista.RangeMap.lookupOpt, lookup_eq hm d D h]

theorem lookupAll_eq {m : List (Range V × W)} {M : List (Range T × W)} (hm : List.Forall₂ (KeyMeans num) m M) (d : Dict V) (D : RDict T)
    {l : List (Range V)} {L : List (Range T)} (hl : List.Forall₂ (Means num) l L) :
    RangeMap.lookupAll num ⟨m, d⟩ l = Vista.RangeMap.lookupAll ⟨M, D⟩ L := by
  induction hl with
  | nil => rfl
  | cons h _ ih => simp only [RangeMap.lookupAll, Vista.RangeMap.lookupAll, lookup_eq hm d D h, ih]

/-- Range maps with keys that stand for the keys of another: the constructor accepts the one iff it accepts the other, and the look-ups give the same. -/
theorem C107_maps {m : List (Range V × W)} {M : List (Range T × W)} (hm : List.Forall₂ (KeyMeans num) m M) :
    Same (fun rm RM => (∀ v t, num v = some t →
        RangeMap.getItem num rm v = Vista.RangeMap.getItem RM t ∧ RangeMap.contains num rm v = Vista.RangeMap.contains RM t ∧
        RangeMap.getRightmost num rm v = Vista.RangeMap.getRightmost RM t ∧ RangeMap.getLeftmost num rm v = Vista.RangeMap.getLeftmost RM t) ∧
        ∀ q Q, Means num q Q → RangeMap.getEnclosedBy num rm q = Vista.RangeMap.getEnclosedBy RM Q)
      (RangeMap.new num m) (Vista.RangeMap.new M) := by
  have hk : List.Forall₂ (Means num) (m.map (·.1)) (M.map (·.1)) := map_rel (fun _ _ h => h.key) hm
  unfold RangeMap.new Vista.RangeMap.new
  refine same_bind (addAll_same forall₂_nil hk) fun d D hd => ?_
  rw [hm.length_eq, show Vista.RangeSet.len D = D.length from rfl, ← length_eq hd]
  split
  · rfl
  · exact ⟨fun v t hv => ⟨lookupOpt_eq hm _ _ (rangeContaining_same hd hv), set_contains_eq hd hv, lookupOpt_eq hm _ _ (rightmost_same hd hv),
      lookupOpt_eq hm _ _ (leftmost_same hd hv)⟩, fun q Q hq => same_eq_iff.1 (same_bind (rangesEnclosedBy_same hd hq) fun l L hl =>
        same_eq_iff.2 (lookupAll_eq hm d D hl))⟩

theorem exists_mapping {m : List (Range V × W)} (h : NumberMapping num m) :
    ∃ M : List (Range T × W), List.Forall₂ (KeyMeans num) m M ∧ IsMapping M := by
  obtain ⟨hk, hd⟩ := h
  induction m with
  | nil => exact ⟨[], .nil, ⟨by simp, by simp⟩⟩
  | cons e m ih =>
    obtain ⟨M, h1, h2⟩ := ih (fun x hx => hk x (by simp [hx])) (List.pairwise_cons.1 hd).2
    obtain ⟨R, h3, h4⟩ := exists_meaning (hk e (by simp)).1 (hk e (by simp)).2
    refine ⟨(R, e.2) :: M, .cons ⟨h3, rfl⟩ h1, { valid := ?v, distinct := ?d }⟩
    case v =>
      intro r hr
      rcases List.mem_cons.1 hr with rfl | hr
      · exact h4
      · exact h2.valid r hr
    case d =>
      refine List.nodup_cons.2 ⟨fun hR => ?_, h2.distinct⟩
      obtain ⟨E, hE, rfl⟩ := List.mem_map.1 hR
      obtain ⟨f, hf, hfE⟩ := forall₂_right h1 E hE
      have := (List.pairwise_cons.1 hd).1 f hf
      rw [range_pyEq_eq h3 hfE.key, (Vista.Range.pyEq_iff _ _).2 rfl] at this
      cases this

/-- The constructor of a range map: `ValueError` iff a key is empty or two keys touch or overlap. -/
theorem C107_map_accepts (m : List (Range V × W)) (hm : NumberMapping num m) :
    (RangeMap.new num m = .error .valueError ↔ (∃ e ∈ m, Range.isEmpty num e.1 = true) ∨
      ∃ e ∈ m, ∃ f ∈ m, Range.pyEq num e.1 f.1 = false ∧ Range.isConnected num e.1 f.1 = true) ∧
    (RangeMap.new num m ≠ .error .valueError → ∃ rm, RangeMap.new num m = .ok rm) := by
  obtain ⟨M, h1, h2⟩ := exists_mapping hm
  have hs := C107_maps h1
  have hacc := C21_accepts M h2
  have hcond : ((∃ e ∈ m, Range.isEmpty num e.1 = true) ∨
      ∃ e ∈ m, ∃ f ∈ m, Range.pyEq num e.1 f.1 = false ∧ Range.isConnected num e.1 f.1 = true) ↔
      ((∃ k ∈ M.map (·.1), k.isEmpty = true) ∨ ∃ k₁ ∈ M.map (·.1), ∃ k₂ ∈ M.map (·.1), k₁ ≠ k₂ ∧ k₁.isConnected k₂ = true) := by
    have hex : ∀ p : Range T → Prop, (∃ k ∈ M.map (·.1), p k) ↔ ∃ E ∈ M, p E.1 := fun p =>
      ⟨fun ⟨k, hk, hp⟩ => by obtain ⟨E, hE, rfl⟩ := List.mem_map.1 hk; exact ⟨E, hE, hp⟩, fun ⟨E, hE, hp⟩ => ⟨E.1, List.mem_map.2 ⟨E, hE, rfl⟩, hp⟩⟩
    simp only [hex]
    have hne : ∀ a b : Range T, a.pyEq b = false ↔ a ≠ b := fun a b => by
      rw [← Bool.not_eq_true, Vista.Range.pyEq_iff]
    constructor
    · rintro (⟨e, he, hc⟩ | ⟨e, he, f, hf, hn, hc⟩)
      · obtain ⟨E, hE, h⟩ := forall₂_left h1 e he
        exact .inl ⟨E, hE, (isEmpty_eq h.key).symm.trans hc⟩
      · obtain ⟨E, hE, h⟩ := forall₂_left h1 e he
        obtain ⟨F, hF, h'⟩ := forall₂_left h1 f hf
        exact .inr ⟨E, hE, F, hF, (hne _ _).1 ((range_pyEq_eq h.key h'.key).symm.trans hn), (isConnected_eq h.key h'.key).symm.trans hc⟩
    · rintro (⟨E, hE, hc⟩ | ⟨E, hE, F, hF, hn, hc⟩)
      · obtain ⟨e, he, h⟩ := forall₂_right h1 E hE
        exact .inl ⟨e, he, (isEmpty_eq h.key).trans hc⟩
      · obtain ⟨e, he, h⟩ := forall₂_right h1 E hE
        obtain ⟨f, hf, h'⟩ := forall₂_right h1 F hF
        exact .inr ⟨e, he, f, hf, (range_pyEq_eq h.key h'.key).trans ((hne _ _).2 hn), (isConnected_eq h.key h'.key).trans hc⟩
  rw [hcond]
  by_cases hbad : (∃ k ∈ M.map (·.1), k.isEmpty = true) ∨ ∃ k₁ ∈ M.map (·.1), ∃ k₂ ∈ M.map (·.1), k₁ ≠ k₂ ∧ k₁.isConnected k₂ = true
  · have := hacc.1 hbad
    rw [this] at hs
    cases hx : RangeMap.new num m with
    | ok rm => rw [hx] at hs; exact hs.elim
    | error e =>
      rw [hx] at hs
      obtain rfl : e = .valueError := hs
      exact ⟨iff_of_true rfl hbad, fun h => absurd rfl h⟩
  · obtain ⟨RM, hRM, -⟩ := hacc.2
      (fun k hk => by
        cases h : k.isEmpty with
        | false => rfl
        | true => exact absurd (.inl ⟨k, hk, h⟩) hbad)
      (fun k₁ hk₁ k₂ hk₂ hne => by
        cases h : k₁.isConnected k₂ with
        | false => rfl
        | true => exact absurd (.inr ⟨k₁, hk₁, k₂, hk₂, hne, h⟩) hbad)
    rw [hRM] at hs
    cases hx : RangeMap.new num m with
    | ok rm => exact ⟨iff_of_false (fun h => by cases h) hbad, fun _ => ⟨rm, rfl⟩⟩
    | error e => rw [hx] at hs; exact hs.elim

/-- `m[v]` for every number `v`, NaN included: the value of the key that contains `v`, `None` iff no key does. -/
theorem C107_map_lookup (m : List (Range V × W)) (hm : NumberMapping num m) (rm : RangeMap V W) (hrm : RangeMap.new num m = .ok rm) (v : V) :
    (∀ w, RangeMap.getItem num rm v = .ok (some w) ↔ ∃ r, (r, w) ∈ m ∧ Range.contains num r v = true) ∧
    (RangeMap.getItem num rm v = .ok none ↔ ∀ e ∈ m, Range.contains num e.1 v = false) ∧
    ∃ b, RangeMap.contains num rm v = .ok b ∧ (b = true ↔ ∃ e ∈ m, Range.contains num e.1 v = true) := by
  obtain ⟨M, h1, h2⟩ := exists_mapping hm
  have hs := C107_maps h1
  rw [hrm] at hs
  cases hR : Vista.RangeMap.new M with
  | error e => rw [hR] at hs; exact hs.elim
  | ok RM =>
    rw [hR] at hs
    cases hv : num v with
    | some t =>
      obtain ⟨g1, g2, -⟩ := hs.1 v t hv
      obtain ⟨c1, c2, b, c3, c4⟩ := C22_lookup M h2 RM hR t
      rw [g1, g2]
      refine ⟨fun w => (c1 w).trans ⟨fun ⟨R, hM, hc⟩ => ?_, fun ⟨r, hr, hc⟩ => ?_⟩, c2.trans ⟨fun h e he => ?_, fun h E hE => ?_⟩, b, c3,
        c4.trans ⟨fun ⟨E, hE, hc⟩ => ?_, fun ⟨e, he, hc⟩ => ?_⟩⟩
      · obtain ⟨e, he, hk, hw⟩ := forall₂_right h1 _ hM
        exact ⟨e.1, by rw [← show e.2 = w from hw]; exact he, (contains_eq hk hv).trans hc⟩
      · obtain ⟨E, hE, hk, hw⟩ := forall₂_left h1 _ hr
        exact ⟨E.1, by rw [show w = E.2 from hw]; exact hE, (contains_eq hk hv).symm.trans hc⟩
      · obtain ⟨E, hE, hk⟩ := forall₂_left h1 e he
        exact (contains_eq hk.key hv).trans (h E hE)
      · obtain ⟨e, he, hk⟩ := forall₂_right h1 E hE
        exact (contains_eq hk.key hv).symm.trans (h e he)
      · obtain ⟨e, he, hk⟩ := forall₂_right h1 E hE
        exact ⟨e, he, (contains_eq hk.key hv).trans hc⟩
      · obtain ⟨E, hE, hk⟩ := forall₂_left h1 e he
        exact ⟨E, hE, (contains_eq hk.key hv).symm.trans hc⟩
    | none =>
      obtain ⟨rs, hRM, hn, hp⟩ := Vista.RangeMap.new_ok h2 hR
      -- the range set of the map
      have hk : List.Forall₂ (Means num) (m.map (·.1)) (M.map (·.1)) := map_rel (fun _ _ h => h.key) h1
      have hset := addAll_same (num := num) forall₂_nil hk
      unfold RangeMap.new at hrm
      unfold Vista.RangeMap.new at hR
      cases hd : RangeSet.addAll num RangeSet.create (m.map (·.1)) with
      | error e => rw [hd] at hrm; cases hrm
      | ok d =>
        cases hD : Vista.RangeSet.addAll Vista.RangeSet.create (M.map (·.1)) with
        | error e => rw [hD] at hR; cases hR
        | ok D =>
          rw [hd] at hrm
          rw [hD] at hR
          rw [hd, hD] at hset
          simp only [bind, Except.bind] at hrm hR
          split at hrm
          · cases hrm
          split at hR
          · cases hR
          obtain rfl := Except.ok.inj hrm
          obtain rfl := Except.ok.inj hR
          obtain rfl : D = toD rs := congrArg Vista.RangeMap.rangeSet hRM
          have hset : DictMeans num d (toD rs) := hset
          have hnan := nan_valueAtOrBelow hn hset v hv
          have has := asRanges_rel hset
          rw [Vista.asRanges_toD] at has
          have hin : ∀ {r : Range V} {R : Range T}, Means num r R → R.Valid → (Range.contains num r v = true ↔ r.lower = .belowAll) := by
            intro r R hm hV
            have hu := ((Vista.Range.valid_iff R).1 hV).2.2
            have hu' : r.upper ≠ .belowAll := fun h => by
              have := hm.upper
              rw [h] at this
              cases hR : R.upper <;> rw [hR] at this <;> first | exact hu hR | exact this
            obtain ⟨lo, hi⟩ := r
            cases lo <;> cases hi <;> simp_all [Range.contains, Cut.isLessThan, less, equal]
          have hkey : ∀ e ∈ m, (Range.contains num e.1 v = true ↔ e.1.lower = .belowAll) := fun e he => by
            obtain ⟨E, hE, hk⟩ := forall₂_left h1 e he
            exact hin hk.key (h2.valid _ (List.mem_map.2 ⟨E, hE, rfl⟩))
          by_cases hex : ∃ x ∈ RangeSet.asRanges d, x.lower = .belowAll
          · obtain ⟨x, hx, hlow⟩ := hex
            obtain ⟨X, hX, hxX⟩ := forall₂_left has x hx
            have hXV : X.Valid := hn.valid hX
            have hc := (hin hxX hXV).2 hlow
            have hval := hnan.1 x hx hlow
            obtain ⟨w, hw⟩ := mem_of_key (hp.mem_iff.1 hX)
            have hlook : RangeMap.lookup num ⟨m, d⟩ x = .ok w := (lookup_eq h1 d (toD rs) hxX).trans (Vista.RangeMap.lookup_ok h2 hw)
            have hget : RangeMap.getItem num ⟨m, d⟩ v = .ok (some w) := by
              simp only [RangeMap.getItem, RangeSet.rangeContaining, hval, bind, Except.bind, hc, if_true, RangeMap.lookupOpt, hlook]
            have hcon : RangeMap.contains num ⟨m, d⟩ v = .ok true := by
              simp only [RangeMap.contains, RangeSet.contains, hval, bind, Except.bind, hc]
            obtain ⟨e, he, hkE, hwE⟩ := forall₂_right h1 _ hw
            have he1 : e.1.lower = .belowAll := (means_belowAll hkE.lower).2 ((means_belowAll hxX.lower).1 hlow)
            have huniq : ∀ r w', (r, w') ∈ m → r.lower = .belowAll → w' = w := by
              intro r w' hr hlr
              obtain ⟨E, hE, hkr, hwr⟩ := forall₂_left h1 _ hr
              have hEr : E.1.lower = .belowAll := (means_belowAll hkr.lower).1 hlr
              have hErs : E.1 ∈ rs := hp.mem_iff.2 (List.mem_map.2 ⟨E, hE, rfl⟩)
              have : E.1 = X := by
                rcases pairwise_mem_cases hn.sep hErs hX with e | e | e
                · exact e
                · rw [(means_belowAll hxX.lower).1 hlow] at e; exact absurd e (not_lt_belowAll _)
                · rw [hEr] at e; exact absurd e (not_lt_belowAll _)
              have hwr : w' = E.2 := hwr
              rw [hwr]
              exact value_unique h2 (k := X) (by rw [← this]; exact hE) hw
            refine ⟨fun w' => ?_, ?_, true, hcon, by simp; exact ⟨e.1, ⟨e.2, he⟩, (hkey e he).2 he1⟩⟩
            · rw [hget]
              simp only [Except.ok.injEq, Option.some.injEq]
              constructor
              · rintro rfl
                exact ⟨e.1, by rw [← show e.2 = w from hwE]; exact he, (hkey e he).2 he1⟩
              · rintro ⟨r, hr, hc⟩
                exact (huniq r w' hr ((hkey _ hr).1 hc)).symm
            · rw [hget]
              simp only [Except.ok.injEq, reduceCtorEq, false_iff, not_forall]
              exact ⟨e, he, by rw [(hkey e he).2 he1]; simp⟩
          · have hval := hnan.2 fun x hx hlow => hex ⟨x, hx, hlow⟩
            have hget : RangeMap.getItem num ⟨m, d⟩ v = .ok none := by
              simp only [RangeMap.getItem, RangeSet.rangeContaining, hval, bind, Except.bind, RangeMap.lookupOpt]
            have hcon : RangeMap.contains num ⟨m, d⟩ v = .ok false := by
              simp only [RangeMap.contains, RangeSet.contains, hval, bind, Except.bind]
            have hno : ∀ e ∈ m, Range.contains num e.1 v = false := by
              intro e he
              by_contra hc
              have hlow := (hkey e he).1 (by simpa using hc)
              obtain ⟨E, hE, hk⟩ := forall₂_left h1 e he
              obtain ⟨x, hx, hxE⟩ := forall₂_right has E.1 (hp.mem_iff.2 (List.mem_map.2 ⟨E, hE, rfl⟩))
              exact hex ⟨x, hx, (means_belowAll hxE.lower).2 ((means_belowAll hk.key.lower).1 hlow)⟩
            refine ⟨fun w' => ?_, by simp [hget]; exact fun r w hr => hno _ hr, false, hcon, by simp; exact fun r w hr => hno _ hr⟩
            rw [hget]
            simp only [Except.ok.injEq, reduceCtorEq, false_iff, not_exists, not_and]
            exact fun r hr => by simp [hno _ hr]

end Maps

/-! ## Examples: a number is an optional integer (`none` is NaN) with the identity of its object -/
namespace Example
abbrev Obj := Option Int × Nat
def one : Obj := (some 1, 0)
/-- `1.0`: equal to `1`, but another object. -/
def oneF : Obj := (some 1, 1)
def two : Obj := (some 2, 0)
def twoF : Obj := (some 2, 1)
def three : Obj := (some 3, 0)
def four : Obj := (some 4, 0)
def five : Obj := (some 5, 0)
def nan : Obj := (none, 0)

/-- `[1, 2)`, then `[2.0, 3]`: they connect although 2 and 2.0 are different objects. -/
def history : List (RsOp Obj) := [.add ⟨.belowValue one, .belowValue two⟩, .add ⟨.belowValue twoF, .aboveValue three⟩]
/-- `(-∞, 1]`, then `[1.0, 2]`. -/
def below : List (RsOp Obj) := [.add ⟨.belowAll, .aboveValue one⟩, .addAll [⟨.belowValue oneF, .aboveValue two⟩], .add ⟨.belowValue four, .aboveValue five⟩]

example : (run Prod.fst RangeSet.create history).toOption.map RangeSet.asRanges = some [⟨.belowValue one, .aboveValue three⟩] := by decide +kernel
example : (run Prod.fst RangeSet.create below).toOption.map RangeSet.asRanges =
    some [⟨.belowAll, .aboveValue two⟩, ⟨.belowValue four, .aboveValue five⟩] := by decide +kernel

theorem withoutNaN_of {ops : List (RsOp Obj)} (h : ∀ r ∈ ops.flatMap (fun op => match op with | .add r => [r] | .addAll rs => rs | .clear => []),
    NumberRange Prod.fst r) : WithoutNaN Prod.fst ops := by
  intro op hop r hr
  refine h r (List.mem_flatMap.2 ⟨op, hop, ?_⟩)
  rcases hr with rfl | ⟨rs, rfl, hr⟩
  · simp
  · exact hr

theorem below_ok : WithoutNaN Prod.fst below := withoutNaN_of fun r hr => by
  simp only [below, List.flatMap_cons, List.flatMap_nil, List.append_nil, List.mem_append, List.mem_singleton, List.cons_append, List.nil_append, List.mem_cons, List.not_mem_nil, or_false] at hr
  rcases hr with rfl | rfl | rfl <;> exact ⟨by decide +kernel, by rintro x (h | h | h | h) <;> cases h <;> decide⟩

/-- The hypotheses of `C107_membership` hold, and NaN is in the set. -/
example : ∃ d, run Prod.fst RangeSet.create below = .ok d ∧ RangeSet.contains Prod.fst d nan = .ok true ∧ RangeSet.contains Prod.fst d three = .ok false ∧
    RangeSet.contains Prod.fst d oneF = .ok true := by
  obtain ⟨d, hd, h⟩ := C107_membership (num := Prod.fst) below below_ok
  refine ⟨d, hd, ?_, ?_, ?_⟩
  · obtain ⟨b, h1, h2⟩ := h nan
    rw [h1, h2.2 ⟨⟨.belowAll, .aboveValue one⟩, by decide +kernel, by decide +kernel⟩]
  · obtain ⟨b, h1, h2⟩ := h three
    cases b with
    | false => exact h1
    | true =>
      obtain ⟨r, hr, hc⟩ := h2.1 rfl
      have : ∀ r ∈ live below, Range.contains Prod.fst r three = false := by decide +kernel
      rw [this r hr] at hc
      cases hc
  · obtain ⟨b, h1, h2⟩ := h oneF
    rw [h1, h2.2 ⟨⟨.belowAll, .aboveValue one⟩, by decide +kernel, by decide +kernel⟩]

/-- The hypotheses of `C107_sets`. -/
example : List.Forall₂ (OpMeans (Prod.fst : Obj → Option Int)) history
    [.add ⟨.belowValue 1, .belowValue 2⟩, .add ⟨.belowValue 2, .aboveValue 3⟩] := .cons ⟨rfl, rfl⟩ (.cons ⟨rfl, rfl⟩ .nil)

/-- The hypotheses of `C107_nan_in`, `C107_nan_endpoint`: `closed(1, nan)` and `at_most(1)` are accepted. -/
example : (Range.closed Prod.fst one nan).isOk = true ∧ (Range.atMost Prod.fst one).isOk = true := by decide +kernel

def mapping : List (Range Obj × Char) := [(⟨.belowAll, .aboveValue one⟩, 'a'), (⟨.belowValue two, .aboveValue three⟩, 'b')]

theorem mapping_ok : NumberMapping Prod.fst mapping :=
  { keys := fun e he => by
      simp only [mapping, List.mem_cons, List.not_mem_nil, or_false] at he
      rcases he with rfl | rfl <;> exact ⟨by decide +kernel, by rintro x (h | h | h | h) <;> cases h <;> decide⟩
    distinct := by decide +kernel }

/-- The hypotheses of `C107_map_lookup`; the map at NaN and at 2.0. -/
example : ∃ rm, RangeMap.new Prod.fst mapping = .ok rm ∧ RangeMap.getItem Prod.fst rm nan = .ok (some 'a') ∧
    RangeMap.getItem Prod.fst rm twoF = .ok (some 'b') := by
  obtain ⟨h1, h2⟩ := C107_map_accepts mapping mapping_ok
  obtain ⟨rm, hrm⟩ := h2 (fun h => by
    have h' : (match RangeMap.new (Prod.fst : Obj → Option Int) mapping with | .ok _ => true | .error _ => false) = true := by decide +kernel
    rw [h] at h'
    cases h')
  refine ⟨rm, hrm, ((C107_map_lookup mapping mapping_ok rm hrm nan).1 'a').2 ⟨⟨.belowAll, .aboveValue one⟩, by simp [mapping], by decide +kernel⟩,
    ((C107_map_lookup mapping mapping_ok rm hrm twoF).1 'b').2 ⟨⟨.belowValue two, .aboveValue three⟩, by simp [mapping], by decide +kernel⟩⟩

/-- Adding a range can remove numbers from a set that holds a range with the upper endpoint NaN: after `add(closed(1, nan))` 5 is in the set, after
`add(closed(3, 4))` it is not. -/
theorem _root_.Vista.Numeric.C107_shrink_counterexample : ∃ r s d d' : _, Range.closed (Prod.fst : Obj → Option Int) one nan = .ok r ∧
    Range.closed (Prod.fst : Obj → Option Int) three four = .ok s ∧
    RangeSet.add Prod.fst RangeSet.create r = .ok d ∧ RangeSet.contains Prod.fst d five = .ok true ∧
    RangeSet.add Prod.fst d s = .ok d' ∧ RangeSet.contains Prod.fst d' five = .ok false :=
  ⟨⟨.belowValue one, .aboveValue nan⟩, ⟨.belowValue three, .aboveValue four⟩, [(.belowValue one, ⟨.belowValue one, .aboveValue nan⟩)],
    [(.belowValue one, ⟨.belowValue one, .aboveValue four⟩)], by decide +kernel, by decide +kernel, by decide +kernel, by decide +kernel,
    by decide +kernel, by decide +kernel⟩

end Example

end Numeric
end Vista
