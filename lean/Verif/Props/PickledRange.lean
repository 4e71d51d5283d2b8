import Verif.Model.PickledRange
import Verif.Proofs.RangeSetHistory
import Verif.Props.RangeMap

/-! C88: what pickling and deep-copying do to ranges, range sets and range maps. -/
set_option linter.unusedSectionVars false
set_option linter.unusedSimpArgs false
namespace Vista
namespace Pickled
variable {T : Type} [LinearOrder T] {V : Type}

/-- The cut of the main model, with instance `n` for the unbounded ones: `n = 0` for what the factories make. -/
def ICut.of (n : Nat) : Cut T → ICut T
  | .belowAll => .belowAll n
  | .aboveAll => .aboveAll n
  | .belowValue v => .belowValue v
  | .aboveValue v => .aboveValue v

/-- The range of the main model, with instance `n` for the unbounded cuts. -/
def IRange.of (n : Nat) (r : Range T) : IRange T := ⟨.of n r.lower, .of n r.upper⟩

/-- A cut at a value. -/
def IsValue (c : Cut T) : Prop := c ≠ .belowAll ∧ c ≠ .aboveAll

theorem ICut.of_inj (n : Nat) (a b : Cut T) : ICut.of n a = ICut.of n b ↔ a = b := by
  cases a <;> cases b <;> simp [ICut.of]

theorem IRange.of_inj (n : Nat) (a b : Range T) : IRange.of n a = IRange.of n b ↔ a = b := by
  obtain ⟨a1, a2⟩ := a
  obtain ⟨b1, b2⟩ := b
  simp [IRange.of, ICut.of_inj]

theorem copy_of (new : Nat → Nat) (n : Nat) (c : Cut T) : (ICut.of n c).copy new = ICut.of (new n) c := by
  cases c <;> rfl

theorem copy_ofRange (new : Nat → Nat) (n : Nat) (r : Range T) : (IRange.of n r).copy new = IRange.of (new n) r := by
  simp [IRange.copy, IRange.of, copy_of]

theorem pyEq_of (n : Nat) (a b : Cut T) : (ICut.of n a).pyEq (ICut.of n b) = decide (a = b) := by
  cases a <;> cases b <;> simp [ICut.of, ICut.pyEq]

theorem pyEq_ofRange (n : Nat) (a b : Range T) : (IRange.of n a).pyEq (IRange.of n b) = decide (a = b) := by
  obtain ⟨a1, a2⟩ := a
  obtain ⟨b1, b2⟩ := b
  simp [IRange.of, IRange.pyEq, pyEq_of, Bool.decide_and]

/-- Comparisons do not raise between constants, nor if the right-hand side is a cut at a value. -/
theorem compareTo_of {n : Nat} {a b : Cut T} (h : n = 0 ∨ IsValue b) : (ICut.of n a).compareTo (ICut.of n b) = .ok (a.compareTo b) := by
  obtain rfl | ⟨h1, h2⟩ := h
  · cases a <;> cases b <;>
      simp [ICut.of, ICut.compareTo, ICut.compareAt, Cut.compareTo, Cut.compareValues, ICut.endpoint, bind, Except.bind]
  · cases a <;> cases b <;> first | exact absurd rfl h1 | exact absurd rfl h2 |
      simp [ICut.of, ICut.compareTo, ICut.compareAt, Cut.compareTo, Cut.compareValues, ICut.endpoint, bind, Except.bind]

theorem lt_of' {n : Nat} {a b : Cut T} (h : n = 0 ∨ IsValue b) : (ICut.of n a).lt (ICut.of n b) = .ok (decide (a < b)) := by
  unfold ICut.lt
  rw [compareTo_of h]
  simp only [bind, Except.bind, Cut.lt_def]

theorem le_of' {n : Nat} {a b : Cut T} (h : n = 0 ∨ IsValue b) : (ICut.of n a).le (ICut.of n b) = .ok (decide (a ≤ b)) := by
  unfold ICut.le
  rw [compareTo_of h]
  simp only [bind, Except.bind, Cut.le_def]

theorem isLessThan_of (n : Nat) (a : Cut T) (v : T) : (ICut.of n a).isLessThan v = a.isLessThan v := by
  cases a <;> rfl

theorem contains_of (n : Nat) (r : Range T) (v : T) : (IRange.of n r).contains v = r.contains v := by
  simp [IRange.contains, Range.contains, IRange.of, isLessThan_of]

theorem isEmpty_of (n : Nat) (r : Range T) : (IRange.of n r).isEmpty = r.isEmpty := by
  have : r.isEmpty = decide (r.lower = r.upper) := by
    unfold Range.isEmpty
    rw [Bool.eq_iff_iff]; simp
  rw [this]
  exact pyEq_of n r.lower r.upper

theorem new_of (lo hi : Cut T) : IRange.new (ICut.of 0 lo) (ICut.of 0 hi) = (Range.new lo hi).map (IRange.of 0) := by
  unfold IRange.new Range.new
  rw [le_of' (.inl rfl)]
  simp only [bind, Except.bind]
  cases h1 : checkArg (decide (lo ≤ hi)) with
  | error e => rfl
  | ok _ =>
    simp only
    have e1 : decide (ICut.of 0 lo ≠ .aboveAll 0) = decide (lo ≠ .aboveAll) := by cases lo <;> simp [ICut.of]
    have e2 : decide (ICut.of 0 hi ≠ .belowAll 0) = decide (hi ≠ .belowAll) := by cases hi <;> simp [ICut.of]
    rw [e1, e2]
    cases checkArg (decide (lo ≠ .aboveAll)) with
    | error e => rfl
    | ok _ =>
      simp only
      cases checkArg (decide (hi ≠ .belowAll)) <;> rfl

/-! ## Dictionaries -/

/-- The dictionary of the main model. -/
def dictOf (n : Nat) (d : RDict T) : IDict T := d.map fun e => (.of n e.1, .of n e.2)

theorem bisectLeft_of {n : Nat} {d : RDict T} (hs : d.Sorted) {k : Cut T} (h : n = 0 ∨ IsValue k) :
    bisectLeft (dictOf n d) (.of n k) = .ok (d.bisectLeft k) := by
  induction d with
  | nil => rfl
  | cons e d ih =>
    have hs' : SortedDict.Sorted d := (List.pairwise_cons.1 hs).2
    simp only [dictOf, List.map_cons, bisectLeft, lt_of' h, bind, Except.bind, SortedDict.bisectLeft, List.countP_cons]
    by_cases hlt : e.1 < k
    · have := ih hs'
      simp only [dictOf, SortedDict.bisectLeft] at this
      simp [hlt, this]
    · have h0 : d.countP (fun e => decide (e.1 < k)) = 0 := by
        rw [List.countP_eq_zero]
        intro f hf hfk
        exact hlt (((List.pairwise_cons.1 hs).1 f hf).trans (by simpa using hfk))
      simp [hlt, h0]

theorem keyAt_of (n : Nat) (d : RDict T) (i : Nat) : keyAt (dictOf n d) i = (SortedDict.keyAt d i).map (ICut.of n) := by
  unfold keyAt SortedDict.keyAt dictOf
  rw [List.getElem?_map]
  cases d[i]? <;> rfl

theorem get_of (n : Nat) (d : RDict T) (k : Cut T) : get (dictOf n d) (.of n k) = (SortedDict.get d k).map (IRange.of n) := by
  unfold get SortedDict.get dictOf
  induction d with
  | nil => rfl
  | cons e d ih =>
    obtain ⟨a, r⟩ := e
    simp only [List.map_cons, List.find?_cons, List.lookup_cons, pyEq_of]
    by_cases h : a = k
    · have : (k == a) = true := by simp [h]
      simp only [h, decide_true, beq_self_eq_true]; rfl
    · have : (k == a) = false := by simp [Ne.symm h]
      simp only [h, decide_false, this]
      exact ih

theorem valueBelow_of {n : Nat} {d : RDict T} (hs : d.Sorted) {k : Cut T} (h : n = 0 ∨ IsValue k) :
    valueBelow (dictOf n d) (.of n k) = (Vista.valueBelow d k).map (Option.map (IRange.of n)) := by
  unfold valueBelow Vista.valueBelow
  rw [bisectLeft_of hs h]
  have hl : (dictOf n d).length = d.length := by simp [dictOf]
  simp only [bind, Except.bind, hl]
  by_cases hi : d.bisectLeft k ≥ 1
  · rw [if_pos hi, if_pos hi, keyAt_of]
    cases SortedDict.keyAt d (if d.bisectLeft k - 1 ≥ d.length then d.length - 1 else d.bisectLeft k - 1) with
    | error e => rfl
    | ok c =>
      simp only [Except.map, get_of]
      cases SortedDict.get d c <;> rfl
  · rw [if_neg hi, if_neg hi]; rfl

theorem isEmpty_dictOf (n : Nat) (d : RDict T) : (dictOf n d).isEmpty = d.isEmpty := by cases d <;> rfl

theorem valueAtOrBelow_of {n : Nat} {d : RDict T} (hs : d.Sorted) {k : Cut T} (h : n = 0 ∨ IsValue k) :
    valueAtOrBelow (dictOf n d) (.of n k) = (Vista.valueAtOrBelow d k).map (Option.map (IRange.of n)) := by
  unfold valueAtOrBelow Vista.valueAtOrBelow
  rw [isEmpty_dictOf]
  by_cases he : d.isEmpty = true
  · rw [if_pos he, if_pos he]; rfl
  · rw [if_neg he, if_neg he, bisectLeft_of hs h]
    have hl : (dictOf n d).length = d.length := by simp [dictOf]
    simp only [bind, Except.bind, hl]
    by_cases hi : d.bisectLeft k ≥ d.length
    · rw [if_pos hi, if_pos hi]
      by_cases h0 : d.bisectLeft k > 0
      · rw [if_pos h0, if_pos h0, keyAt_of]
        cases SortedDict.keyAt d (d.bisectLeft k - 1) with
        | error e => rfl
        | ok c =>
          simp only [Except.map, get_of]
          cases SortedDict.get d c <;> rfl
      · rw [if_neg h0, if_neg h0]; rfl
    · rw [if_neg hi, if_neg hi, keyAt_of]
      cases SortedDict.keyAt d (d.bisectLeft k) with
      | error e => rfl
      | ok c =>
        simp only [Except.map, pyEq_of]
        by_cases hk : k = c
        · subst hk
          simp only [decide_true, Bool.not_true, ne_eq, not_true_eq_false, if_false, get_of]
          cases SortedDict.get d k <;> rfl
        · simp only [hk, decide_false, Bool.not_false, ne_eq, not_false_eq_true, if_true]
          by_cases h0 : d.bisectLeft k > 0
          · rw [if_pos h0, if_pos h0, keyAt_of]
            cases SortedDict.keyAt d (d.bisectLeft k - 1) with
            | error e => rfl
            | ok c =>
              simp only [Except.map, get_of]
              cases SortedDict.get d c <;> rfl
          · rw [if_neg h0, if_neg h0]; rfl

theorem irange_of {d : RDict T} (hs : d.Sorted) (lo hi : Cut T) :
    irange (dictOf 0 d) (.of 0 lo) (.of 0 hi) = .ok ((d.irange lo hi).map (ICut.of 0)) := by
  unfold irange SortedDict.irange
  rw [bisectLeft_of hs (.inl rfl), bisectLeft_of hs (.inl rfl)]
  have hl : (dictOf 0 d).length = d.length := by simp [dictOf]
  simp only [bind, Except.bind, hl]
  have hlo := SortedDict.split_lt hs lo
  have hhi := SortedDict.split_lt hs hi
  have blo := SortedDict.bisectLeft_eq d lo
  have bhi := SortedDict.bisectLeft_eq d hi
  have hmain : (d.take (d.bisectLeft hi)).drop (d.bisectLeft lo) = d.filter fun e => decide (lo ≤ e.1) && decide (e.1 < hi) := by
    have ht : d.take (d.bisectLeft hi) = d.filter fun e => decide (e.1 < hi) := by
      rw [bhi]
      conv_lhs => arg 2; rw [hhi]
      exact List.take_left' rfl
    rw [ht]
    rcases le_or_gt lo hi with h | h
    · have hs' : SortedDict.Sorted (d.filter fun e => decide (e.1 < hi)) := List.Pairwise.filter _ hs
      have h2 := SortedDict.split_lt hs' lo
      have h3 : ((d.filter fun e => decide (e.1 < hi)).filter fun e => decide (e.1 < lo)) = d.filter fun e => decide (e.1 < lo) := by
        rw [List.filter_filter]
        apply List.filter_congr
        intro e _
        by_cases he : e.1 < lo
        · simp [he, he.trans_le h]
        · simp [he]
      rw [h3] at h2
      rw [blo]
      conv_lhs => arg 2; rw [h2]
      rw [List.drop_left' rfl, List.filter_filter]
    · have hle : (d.filter fun e => decide (e.1 < hi)).length ≤ d.bisectLeft lo := by
        rw [blo]
        apply List.Sublist.length_le
        apply List.monotone_filter_right
        intro e he
        simp only [decide_eq_true_eq] at *
        exact he.trans h
      rw [List.drop_eq_nil_of_le hle]
      symm
      rw [List.filter_eq_nil_iff]
      intro e _ he
      simp only [Bool.and_eq_true, decide_eq_true_eq] at he
      exact absurd (he.1.trans_lt (he.2.trans h)) (lt_irrefl _)
  by_cases hi' : d.bisectLeft lo = d.length
  · rw [if_pos hi', ← hmain, hi', List.drop_eq_nil_of_le (by simp)]
    rfl
  · rw [if_neg hi', ← hmain]
    simp only [dictOf, ← List.map_take, ← List.map_drop, List.map_map]
    rfl

theorem any_of (n : Nat) (d : RDict T) (k : Cut T) :
    ((dictOf n d).any fun e => e.1.pyEq (.of n k)) = d.any fun e => decide (e.1 = k) := by
  simp only [dictOf, List.any_map]
  congr 1
  funext e
  exact pyEq_of n e.1 k

theorem del_of (n : Nat) (d : RDict T) (k : Cut T) : del (dictOf n d) (.of n k) = (SortedDict.del d k).map (dictOf n) := by
  unfold del SortedDict.del
  rw [any_of]
  by_cases h : (d.any fun e => decide (e.1 = k)) = true
  · rw [if_pos h, if_pos h]
    simp only [dictOf, List.filter_map, Except.map]
    congr 2
    apply List.filter_congr
    intro e _
    simp [Function.comp, pyEq_of]
  · rw [if_neg h, if_neg h]; rfl

theorem delAll_of (n : Nat) (ks : List (Cut T)) : ∀ d : RDict T,
    delAll (dictOf n d) (ks.map (ICut.of n)) = (Vista.delAll d ks).map (dictOf n) := by
  induction ks with
  | nil => intro d; rfl
  | cons k ks ih =>
    intro d
    simp only [List.map_cons, delAll, Vista.delAll, del_of, bind, Except.bind]
    cases SortedDict.del d k with
    | error e => rfl
    | ok d' => exact ih d'

theorem clearRange_of {d : RDict T} (hs : d.Sorted) (lo hi : Cut T) :
    clearRange (dictOf 0 d) (.of 0 lo) (.of 0 hi) = (Vista.clearRange d lo hi).map (dictOf 0) := by
  unfold clearRange Vista.clearRange
  rw [irange_of hs]
  exact delAll_of 0 _ d

theorem insert_of (d : RDict T) (k : Cut T) (r : Range T) (hk : ∀ e ∈ d, e.1 ≠ k) :
    insert (dictOf 0 d) (.of 0 k) (.of 0 r) = .ok (dictOf 0 (SortedDict.set d k r)) := by
  induction d with
  | nil => rfl
  | cons e d ih =>
    have h1 := ih fun e he => hk e (by simp [he])
    have h2 : k ≠ e.1 := fun h => hk e (by simp) h.symm
    simp only [dictOf, List.map_cons] at h1 ⊢
    simp only [insert, lt_of' (.inl rfl), bind, Except.bind, SortedDict.set, h1]
    by_cases h : k < e.1
    · simp [h]
    · simp [h, h2]

theorem set_of {d : RDict T} (hs : d.Sorted) (k : Cut T) (r : Range T) :
    set (dictOf 0 d) (.of 0 k) (.of 0 r) = .ok (dictOf 0 (SortedDict.set d k r)) := by
  unfold set
  rw [any_of]
  by_cases h : (d.any fun e => decide (e.1 = k)) = true
  · rw [if_pos h]
    congr 1
    induction d with
    | nil => simp at h
    | cons e d ih =>
      obtain ⟨a, s⟩ := e
      have hlt := (List.pairwise_cons.1 hs).1
      simp only [dictOf, List.map_cons, SortedDict.set, pyEq_of] at ih ⊢
      by_cases ha : a = k
      · subst ha
        simp only [decide_true, if_true, lt_irrefl, if_false, List.map_cons, List.cons.injEq, true_and]
        rw [List.map_map]
        apply List.map_congr_left
        intro f hf
        have : f.1 ≠ a := (hlt f hf).ne'
        simp [Function.comp, pyEq_of, this]
      · have hd : (d.any fun e => decide (e.1 = k)) = true := by
          simpa [ha] using h
        have hka : ¬ k < a := by
          intro hlt'
          obtain ⟨f, hf, hfk⟩ := List.any_eq_true.1 hd
          simp only [decide_eq_true_eq] at hfk
          exact absurd ((hlt f hf).trans (hfk ▸ hlt')) (lt_irrefl _)
        have := ih (List.pairwise_cons.1 hs).2 hd
        simp only [ha, decide_false, Bool.false_eq_true, if_false, hka, Ne.symm ha, List.map_cons, List.cons.injEq, true_and]
        exact this
  · rw [if_neg h]
    apply insert_of
    intro e he hk
    apply h
    rw [List.any_eq_true]
    exact ⟨e, he, by simp [hk]⟩

theorem extendUpper_of (o : Option (Range T)) (ub : Cut T) :
    extendUpper (o.map (IRange.of 0)) (.of 0 ub) = .ok (.of 0 (RangeSet.extendUpper o ub)) := by
  cases o with
  | none => rfl
  | some r =>
    simp only [Option.map_some, extendUpper, IRange.of, lt_of' (.inl rfl), bind, Except.bind, RangeSet.extendUpper]
    by_cases h : ub < r.upper <;> simp [h]

theorem addUpper_of {d : RDict T} (hs : d.Sorted) (lb ub : Cut T) :
    addUpper (dictOf 0 d) (.of 0 lb) (.of 0 ub) = (RangeSet.addUpper d lb ub).map (dictOf 0) := by
  unfold addUpper RangeSet.addUpper
  rw [valueAtOrBelow_of hs (.inl rfl)]
  cases Vista.valueAtOrBelow d ub with
  | error e => rfl
  | ok o =>
    simp only [Except.map, bind, Except.bind, extendUpper_of, clearRange_of hs, new_of]
    have hc := SortedDict.clearRange_eq hs lb (RangeSet.extendUpper o ub)
    rw [hc]
    simp only
    cases Range.new lb (RangeSet.extendUpper o ub) with
    | error e => rfl
    | ok r =>
      have hs' : SortedDict.Sorted (d.filter fun e => !(decide (lb ≤ e.1) && decide (e.1 < RangeSet.extendUpper o ub))) :=
        List.Pairwise.filter _ hs
      simp only [replaceRange, RangeSet.replaceRange, isEmpty_of]
      by_cases he : r.isEmpty = true
      · rw [if_pos he, if_pos he]
        exact del_of 0 _ _
      · rw [if_neg he, if_neg he]
        exact set_of hs' _ _

theorem add_of {d : RDict T} (hs : d.Sorted) (r : Range T) :
    add (dictOf 0 d) (.of 0 r) = (RangeSet.add d r).map (dictOf 0) := by
  unfold add RangeSet.add
  rw [isEmpty_of]
  by_cases he : r.isEmpty = true
  · rw [if_pos he, if_pos he]; rfl
  · rw [if_neg he, if_neg he]
    have : valueBelow (dictOf 0 d) (IRange.of 0 r).lower = _ := valueBelow_of hs (.inl rfl)
    rw [this]
    cases Vista.valueBelow d r.lower with
    | error e => rfl
    | ok o =>
      cases o with
      | none => exact addUpper_of hs _ _
      | some b =>
        simp only [Except.map, Option.map_some, bind, Except.bind, IRange.of, le_of' (.inl rfl), lt_of' (.inl rfl), decide_eq_true_eq]
        by_cases h1 : r.lower ≤ b.upper
        · rw [if_pos h1, if_pos h1]
          by_cases h2 : r.upper < b.upper
          · rw [if_pos h2, if_pos h2]
          · rw [if_neg h2, if_neg h2]; exact addUpper_of hs _ _
        · rw [if_neg h1, if_neg h1]; exact addUpper_of hs _ _

theorem addAll_of (ks : List (Range T)) (hk : ∀ r ∈ ks, r.Valid) : ∀ {rs : List (Range T)}, Normal rs →
    addAll (dictOf 0 (toD rs)) (ks.map (IRange.of 0)) = (RangeSet.addAll (toD rs) ks).map (dictOf 0) := by
  induction ks with
  | nil => intro rs _; rfl
  | cons k ks ih =>
    intro rs hn
    simp only [List.map_cons, addAll, RangeSet.addAll, add_of hn.sorted, bind, Except.bind]
    by_cases he : k.isEmpty = true
    · rw [add_toD_empty he]
      exact ih (fun r hr => hk r (by simp [hr])) hn
    · have hlt : k.lower < k.upper := by
        have hv := (Range.valid_iff k).1 (hk k (by simp))
        refine lt_of_le_of_ne hv.1 fun h => he ?_
        unfold Range.isEmpty
        simp [h]
      rw [add_toD hn hlt]
      exact ih (fun r hr => hk r (by simp [hr])) (addSpec_normal hn hlt)

/-! ## Ranges -/

theorem hasLowerBound_iff (r : Range T) : r.hasLowerBound = true ↔ r.lower ≠ .belowAll := by simp [Range.hasLowerBound]
theorem hasUpperBound_iff (r : Range T) : r.hasUpperBound = true ↔ r.upper ≠ .aboveAll := by simp [Range.hasUpperBound]

theorem of_eq_of {n : Nat} {c : Cut T} (h : IsValue c) : ICut.of n c = ICut.of 0 c := by
  cases c with
  | belowAll => exact absurd rfl h.1
  | aboveAll => exact absurd rfl h.2
  | belowValue v => rfl
  | aboveValue v => rfl

/-- A range with both bounds has cuts at values. -/
theorem bounded_values {r : Range T} (hv : r.Valid) (h1 : r.hasLowerBound = true) (h2 : r.hasUpperBound = true) :
    IsValue r.lower ∧ IsValue r.upper := by
  have := (Range.valid_iff r).1 hv
  exact ⟨⟨(hasLowerBound_iff r).1 h1, this.2.1⟩, ⟨this.2.2, (hasUpperBound_iff r).1 h2⟩⟩

theorem ofRange_eq {n : Nat} {r : Range T} (hv : r.Valid) (h1 : r.hasLowerBound = true) (h2 : r.hasUpperBound = true) :
    IRange.of n r = IRange.of 0 r := by
  obtain ⟨ha, hb⟩ := bounded_values hv h1 h2
  simp only [IRange.of, of_eq_of (n := n) ha, of_eq_of (n := n) hb]

theorem pyEq_cross {n : Nat} (hn : n ≠ 0) (a b : Cut T) : (ICut.of n a).pyEq (ICut.of 0 b) = true ↔ a = b ∧ IsValue a := by
  cases a <;> cases b <;> simp [ICut.of, ICut.pyEq, IsValue, hn]

theorem pyEq_cross' {n : Nat} (hn : n ≠ 0) (a b : Cut T) : (ICut.of 0 a).pyEq (ICut.of n b) = true ↔ a = b ∧ IsValue a := by
  cases a <;> cases b <;> simp [ICut.of, ICut.pyEq, IsValue, Ne.symm hn]

theorem pyEq_crossRange {n : Nat} (hn : n ≠ 0) {r : Range T} (hv : r.Valid) (s : Range T) :
    ((IRange.of n r).pyEq (IRange.of 0 s) = true ↔ r = s ∧ r.hasLowerBound = true ∧ r.hasUpperBound = true) ∧
    ((IRange.of 0 s).pyEq (IRange.of n r) = true ↔ r = s ∧ r.hasLowerBound = true ∧ r.hasUpperBound = true) := by
  have hv' := (Range.valid_iff r).1 hv
  obtain ⟨a, b⟩ := r
  obtain ⟨c, d⟩ := s
  simp only [IRange.of, IRange.pyEq, Bool.and_eq_true, pyEq_cross hn, pyEq_cross' hn, hasLowerBound_iff, hasUpperBound_iff, IsValue,
    Range.mk.injEq] at hv' ⊢
  constructor
  · constructor
    · rintro ⟨⟨h1, h2, -⟩, ⟨h3, -, h4⟩⟩; exact ⟨⟨h1, h3⟩, h2, h4⟩
    · rintro ⟨⟨h1, h3⟩, h2, h4⟩; exact ⟨⟨h1, h2, hv'.2.1⟩, ⟨h3, hv'.2.2, h4⟩⟩
  · constructor
    · rintro ⟨⟨h1, h2, -⟩, ⟨h3, -, h4⟩⟩; exact ⟨⟨h1.symm, h3.symm⟩, h1 ▸ h2, h3 ▸ h4⟩
    · rintro ⟨⟨h1, h3⟩, h2, h4⟩; subst h1; subst h3; exact ⟨⟨rfl, h2, hv'.2.1⟩, ⟨rfl, hv'.2.2, h4⟩⟩

/-- As long as nothing has been unpickled or deep-copied, taking the identity of the unbounded cuts into account changes nothing: the
answers are those of the main model, for which C01-C23 are proved. -/
theorem C88_constants (r s : Range T) :
    (∀ v, (IRange.of 0 r).contains v = r.contains v) ∧ (IRange.of 0 r).isEmpty = r.isEmpty ∧
    (IRange.of 0 r).pyEq (.of 0 s) = r.pyEq s ∧ (IRange.of 0 r).encloses (.of 0 s) = .ok (r.encloses s) ∧
    (IRange.of 0 r).isConnected (.of 0 s) = .ok (r.isConnected s) ∧ (IRange.of 0 r).hasLowerBound = r.hasLowerBound ∧
    (IRange.of 0 r).hasUpperBound = r.hasUpperBound ∧
    (∀ lo hi : Cut T, IRange.new (.of 0 lo) (.of 0 hi) = (Range.new lo hi).map (IRange.of 0)) ∧
    (∀ d : RDict T, Reachable d → add (dictOf 0 d) (.of 0 r) = (RangeSet.add d r).map (dictOf 0)) := by
  refine ⟨contains_of 0 r, isEmpty_of 0 r, ?_, ?_, ?_, ?_, ?_, new_of, ?_⟩
  · rw [pyEq_ofRange, Bool.eq_iff_iff]
    obtain ⟨a, b⟩ := r
    obtain ⟨c, d⟩ := s
    simp [Range.pyEq]
  · simp only [IRange.encloses, IRange.of, compareTo_of (.inl rfl), bind, Except.bind, Range.encloses]
    by_cases h : r.lower.compareTo s.lower ≤ 0 <;> simp [h]
  · simp only [IRange.isConnected, IRange.of, le_of' (.inl rfl), bind, Except.bind, Range.isConnected]
    by_cases h : r.lower ≤ s.upper <;> simp [h]
  · obtain ⟨a, b⟩ := r
    cases a <;> simp [IRange.hasLowerBound, Range.hasLowerBound, IRange.of, ICut.of]
  · obtain ⟨a, b⟩ := r
    cases b <;> simp [IRange.hasUpperBound, Range.hasUpperBound, IRange.of, ICut.of]
  · intro d hd
    obtain ⟨rs, rfl, hn⟩ := hd.normal
    exact add_of hn.sorted r

/-- A range that has been pickled and unpickled, or deep-copied, still contains the same values.  It is the same range, and so equal to
the original, exactly if it is bounded on both sides; otherwise it claims a bound on the unbounded side, whose endpoint cannot be had. -/
theorem C88_range (r : Range T) (hr : r.Valid) (new : Nat → Nat) (hnew : new 0 ≠ 0) :
    (∀ v, ((IRange.of 0 r).copy new).contains v = r.contains v) ∧
    (((IRange.of 0 r).copy new).pyEq (.of 0 r) = true ↔ r.hasLowerBound = true ∧ r.hasUpperBound = true) ∧
    ((IRange.of 0 r).pyEq ((IRange.of 0 r).copy new) = true ↔ r.hasLowerBound = true ∧ r.hasUpperBound = true) ∧
    (r.hasLowerBound = true → r.hasUpperBound = true → (IRange.of 0 r).copy new = .of 0 r) ∧
    (r.hasLowerBound = false → ((IRange.of 0 r).copy new).hasLowerBound = true ∧
      ((IRange.of 0 r).copy new).lowerEndpoint = .error .valueError) ∧
    (r.hasUpperBound = false → ((IRange.of 0 r).copy new).hasUpperBound = true ∧
      ((IRange.of 0 r).copy new).upperEndpoint = .error .valueError) := by
  rw [copy_ofRange]
  refine ⟨contains_of _ r, ?_, ?_, fun h1 h2 => ofRange_eq hr h1 h2, fun h => ?_, fun h => ?_⟩
  · rw [(pyEq_crossRange hnew hr r).1]; simp
  · rw [(pyEq_crossRange hnew hr r).2]; simp
  · have : r.lower = .belowAll := by
      by_contra hc
      rw [(hasLowerBound_iff r).2 hc] at h; cases h
    simp [IRange.hasLowerBound, IRange.lowerEndpoint, IRange.of, this, ICut.of, ICut.endpoint, hnew]
  · have : r.upper = .aboveAll := by
      by_contra hc
      rw [(hasUpperBound_iff r).2 hc] at h; cases h
    simp [IRange.hasUpperBound, IRange.upperEndpoint, IRange.of, this, ICut.of, ICut.endpoint, hnew]

theorem compareTo_cross_left {n : Nat} (a b : Cut T) :
    ∃ c, (ICut.of n a).compareTo (ICut.of 0 b) = .ok c ∧
      (a ≠ .aboveAll → (c ≤ 0 ↔ a.compareTo b ≤ 0)) ∧ (a ≠ .belowAll → (c ≥ 0 ↔ a.compareTo b ≥ 0)) := by
  cases a <;> cases b <;> simp [ICut.of, ICut.compareTo, ICut.compareAt, Cut.compareTo, Cut.compareValues, ICut.endpoint, bind, Except.bind] <;>
    split <;> simp

theorem compareTo_cross_right {n : Nat} (hn : n ≠ 0) (a b : Cut T) :
    (ICut.of 0 a).compareTo (ICut.of n b) = .error .valueError ∨ ∃ c, (ICut.of 0 a).compareTo (ICut.of n b) = .ok c ∧
      (b ≠ .aboveAll → (c ≤ 0 ↔ a.compareTo b ≤ 0)) ∧ (b ≠ .belowAll → (c ≥ 0 ↔ a.compareTo b ≥ 0)) := by
  cases a <;> cases b <;>
    simp [ICut.of, ICut.compareTo, ICut.compareAt, Cut.compareTo, Cut.compareValues, ICut.endpoint, bind, Except.bind, hn]

/-- It still answers correctly whether it encloses another range; but asking another range, bounded below, whether it encloses a range
that is unbounded below and has been unpickled is a `ValueError` (and is answered correctly, or is a `ValueError`, in the other cases). -/
theorem C88_encloses (r s : Range T) (hr : r.Valid) (new : Nat → Nat) (hnew : new 0 ≠ 0) :
    ((IRange.of 0 r).copy new).encloses (.of 0 s) = .ok (r.encloses s) ∧
    (s.hasLowerBound = true → s.Valid → r.hasLowerBound = false →
      (IRange.of 0 s).encloses ((IRange.of 0 r).copy new) = .error .valueError) ∧
    ((IRange.of 0 s).encloses ((IRange.of 0 r).copy new) = .ok (s.encloses r) ∨
      (IRange.of 0 s).encloses ((IRange.of 0 r).copy new) = .error .valueError) := by
  rw [copy_ofRange]
  have hv := (Range.valid_iff r).1 hr
  refine ⟨?_, ?_, ?_⟩
  · obtain ⟨c1, e1, f1, -⟩ := compareTo_cross_left (n := new 0) r.lower s.lower
    obtain ⟨c2, e2, -, f2⟩ := compareTo_cross_left (n := new 0) r.upper s.upper
    simp only [IRange.encloses, IRange.of, e1, e2, bind, Except.bind, Range.encloses]
    have g1 := f1 hv.2.1
    have g2 := f2 hv.2.2
    by_cases h : c1 ≤ 0
    · simp [h, g1.1 h, g2]
    · simp [h, mt g1.2 h]
  · intro h1 hs h2
    have hl : r.lower = .belowAll := by
      by_contra hc
      rw [(hasLowerBound_iff r).2 hc] at h2; cases h2
    have hs1 := (hasLowerBound_iff s).1 h1
    have hs2 := ((Range.valid_iff s).1 hs).2.1
    obtain ⟨a, b⟩ := s
    cases a with
    | belowAll => exact absurd rfl hs1
    | aboveAll => exact absurd rfl hs2
    | belowValue v => simp [IRange.encloses, IRange.of, hl, ICut.of, ICut.compareTo, ICut.compareAt, ICut.endpoint, hnew, bind, Except.bind]
    | aboveValue v => simp [IRange.encloses, IRange.of, hl, ICut.of, ICut.compareTo, ICut.compareAt, ICut.endpoint, hnew, bind, Except.bind]
  · simp only [IRange.encloses, IRange.of, bind, Except.bind, Range.encloses]
    rcases compareTo_cross_right hnew s.lower r.lower with e1 | ⟨c1, e1, f1, -⟩
    · right; rw [e1]
    rw [e1]
    have g1 := f1 hv.2.1
    by_cases h : c1 ≤ 0
    · simp only [h, if_true]
      rcases compareTo_cross_right hnew s.upper r.upper with e2 | ⟨c2, e2, -, f2⟩
      · right; rw [e2]
      · left; rw [e2]; simp [g1.1 h, f2 hv.2.2]
    · left; simp [h, mt g1.2 h]

/-! ## Range sets -/

theorem asRanges_of (n : Nat) (rs : List (Range T)) : asRanges (dictOf n (toD rs)) = rs.map (IRange.of n) := by
  simp [asRanges, dictOf, toD, Function.comp]

theorem getState_of (new : Nat → Nat) (n : Nat) (rs : List (Range T)) :
    (if (dictOf n (toD rs)).length = 0 then [] else asRanges (dictOf n (toD rs))).map (IRange.copy new) = rs.map (IRange.of (new n)) := by
  cases rs with
  | nil => rfl
  | cons r rs =>
    rw [if_neg (by simp [dictOf, toD]), asRanges_of, List.map_map]
    apply List.map_congr_left
    intro s _
    exact copy_ofRange new n s

/-- Keys in increasing order, all but the last of which are constants or at values, are sorted without changes. -/
theorem sortBack_of {n : Nat} (d : RDict T) : ∀ acc : RDict T, (acc.reverse ++ d).Pairwise (fun a b => a.1 < b.1) →
    (n = 0 ∨ d = [] ∨ ∀ e ∈ acc ++ d.dropLast, IsValue e.1) →
    sortBack (dictOf n acc) (dictOf n d) = .ok (dictOf n (d.reverse ++ acc)) := by
  induction d with
  | nil => intro acc _ _; simp [dictOf, sortBack]
  | cons e d ih =>
    intro acc hp hv
    have hi : insertBack (ICut.of n e.1, IRange.of n e.2) (dictOf n acc) = .ok (dictOf n (e :: acc)) := by
      cases acc with
      | nil => rfl
      | cons f acc =>
        have hfe : f.1 < e.1 := by
          rw [List.pairwise_append] at hp
          exact hp.2.2 f (by simp) e (by simp)
        have hval : n = 0 ∨ IsValue f.1 := by
          rcases hv with h | h | h
          · exact .inl h
          · cases h
          · exact .inr (h f (by simp))
        simp only [dictOf, List.map_cons, insertBack, lt_of' hval, bind, Except.bind, not_lt.2 hfe.le, decide_false]
        rfl
    have := ih (e :: acc) (by simpa using hp) (by
      rcases hv with h | h | h
      · exact .inl h
      · cases h
      · cases d with
        | nil => exact .inr (.inl rfl)
        | cons g d =>
          refine .inr (.inr fun x hx => h x ?_)
          simp only [List.dropLast_cons₂, List.cons_append, List.mem_cons, List.mem_append] at hx ⊢
          tauto)
    simp only [dictOf, List.map_cons, sortBack] at hi this ⊢
    rw [hi]
    simp only [bind, Except.bind]
    rw [this]
    simp

theorem setState_of {n : Nat} {rs : List (Range T)} (hn : Normal rs) (hv : n = 0 ∨ rs.length ≤ 1 ∨ ∀ r ∈ rs, IsValue r.lower) :
    setState (rs.map (IRange.of n)) = .ok (dictOf n (toD rs)) := by
  unfold setState
  have e : (rs.map (IRange.of n)).map (fun r => (r.lower, r)) = dictOf n (toD rs) := by
    simp [dictOf, toD, Function.comp, IRange.of]
  rw [e]
  have := sortBack_of (n := n) (toD rs) [] (show List.Pairwise _ _ from hn.sorted) (by
    rcases hv with h | h | h
    · exact .inl h
    · refine .inr ?_
      match rs, h with
      | [], _ => exact .inl rfl
      | [r], _ => exact .inr (by simp [toD])
    · refine .inr (.inr fun x hx => ?_)
      have := List.dropLast_subset _ (by simpa using hx : x ∈ (toD rs).dropLast)
      obtain ⟨r, hr, rfl⟩ := List.mem_map.1 this
      exact h r hr)
  have h0 : sortBack [] (dictOf n (toD rs)) = .ok (dictOf n ((toD rs).reverse ++ [])) := this
  rw [h0]
  simp [bind, Except.bind, dictOf]

/-- A cut at a value cannot be compared with an unbounded cut that is not the constant. -/
theorem compareTo_raises {n m : Nat} (hn : n ≠ 0) {c : Cut T} (hc : IsValue c) :
    (ICut.of m c).compareTo (.belowAll n) = .error .valueError ∧ (ICut.of m c).compareTo (.aboveAll n) = .error .valueError := by
  cases c with
  | belowAll => exact absurd rfl hc.1
  | aboveAll => exact absurd rfl hc.2
  | belowValue v => simp [ICut.of, ICut.compareTo, ICut.compareAt, ICut.endpoint, hn, bind, Except.bind]
  | aboveValue v => simp [ICut.of, ICut.compareTo, ICut.compareAt, ICut.endpoint, hn, bind, Except.bind]

theorem lt_raises {n m : Nat} (hn : n ≠ 0) {c : Cut T} (hc : IsValue c) :
    (ICut.of m c).lt (.belowAll n) = .error .valueError ∧ (ICut.of m c).lt (.aboveAll n) = .error .valueError := by
  unfold ICut.lt
  rw [(compareTo_raises hn hc).1, (compareTo_raises hn hc).2]
  exact ⟨rfl, rfl⟩

theorem le_raises {n m : Nat} (hn : n ≠ 0) {c : Cut T} (hc : IsValue c) :
    (ICut.of m c).le (.belowAll n) = .error .valueError ∧ (ICut.of m c).le (.aboveAll n) = .error .valueError := by
  unfold ICut.le
  rw [(compareTo_raises hn hc).1, (compareTo_raises hn hc).2]
  exact ⟨rfl, rfl⟩

theorem setState_raises {n : Nat} (hn : n ≠ 0) {r s : Range T} (rs : List (Range T)) (hr : r.lower = .belowAll) (hs : IsValue s.lower) :
    setState ((r :: s :: rs).map (IRange.of n)) = .error .valueError := by
  have e1 : (IRange.of n r).lower = .belowAll n := by simp [IRange.of, hr, ICut.of]
  have e2 : (IRange.of n s).lower.lt (.belowAll n) = .error .valueError := (lt_raises hn hs).1
  simp only [setState, List.map_cons, sortBack, insertBack, e1, e2, bind, Except.bind]

/-- In normal form only the first range can lack a lower bound. -/
theorem lower_value {rs : List (Range T)} (hn : Normal rs) {r : Range T} (hr : r ∈ rs) (h : r.hasLowerBound = true) : IsValue r.lower :=
  ⟨(hasLowerBound_iff r).1 h, ((Range.valid_iff r).1 (hn.valid hr)).2.1⟩

theorem tail_bounded {r : Range T} {rs : List (Range T)} (hn : Normal (r :: rs)) {s : Range T} (hs : s ∈ rs) : IsValue s.lower := by
  refine ⟨fun h => ?_, ((Range.valid_iff s).1 (hn.valid (by simp [hs]))).2.1⟩
  have := (List.pairwise_cons.1 hn.sep).1 s hs
  rw [h] at this
  exact absurd (Cut.belowAll_le r.upper) (not_le.2 this)

theorem containsSet_of {n : Nat} {rs : List (Range T)} (hn : Normal rs) (v : T) :
    contains (dictOf n (toD rs)) v = RangeSet.contains (toD rs) v := by
  unfold contains RangeSet.contains
  have : valueAtOrBelow (dictOf n (toD rs)) (.belowValue v) = _ :=
    valueAtOrBelow_of (n := n) (k := .belowValue v) hn.sorted (.inr ⟨by simp, by simp⟩)
  rw [this]
  cases Vista.valueAtOrBelow (toD rs) (.belowValue v) with
  | error e => rfl
  | ok o => cases o with
    | none => rfl
    | some r => simp [Except.map, bind, Except.bind, contains_of]

theorem setEq_of {n : Nat} (hn0 : n ≠ 0) {rs : List (Range T)} (hn : Normal rs) :
    setEq (dictOf n (toD rs)) (dictOf 0 (toD rs)) = true ↔ ∀ r ∈ rs, r.hasLowerBound = true ∧ r.hasUpperBound = true := by
  unfold setEq
  rw [asRanges_of, asRanges_of]
  simp only [Bool.and_eq_true, List.all_eq_true, List.any_eq_true, List.mem_map, forall_exists_index, and_imp,
    forall_apply_eq_imp_iff₂, exists_exists_and_eq_and]
  constructor
  · rintro ⟨h1, -⟩ r hr
    obtain ⟨s, -, hs⟩ := h1 r hr
    exact ((pyEq_crossRange hn0 (hn.valid hr) s).1.1 hs).2
  · intro h
    exact ⟨fun r hr => ⟨r, hr, (pyEq_crossRange hn0 (hn.valid hr) r).1.2 ⟨rfl, h r hr⟩⟩,
      fun r hr => ⟨r, hr, (pyEq_crossRange hn0 (hn.valid hr) r).2.2 ⟨rfl, h r hr⟩⟩⟩

/-- A range set cannot be unpickled (or deep-copied), but raises `ValueError`, exactly if it has two or more ranges of which one has no
lower bound.  Otherwise the result has copies of the same ranges in the same order and contains the same values; but it is equal to the
original exactly if all its ranges are bounded on both sides. -/
theorem C88_range_set (d : RDict T) (hd : Reachable d) (new : Nat → Nat) (hnew : new 0 ≠ 0) :
    (unpickleSet new (dictOf 0 d) = .error .valueError ↔
      2 ≤ (RangeSet.asRanges d).length ∧ ∃ r ∈ RangeSet.asRanges d, r.hasLowerBound = false) ∧
    (∀ e, unpickleSet new (dictOf 0 d) = .error e → e = .valueError) ∧
    ∀ d', unpickleSet new (dictOf 0 d) = .ok d' →
      asRanges d' = (RangeSet.asRanges d).map (fun r => (IRange.of 0 r).copy new) ∧
      (∀ v, contains d' v = RangeSet.contains d v) ∧
      (setEq d' (dictOf 0 d) = true ↔ ∀ r ∈ RangeSet.asRanges d, r.hasLowerBound = true ∧ r.hasUpperBound = true) := by
  obtain ⟨rs, rfl, hn⟩ := hd.normal
  rw [asRanges_toD]
  have he : unpickleSet new (dictOf 0 (toD rs)) = setState (rs.map (IRange.of (new 0))) := by
    unfold unpickleSet; rw [getState_of]
  rw [he]
  have key : (setState (rs.map (IRange.of (new 0))) = .ok (dictOf (new 0) (toD rs)) ∧
      ¬ (2 ≤ rs.length ∧ ∃ r ∈ rs, r.hasLowerBound = false)) ∨
      (setState (rs.map (IRange.of (new 0))) = .error .valueError ∧ 2 ≤ rs.length ∧ ∃ r ∈ rs, r.hasLowerBound = false) := by
    by_cases hall : ∀ r ∈ rs, r.hasLowerBound = true
    · left
      refine ⟨setState_of hn (.inr (.inr fun r hr => lower_value hn hr (hall r hr))), ?_⟩
      rintro ⟨-, r, hr, h⟩
      rw [hall r hr] at h; cases h
    · match rs, hn, hall with
      | [], _, hall => exact absurd (by simp) hall
      | [r], hn, _ => exact .inl ⟨setState_of hn (.inr (.inl (by simp))), by simp⟩
      | r :: s :: rs, hn, hall =>
        right
        have hr : r.hasLowerBound = false := by
          by_contra hc
          apply hall
          intro x hx
          rcases List.mem_cons.1 hx with rfl | hx
          · simpa using hc
          · exact (hasLowerBound_iff x).2 (tail_bounded hn hx).1
        refine ⟨setState_raises hnew rs ?_ (tail_bounded hn (by simp)), by simp, r, by simp, hr⟩
        by_contra hc
        rw [(hasLowerBound_iff r).2 hc] at hr; cases hr
  rcases key with ⟨h1, h2⟩ | ⟨h1, h2⟩
  · rw [h1]
    refine ⟨⟨fun h => (by cases h), fun h => absurd h h2⟩, fun e h => (by cases h), ?_⟩
    rintro d' ⟨⟩
    refine ⟨?_, containsSet_of hn, setEq_of hnew hn⟩
    rw [asRanges_of]
    apply List.map_congr_left
    intro r _
    exact (copy_ofRange new 0 r).symm
  · rw [h1]
    refine ⟨⟨fun _ => h2, fun _ => rfl⟩, fun e h => (by cases h; rfl), fun d' h => (by cases h)⟩

/-! ## Range maps -/

/-- The map of the main model, with instance `n` for the unbounded cuts: `n = 0` for a map made by the factory from ranges made by the
factories. -/
def mapOf (n : Nat) (m : RangeMap T V) : IMap T V := ⟨m.rngToVal.map fun e => (.of n e.1, e.2), dictOf n m.rangeSet⟩

theorem rangeContaining_of {n : Nat} {rs : List (Range T)} (hn : Normal rs) (v : T) :
    rangeContaining (dictOf n (toD rs)) v = (RangeSet.rangeContaining (toD rs) v).map (Option.map (IRange.of n)) := by
  unfold rangeContaining RangeSet.rangeContaining
  have : valueAtOrBelow (dictOf n (toD rs)) (.belowValue v) = _ :=
    valueAtOrBelow_of (n := n) (k := .belowValue v) hn.sorted (.inr ⟨by simp, by simp⟩)
  rw [this]
  cases Vista.valueAtOrBelow (toD rs) (.belowValue v) with
  | error e => rfl
  | ok o => cases o with
    | none => rfl
    | some r =>
      simp only [Except.map, bind, Except.bind, contains_of, Option.map_some]
      by_cases h : r.contains v = true
      · rw [if_pos h, if_pos h]; rfl
      · rw [if_neg h, if_neg h]; rfl

theorem find_of (n : Nat) (m : List (Range T × V)) (r : Range T) :
    ((m.map fun e => (IRange.of n e.1, e.2)).find? fun e => e.1.pyEq (.of n r)).map (·.2) = m.lookup r := by
  induction m with
  | nil => rfl
  | cons e m ih =>
    obtain ⟨a, v⟩ := e
    simp only [List.map_cons, List.find?_cons, List.lookup_cons, pyEq_ofRange]
    by_cases h : a = r
    · simp [h]
    · have : (r == a) = false := by simp [Ne.symm h]
      simp only [h, decide_false, this]
      exact ih

theorem getItem_of {n : Nat} {m : List (Range T × V)} {rs : List (Range T)} (hn : Normal rs) (k : T) :
    getItem (mapOf n ⟨m, toD rs⟩) k = (⟨m, toD rs⟩ : RangeMap T V).getItem k := by
  unfold getItem RangeMap.getItem
  simp only [mapOf, rangeContaining_of hn]
  cases RangeSet.rangeContaining (toD rs) k with
  | error e => rfl
  | ok o => cases o with
    | none => rfl
    | some r =>
      have := find_of n m r
      simp only [Except.map, bind, Except.bind, Option.map_some, RangeMap.lookupOpt, RangeMap.lookup]
      rw [← this]
      cases (m.map fun e => (IRange.of n e.1, e.2)).find? fun e => e.1.pyEq (.of n r) <;> rfl

theorem addUpper_raises {n : Nat} (hn : n ≠ 0) {d : RDict T} (hd : ∀ e ∈ d, IsValue e.1) {lb : Cut T} (hl : IsValue lb) :
    addUpper (dictOf 0 d) (.of 0 lb) (.aboveAll n) = .error .valueError := by
  unfold addUpper
  cases d with
  | nil =>
    simp [dictOf, valueAtOrBelow, extendUpper, clearRange, irange, bisectLeft, delAll, IRange.new, (le_raises hn hl).2, bind, Except.bind]
  | cons e d =>
    have := (lt_raises (m := 0) hn (hd e (by simp))).2
    simp [dictOf, valueAtOrBelow, bisectLeft, this, bind, Except.bind]

/-- A range with a lower but no upper bound, once unpickled, cannot be added to a set of bounded ranges. -/
theorem add_raises_above {n : Nat} (hn : n ≠ 0) {rs : List (Range T)} (hr : Normal rs) (hb : ∀ r ∈ rs, IsValue r.lower) {k : Range T}
    (hl : IsValue k.lower) (hu : k.upper = .aboveAll) : add (dictOf 0 (toD rs)) (.of n k) = .error .valueError := by
  have hd : ∀ e ∈ toD rs, IsValue e.1 := by
    intro e he
    obtain ⟨r, hr', rfl⟩ := List.mem_map.1 he
    exact hb r hr'
  have e1 : (IRange.of n k).lower = ICut.of 0 k.lower := of_eq_of hl
  have e2 : (IRange.of n k).upper = .aboveAll n := by simp [IRange.of, hu, ICut.of]
  have e3 : (IRange.of n k).isEmpty = false := by
    rw [isEmpty_of]
    have : ¬ k.isEmpty = true := by
      unfold Range.isEmpty
      rw [hu, Cut.pyEq_iff]
      exact hl.2
    simpa using this
  unfold add
  rw [e3, e1, e2, valueBelow_of hr.sorted (.inl rfl), valueBelow_toD hr]
  simp only [Except.map, bind, Except.bind]
  cases hf : (rs.filter fun r => decide (r.lower < k.lower)).getLast? with
  | none => simpa using addUpper_raises hn hd hl
  | some b =>
    have hbm : b ∈ rs := (List.mem_filter.1 (List.mem_of_getLast? hf)).1
    have hlt : (ICut.aboveAll n : ICut T).lt (IRange.of 0 b).upper = .ok false := by
      unfold ICut.lt
      simp only [ICut.compareTo, bind, Except.bind]
      split <;> simp
    simp only [Option.map_some]
    have hle : (ICut.of 0 k.lower).le (IRange.of 0 b).upper = _ := le_of' (.inl rfl)
    rw [hle]
    simp only
    have a1 := addUpper_raises hn hd hl
    have a2 : addUpper (dictOf 0 (toD rs)) (IRange.of 0 b).lower (.aboveAll n) = .error .valueError := addUpper_raises hn hd (hb b hbm)
    rw [hlt]
    simp only [a1, a2]
    by_cases hc : k.lower ≤ b.upper <;> simp [hc]

/-- A range without a lower bound, once unpickled, cannot be added to a set that has bounded ranges. -/
theorem add_raises_below {n : Nat} (hn : n ≠ 0) {r : Range T} {rs : List (Range T)} (hb : IsValue r.lower) {k : Range T}
    (hl : k.lower = .belowAll) (he : k.isEmpty = false) : add (dictOf 0 (toD (r :: rs))) (.of n k) = .error .valueError := by
  have e1 : (IRange.of n k).lower = .belowAll n := by simp [IRange.of, hl, ICut.of]
  unfold add
  rw [isEmpty_of, he, e1]
  have := (lt_raises (m := 0) hn hb).1
  simp [dictOf, toD, valueBelow, bisectLeft, this, bind, Except.bind]

/-- Added first, it can be. -/
theorem add_first {n : Nat} {k : Range T} (hv : k.Valid) (hl : k.lower = .belowAll) (he : k.isEmpty = false) :
    add [] (.of n k) = .ok (dictOf n (toD [k])) := by
  have e1 : (IRange.of n k).lower = .belowAll n := by simp [IRange.of, hl, ICut.of]
  have hu := ((Range.valid_iff k).1 hv).2.2
  have e2 : ∀ i, ¬ (IRange.of n k).upper = .belowAll i := by
    intro i
    obtain ⟨a, b⟩ := k
    cases b <;> simp_all [IRange.of, ICut.of]
  have hle : (ICut.belowAll n : ICut T).le (IRange.of n k).upper = .ok true := by
    simp [ICut.le, ICut.compareTo, e2, bind, Except.bind]
  have hnew : IRange.new (.belowAll n) (IRange.of n k).upper = .ok (.of n k) := by
    unfold IRange.new
    rw [hle]
    simp only [bind, Except.bind]
    have : (⟨.belowAll n, (IRange.of n k).upper⟩ : IRange T) = .of n k := by rw [← e1]
    simp [checkArg, e2, this]
  unfold add
  rw [isEmpty_of, he, e1]
  have hem : (IRange.of n k).isEmpty = false := by rw [isEmpty_of, he]
  simp [valueBelow, bisectLeft, addUpper, valueAtOrBelow, extendUpper, clearRange, irange, delAll, hnew, replaceRange, hem, set, insert,
    bind, Except.bind, dictOf, toD]
  rfl

/-- But then nothing else can. -/
theorem add_second {n : Nat} (hn : n ≠ 0) {k s : Range T} (hl : k.lower = .belowAll) (hkv : k.Valid)
    (hs : s.Valid) (hse : s.isEmpty = false) (hc : k.isConnected s = false) :
    add (dictOf n (toD [k])) (.of n s) = .error .valueError := by
  have hd : dictOf n (toD [k]) = [(.belowAll n, .of n k)] := by simp [dictOf, toD, hl, ICut.of]
  have hsv := (Range.valid_iff s).1 hs
  have hgt : k.upper < s.lower := by
    unfold Range.isConnected at hc
    rw [hl] at hc
    simpa using hc
  have hsl : IsValue s.lower := by
    refine ⟨fun h => ?_, hsv.2.1⟩
    rw [h] at hgt
    exact absurd (Cut.belowAll_le k.upper) (not_le.2 hgt)
  have hku : IsValue k.upper := by
    refine ⟨((Range.valid_iff k).1 hkv).2.2, fun h => ?_⟩
    rw [h] at hgt
    exact absurd (Cut.le_aboveAll s.lower) (not_le.2 hgt)
  have hbl : bisectLeft [((.belowAll n : ICut T), IRange.of n k)] (.of n s.lower) = .ok 1 := by
    have : (ICut.belowAll n : ICut T).lt (.of n s.lower) = .ok true := by
      have h := lt_of' (n := n) (a := (.belowAll : Cut T)) (b := s.lower) (.inr hsl)
      have hx : ((.belowAll : Cut T) < s.lower) := lt_of_le_of_ne (Cut.belowAll_le _) (Ne.symm hsl.1)
      simpa [hx, ICut.of] using h
    simp [bisectLeft, this, bind, Except.bind]
  have hbu : bisectLeft [((.belowAll n : ICut T), IRange.of n k)] (.of n s.upper) = .ok 1 := by
    have hne : ¬ ICut.of n s.upper = .belowAll n := by
      have := hsv.2.2
      cases h : s.upper <;> simp_all [ICut.of]
    have : (ICut.belowAll n : ICut T).lt (.of n s.upper) = .ok true := by
      simp [ICut.lt, ICut.compareTo, hne, bind, Except.bind]
    simp [bisectLeft, this, bind, Except.bind]
  have hget : get [((.belowAll n : ICut T), IRange.of n k)] (.belowAll n) = .ok (.of n k) := by
    simp [get, ICut.pyEq]
  have hup : addUpper [((.belowAll n : ICut T), IRange.of n k)] (.of n s.lower) (.of n s.upper) = .error .valueError := by
    have hext : (ICut.of n s.upper).lt (IRange.of n k).upper = .ok false := by
      have h := lt_of' (n := n) (a := s.upper) (b := k.upper) (.inr hku)
      have hx : ¬ s.upper < k.upper := not_lt.2 (hgt.le.trans hsv.1)
      simpa [hx, IRange.of] using h
    have hset : (IRange.of n s).isEmpty = false := by rw [isEmpty_of, hse]
    have hany : (ICut.belowAll n : ICut T).pyEq (ICut.of n s.lower) = false := by
      have := pyEq_of n (.belowAll : Cut T) s.lower
      simpa [ICut.of, Ne.symm hsl.1] using this
    have hins := (lt_raises (n := n) (m := n) hn hsl).1
    unfold addUpper
    simp only [valueAtOrBelow, List.isEmpty_cons, Bool.false_eq_true, if_false, hbu, bind, Except.bind, List.length_singleton, ge_iff_le,
      le_refl, if_true, gt_iff_lt, Nat.zero_lt_one, Nat.sub_self, keyAt, List.getElem?_cons_zero, hget, extendUpper, hext, clearRange,
      irange, hbl, delAll]
    cases hnw : IRange.new (ICut.of n s.lower) (ICut.of n s.upper) with
    | error e =>
      have : e = .valueError := by
        unfold IRange.new at hnw
        by_cases hv : IsValue s.upper
        · rw [le_of' (.inr hv)] at hnw
          simp only [bind, Except.bind, hsv.1, decide_true, checkArg, if_true] at hnw
          split at hnw
          · rename_i e' h'
            split at h'
            · cases h'
            · cases h'; cases hnw; rfl
          · split at hnw
            · rename_i e' h'
              split at h'
              · cases h'
              · cases h'; cases hnw; rfl
            · cases hnw
        · have hu : s.upper = .aboveAll := by
            by_contra hc
            exact hv ⟨hsv.2.2, hc⟩
          have hle := (le_raises (n := n) (m := n) hn hsl).2
          have hu' : ICut.of n s.upper = .aboveAll n := by rw [hu]; rfl
          rw [hu', hle] at hnw
          cases hnw; rfl
      subst this
      simp
    | ok r =>
      have hr : r = .of n s := by
        unfold IRange.new at hnw
        simp only [bind, Except.bind] at hnw
        split at hnw
        · cases hnw
        · split at hnw
          · cases hnw
          · split at hnw
            · cases hnw
            · split at hnw
              · cases hnw
              · cases hnw; rfl
      subst hr
      have hlow : (IRange.of n s).lower = ICut.of n s.lower := rfl
      simp [replaceRange, hset, set, hlow, hany, insert, hins, bind, Except.bind]
  unfold add
  rw [isEmpty_of, hse, hd]
  have hlow : (IRange.of n s).lower = ICut.of n s.lower := rfl
  have hupp : (IRange.of n s).upper = ICut.of n s.upper := rfl
  have hle : (ICut.of n s.lower).le (IRange.of n k).upper = .ok false := by
    have h := le_of' (n := n) (a := s.lower) (b := k.upper) (.inr hku)
    have hx : ¬ s.lower ≤ k.upper := not_le.2 hgt
    simpa [hx, IRange.of] using h
  simp [valueBelow, hlow, hupp, hbl, keyAt, hget, hle, hup, bind, Except.bind]


theorem addAll_append (d : IDict T) (xs ys : List (IRange T)) :
    addAll d (xs ++ ys) = (addAll d xs).bind fun d' => addAll d' ys := by
  induction xs generalizing d with
  | nil => rfl
  | cons x xs ih =>
    simp only [List.cons_append, addAll, bind, Except.bind]
    cases add d x with
    | error e => rfl
    | ok d' => exact ih d'

theorem of_bounded {n : Nat} {r : Range T} (hv : r.Valid) (hl : r.hasLowerBound = true) (hu : r.hasUpperBound = true) :
    IRange.of n r = .of 0 r := by
  have h := (Range.valid_iff r).1 hv
  have h1 : IsValue r.lower := ⟨(hasLowerBound_iff r).1 hl, h.2.1⟩
  have h2 : IsValue r.upper := ⟨h.2.2, (hasUpperBound_iff r).1 hu⟩
  unfold IRange.of
  rw [of_eq_of h1, of_eq_of h2]

theorem ofs_bounded {n : Nat} {ks : List (Range T)} (hv : ∀ k ∈ ks, k.Valid)
    (hb : ∀ k ∈ ks, k.hasLowerBound = true ∧ k.hasUpperBound = true) : ks.map (IRange.of n) = ks.map (IRange.of 0) :=
  List.map_congr_left fun k hk => of_bounded (hv k hk) (hb k hk).1 (hb k hk).2

/-- The first range without some bound, and what comes before it. -/
theorem first_unbounded : ∀ {ks : List (Range T)}, ¬ (∀ k ∈ ks, k.hasLowerBound = true ∧ k.hasUpperBound = true) →
    ∃ pre k post, ks = pre ++ k :: post ∧ (∀ x ∈ pre, x.hasLowerBound = true ∧ x.hasUpperBound = true) ∧
      ¬ (k.hasLowerBound = true ∧ k.hasUpperBound = true)
  | [], h => absurd (by simp) h
  | k :: ks, h => by
    by_cases hk : k.hasLowerBound = true ∧ k.hasUpperBound = true
    · obtain ⟨pre, x, post, h1, h2, h3⟩ := first_unbounded (ks := ks) (fun hc => h (by
        intro y hy
        rcases List.mem_cons.1 hy with rfl | hy
        · exact hk
        · exact hc y hy))
      refine ⟨k :: pre, x, post, by rw [h1]; rfl, ?_, h3⟩
      intro y hy
      rcases List.mem_cons.1 hy with rfl | hy
      · exact hk
      · exact h2 y hy
    · exact ⟨[], k, ks, rfl, by simp, hk⟩

/-- Adding copies of ranges that are not empty and not connected. -/
theorem addAll_copies {n : Nat} (hn : n ≠ 0) {ks : List (Range T)} (hv : ∀ k ∈ ks, k.Valid) (he : ∀ k ∈ ks, k.isEmpty = false)
    (hp : ks.Pairwise fun a b => a.isConnected b = false) (d : RDict T) (hd : RangeSet.addAll (toD []) ks = .ok d) :
    (((∀ k ∈ ks, k.hasLowerBound = true ∧ k.hasUpperBound = true) ∨ ∃ k, ks = [k] ∧ k.hasLowerBound = false) ∧
      addAll [] (ks.map (IRange.of n)) = .ok (dictOf n d)) ∨
    (¬ ((∀ k ∈ ks, k.hasLowerBound = true ∧ k.hasUpperBound = true) ∨ ∃ k, ks = [k] ∧ k.hasLowerBound = false) ∧
      addAll [] (ks.map (IRange.of n)) = .error .valueError) := by
  by_cases hall : ∀ k ∈ ks, k.hasLowerBound = true ∧ k.hasUpperBound = true
  · left
    refine ⟨.inl hall, ?_⟩
    obtain ⟨rs', h1, h2, h3, h4, h5⟩ := addAll_count ks hv (normal_nil (T := T))
    have h0 : addAll (dictOf 0 (toD [])) (ks.map (IRange.of 0)) = (RangeSet.addAll (toD []) ks).map (dictOf 0) :=
      addAll_of ks hv normal_nil
    rw [ofs_bounded hv hall]
    have e : dictOf 0 (toD ([] : List (Range T))) = [] := rfl
    rw [e, h1] at h0
    rw [h0]
    rw [h1] at hd
    cases hd
    have hperm := h5 (h4.2 ⟨he, hp, by simp⟩)
    have hb : ∀ r ∈ rs', r ∈ ks := fun r hr => by simpa using hperm.mem_iff.1 hr
    have : dictOf n (toD rs') = dictOf 0 (toD rs') := by
      unfold dictOf toD
      rw [List.map_map, List.map_map]
      apply List.map_congr_left
      intro r hr
      have hrk := hb r hr
      have h := of_bounded (n := n) (hv r hrk) (hall r hrk).1 (hall r hrk).2
      have hlo : (IRange.of n r).lower = (IRange.of 0 r).lower := by rw [h]
      show (ICut.of n r.lower, IRange.of n r) = (ICut.of 0 r.lower, IRange.of 0 r)
      rw [h]
      exact congrArg (·, IRange.of 0 r) hlo
    rw [this]
    rfl
  · obtain ⟨pre, k, post, rfl, hpre, hk⟩ := first_unbounded hall
    have hvk := hv k (by simp)
    have hek := he k (by simp)
    have hkv := (Range.valid_iff k).1 hvk
    have hpv : ∀ x ∈ pre, x.Valid := fun x hx => hv x (by simp [hx])
    obtain ⟨rs', h1, h2, h3, h4, h5⟩ := addAll_count pre hpv (normal_nil (T := T))
    have h0 : addAll [] (pre.map (IRange.of n)) = .ok (dictOf 0 (toD rs')) := by
      rw [ofs_bounded hpv hpre]
      have : addAll (dictOf 0 (toD [])) (pre.map (IRange.of 0)) = (RangeSet.addAll (toD []) pre).map (dictOf 0) :=
        addAll_of pre hpv normal_nil
      rw [h1] at this
      exact this
    have hperm := h5 (h4.2 ⟨fun x hx => he x (by simp [hx]), (List.pairwise_append.1 hp).1, by simp⟩)
    have hb : ∀ r ∈ rs', IsValue r.lower := by
      intro r hr
      have : r ∈ pre := by simpa using hperm.mem_iff.1 hr
      exact ⟨(hasLowerBound_iff r).1 (hpre r this).1, ((Range.valid_iff r).1 (hpv r this)).2.1⟩
    rw [List.map_append, List.map_cons, addAll_append, h0]
    show _ ∧ addAll _ _ = _ ∨ _ ∧ addAll _ _ = _
    by_cases hkl : k.hasLowerBound = true
    · -- no upper bound
      right
      have hku : k.upper = .aboveAll := by
        by_contra hc
        exact hk ⟨hkl, (hasUpperBound_iff k).2 hc⟩
      constructor
      · rintro (hc | ⟨x, hx, hxl⟩)
        · exact hall hc
        · have : k = x := by
            have : k ∈ [x] := hx ▸ (by simp)
            simpa using this
          rw [this, hxl] at hkl; cases hkl
      · simp only [addAll, add_raises_above hn h2 hb ⟨(hasLowerBound_iff k).1 hkl, hkv.2.1⟩ hku, bind, Except.bind]
    · have hkl' : k.lower = .belowAll := by
        by_contra hc
        exact hkl ((hasLowerBound_iff k).2 hc)
      have hklf : k.hasLowerBound = false := by simpa using hkl
      match rs', hb, hperm with
      | r :: rs', hb, hperm =>
        right
        constructor
        · rintro (hc | ⟨x, hx, hxl⟩)
          · exact hall hc
          · have hlen := congrArg List.length hx
            have := hperm.length_eq
            simp at hlen this
            omega
        · simp only [addAll, add_raises_below hn (hb r (by simp)) hkl' hek, bind, Except.bind]
      | [], hb, hperm =>
        have hpn : pre = [] := by simpa using hperm
        subst hpn
        have e0 : dictOf 0 (toD ([] : List (Range T))) = [] := rfl
        cases post with
        | nil =>
          left
          refine ⟨.inr ⟨k, rfl, hklf⟩, ?_⟩
          simp only [List.map_nil, addAll, e0, add_first hvk hkl' hek, bind, Except.bind]
          have hkd : RangeSet.addAll (toD []) [k] = .ok (toD [k]) := by
            obtain ⟨r1, g1, -, -, g4, g5⟩ := addAll_count [k] (by simpa using hvk) (normal_nil (T := T))
            have := g5 (g4.2 ⟨by simpa using hek, by simp, by simp⟩)
            simp at this
            rw [g1, this]
          rw [List.nil_append, hkd] at hd
          cases hd
          rfl
        | cons s post =>
          right
          constructor
          · rintro (hc | ⟨x, hx, hxl⟩)
            · exact hall hc
            · simp at hx
          · have hc : k.isConnected s = false := by
              rw [List.nil_append, List.pairwise_cons] at hp
              exact hp.1 s (by simp)
            simp only [List.map_cons, addAll, e0, add_first hvk hkl' hek, bind, Except.bind,
              add_second hn hkl' hvk (hv s (by simp)) (he s (by simp)) hc]

/-- Is every key bounded on both sides? -/
def AllBounded (m : List (Range T × V)) : Prop := ∀ e ∈ m, e.1.hasLowerBound = true ∧ e.1.hasUpperBound = true

/-- A range map can be unpickled (or deep-copied) exactly if all its keys are bounded on both sides, or it has a single key and that has no
lower bound; otherwise `ValueError` is raised.  The result has copies of the items in the same order and looks up the same values; but it is
equal to the original exactly if all keys are bounded on both sides. -/
theorem C88_range_map [DecidableEq V] (m : List (Range T × V)) (hm : IsMapping m) (rm : RangeMap T V) (h : RangeMap.new m = .ok rm)
    (new : Nat → Nat) (hnew : new 0 ≠ 0) :
    ((∃ m', unpickleMap new (mapOf 0 rm) = .ok m') ↔ AllBounded m ∨ ∃ r v, m = [(r, v)] ∧ r.hasLowerBound = false) ∧
    (∀ e, unpickleMap new (mapOf 0 rm) = .error e → e = .valueError) ∧
    ∀ m', unpickleMap new (mapOf 0 rm) = .ok m' →
      m'.rngToVal = m.map (fun e => ((IRange.of 0 e.1).copy new, e.2)) ∧
      (∀ k, getItem m' k = rm.getItem k) ∧
      (mapEq m' (mapOf 0 rm) = true ↔ AllBounded m) := by
  obtain ⟨rs, hrm, hn, hperm⟩ := RangeMap.new_ok hm h
  subst hrm
  obtain ⟨d, hd, hl⟩ : ∃ d, RangeSet.addAll (toD []) (m.map (·.1)) = .ok d ∧ d = toD rs := by
    unfold RangeMap.new at h
    have e : RangeSet.create = toD ([] : List (Range T)) := rfl
    rw [e] at h
    cases hx : RangeSet.addAll (toD []) (m.map (·.1)) with
    | error e => rw [hx] at h; cases h
    | ok d =>
      rw [hx] at h
      simp only [bind, Except.bind] at h
      split at h
      · cases h
      · injection h with h
        injection h with h1 h2
        exact ⟨d, rfl, h2⟩
  subst hl
  obtain ⟨he, hp⟩ : (∀ k ∈ m.map (·.1), k.isEmpty = false) ∧ (m.map (·.1)).Pairwise fun a b => a.isConnected b = false := by
    obtain ⟨rs', h1, -, -, h4, -⟩ := addAll_count (m.map (·.1)) hm.valid (normal_nil (T := T))
    rw [h1] at hd
    have : rs' = rs := by
      have hd' : toD rs' = toD rs := by injection hd
      have := congrArg RangeSet.asRanges hd'
      rwa [asRanges_toD, asRanges_toD] at this
    subst this
    have := h4.1 (by simpa using hperm.length_eq)
    exact ⟨this.1, this.2.1⟩
  have hall : (∀ k ∈ m.map (·.1), k.hasLowerBound = true ∧ k.hasUpperBound = true) ↔ AllBounded m := by
    unfold AllBounded
    simp only [List.forall_mem_map]
  have hone : (∃ k, m.map (·.1) = [k] ∧ k.hasLowerBound = false) ↔ ∃ r v, m = [(r, v)] ∧ r.hasLowerBound = false := by
    constructor
    · rintro ⟨k, hk, hb⟩
      match m, hk with
      | [(r, v)], hk =>
        simp at hk
        exact ⟨r, v, rfl, hk ▸ hb⟩
    · rintro ⟨r, v, rfl, hb⟩
      exact ⟨r, rfl, hb⟩
  have hun : unpickleMap new (mapOf 0 ⟨m, toD rs⟩) = newMap (m.map fun e => (IRange.of (new 0) e.1, e.2)) := by
    unfold unpickleMap
    have hlen : (dictOf 0 (toD rs)).length = m.length := by simpa [dictOf, toD] using hperm.length_eq
    by_cases hz : m.length = 0
    · have : m = [] := List.length_eq_zero_iff.1 hz
      subst this
      simp [mapOf]
    · have e : (mapOf 0 (⟨m, toD rs⟩ : RangeMap T V)).rangeSet = dictOf 0 (toD rs) := rfl
      rw [e, hlen, if_neg hz]
      simp only [mapOf, List.map_map]
      congr 1
      apply List.map_congr_left
      intro e _
      simp [copy_ofRange]
  have hkeys : (m.map fun e => (IRange.of (new 0) e.1, e.2)).map (·.1) = (m.map (·.1)).map (IRange.of (new 0)) := by
    simp [Function.comp]
  rw [hun]
  unfold newMap
  rw [hkeys]
  have hlen : (m.map fun e => (IRange.of (new 0) e.1, e.2)).length = (dictOf (new 0) (toD rs)).length := by
    simpa [dictOf, toD] using hperm.length_eq.symm
  rcases addAll_copies hnew hm.valid he hp _ hd with ⟨hc, ha⟩ | ⟨hc, ha⟩
  · rw [hall, hone] at hc
    rw [ha]
    simp only [bind, Except.bind, ne_eq, hlen, not_true, if_false]
    refine ⟨⟨fun _ => hc, fun _ => ⟨_, rfl⟩⟩, fun e h => (by cases h), ?_⟩
    rintro m' ⟨⟩
    refine ⟨?_, fun k => getItem_of hn k, ?_⟩
    · apply List.map_congr_left
      intro e _
      rw [copy_ofRange]
    · have hset := setEq_of hnew hn
      have hrs : (∀ r ∈ rs, r.hasLowerBound = true ∧ r.hasUpperBound = true) ↔ AllBounded m := by
        rw [← hall]
        exact ⟨fun h k hk => h k (hperm.mem_iff.2 hk), fun h r hr => h r (hperm.mem_iff.1 hr)⟩
      rw [hrs] at hset
      unfold mapEq
      simp only [Bool.and_eq_true, mapOf]
      rw [hset]
      refine ⟨fun h => h.2, fun hb => ⟨⟨by simp, ?_⟩, hb⟩⟩
      simp only [List.all_eq_true, List.any_eq_true, List.mem_map]
      rintro x ⟨e, hem, rfl⟩
      refine ⟨_, ⟨e, hem, rfl⟩, ?_⟩
      have := of_bounded (n := new 0) (hm.valid e.1 (List.mem_map.2 ⟨e, hem, rfl⟩)) (hb e hem).1 (hb e hem).2
      simp [this, pyEq_ofRange]
  · rw [hall, hone] at hc
    rw [ha]
    simp only [bind, Except.bind]
    refine ⟨⟨fun ⟨_, h⟩ => (by cases h), fun h => absurd h hc⟩, fun e h => (by cases h; rfl), fun d' h => (by cases h)⟩

/-! ## Concrete cases -/

/-- `Range.at_least(5)`. -/
def exRange : Range Int := ⟨.belowValue 5, .aboveAll⟩
/-- `{(-∞, 3), [5, 7]}`. -/
def exSet : RDict Int := [(.belowAll, ⟨.belowAll, .belowValue 3⟩), (.belowValue 5, ⟨.belowValue 5, .aboveValue 7⟩)]
/-- Keys `[5, 7]` and `(9, 11)`. -/
def exBounded : List (Range Int × Nat) := [(⟨.belowValue 5, .aboveValue 7⟩, 1), (⟨.aboveValue 9, .belowValue 11⟩, 2)]
/-- The key `(-∞, 3)`. -/
def exBelow : List (Range Int × Nat) := [(⟨.belowAll, .belowValue 3⟩, 1)]
/-- The key `[5, ∞)`. -/
def exAbove : List (Range Int × Nat) := [(⟨.belowValue 5, .aboveAll⟩, 1)]

example : exRange.Valid ∧ exRange.hasLowerBound = true ∧ exRange.hasUpperBound = false ∧ exRange.contains 1000 = true ∧
    ((IRange.of 0 exRange).copy (· + 1)).contains 1000 = true ∧ ((IRange.of 0 exRange).copy (· + 1)).pyEq (.of 0 exRange) = false ∧
    ((IRange.of 0 exRange).copy (· + 1)).hasUpperBound = true := by
  refine ⟨?_, by decide +kernel, by decide +kernel, by decide +kernel, by decide +kernel, by decide +kernel, by decide +kernel⟩
  decide +kernel

example : Reachable exSet ∧ unpickleSet (· + 1) (dictOf 0 exSet) = .error .valueError := by
  constructor
  · exact ⟨[.add ⟨.belowValue 5, .aboveValue 7⟩, .add ⟨.belowAll, .belowValue 3⟩], by
      unfold ValidOps
      simp only [List.mem_cons, List.not_mem_nil, or_false, forall_eq_or_imp, forall_eq, RsOp.ranges]
      decide +kernel, by decide +kernel⟩
  · decide +kernel

example : IsMapping exBounded ∧ (∃ rm, RangeMap.new exBounded = .ok rm ∧ (unpickleMap (· + 1) (mapOf 0 rm)).isOk = true) ∧ AllBounded exBounded := by
  refine ⟨⟨by decide +kernel, by decide +kernel⟩, ⟨_, rfl, by decide +kernel⟩, ?_⟩
  unfold AllBounded; decide +kernel

example : IsMapping exBelow ∧ (∃ rm, RangeMap.new exBelow = .ok rm ∧ (unpickleMap (· + 1) (mapOf 0 rm)).isOk = true) :=
  ⟨⟨by decide +kernel, by decide +kernel⟩, ⟨_, rfl, by decide +kernel⟩⟩

example : IsMapping exAbove ∧ (∃ rm, RangeMap.new exAbove = .ok rm ∧ (unpickleMap (· + 1) (mapOf 0 rm)).isOk = false) :=
  ⟨⟨by decide +kernel, by decide +kernel⟩, ⟨_, rfl, by decide +kernel⟩⟩

end Pickled
end Vista
