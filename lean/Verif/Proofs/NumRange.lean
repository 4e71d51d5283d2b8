import Verif.Spec.NumRange
import Verif.Proofs.RangeSetHistory

set_option linter.unusedSectionVars false
set_option linter.unusedSimpArgs false
set_option linter.unusedVariables false

/-! # Ranges of numbers do what the ranges they stand for do -/
namespace Vista
namespace Numeric

/-! ## Related lists -/
section lists
variable {α β : Type} {rel : α → β → Prop}

theorem countP_rel {p : α → Bool} {q : β → Bool} (h : ∀ a b, rel a b → p a = q b) {l : List α} {L : List β} (hl : List.Forall₂ rel l L) :
    l.countP p = L.countP q := by
  induction hl with
  | nil => rfl
  | cons h1 _ ih => simp [List.countP_cons, ih, h _ _ h1]

theorem any_rel {p : α → Bool} {q : β → Bool} (h : ∀ a b, rel a b → p a = q b) {l : List α} {L : List β} (hl : List.Forall₂ rel l L) :
    l.any p = L.any q := by
  induction hl with
  | nil => rfl
  | cons h1 _ ih => simp [ih, h _ _ h1]

theorem filter_rel {p : α → Bool} {q : β → Bool} (h : ∀ a b, rel a b → p a = q b) {l : List α} {L : List β} (hl : List.Forall₂ rel l L) :
    List.Forall₂ rel (l.filter p) (L.filter q) := by
  induction hl with
  | nil => exact .nil
  | @cons a b _ _ h1 _ ih =>
    simp only [List.filter_cons, h _ _ h1]
    by_cases hq : q b = true
    · simp only [hq, if_true]; exact .cons h1 ih
    · simp only [hq, if_false, Bool.false_eq_true]; exact ih

theorem find_rel {p : α → Bool} {q : β → Bool} (h : ∀ a b, rel a b → p a = q b) {l : List α} {L : List β} (hl : List.Forall₂ rel l L) :
    SameOption rel (l.find? p) (L.find? q) := by
  induction hl with
  | nil => trivial
  | @cons a b _ _ h1 _ ih =>
    simp only [List.find?_cons, h _ _ h1]
    cases q b with
    | true => exact h1
    | false => exact ih

theorem findIdx_rel {p : α → Bool} {q : β → Bool} (h : ∀ a b, rel a b → p a = q b) {l : List α} {L : List β} (hl : List.Forall₂ rel l L) :
    l.findIdx? p = L.findIdx? q := by
  induction hl with
  | nil => rfl
  | cons h1 _ ih => simp [List.findIdx?_cons, ih, h _ _ h1]

theorem getElem_rel {l : List α} {L : List β} (hl : List.Forall₂ rel l L) (i : Nat) : SameOption rel l[i]? L[i]? := by
  induction hl generalizing i with
  | nil => trivial
  | cons h1 _ ih =>
    cases i with
    | zero => exact h1
    | succ i => simpa using ih i

theorem map_rel {γ δ : Type} {rel' : γ → δ → Prop} {f : α → γ} {g : β → δ} (h : ∀ a b, rel a b → rel' (f a) (g b)) {l : List α} {L : List β}
    (hl : List.Forall₂ rel l L) : List.Forall₂ rel' (l.map f) (L.map g) := by
  induction hl with
  | nil => exact .nil
  | cons h1 _ ih => exact .cons (h _ _ h1) ih

theorem drop_rel {l : List α} {L : List β} (hl : List.Forall₂ rel l L) (n : Nat) : List.Forall₂ rel (l.drop n) (L.drop n) :=
  List.forall₂_drop n hl

theorem same_bind {γ δ : Type} {rel' : γ → δ → Prop} {x : Res α} {y : Res β} {f : α → Res γ} {g : β → Res δ} (h : Same rel x y)
    (hf : ∀ a b, rel a b → Same rel' (f a) (g b)) : Same rel' (x >>= f) (y >>= g) := by
  cases x <;> cases y
  · exact h
  · exact h.elim
  · exact h.elim
  · exact hf _ _ h

theorem same_eq {x y : Res α} (h : x = y) : Same (fun a b => a = b) x y := by
  subst h; cases x <;> rfl

theorem same_eq_iff {x y : Res α} : Same (fun a b => a = b) x y ↔ x = y := by
  refine ⟨fun h => ?_, same_eq⟩
  cases x <;> cases y
  · exact congrArg Except.error h
  · exact h.elim
  · exact h.elim
  · exact congrArg Except.ok h

end lists

variable {V T : Type} [LinearOrder T] {num : V → Option T}

/-! ## Cuts -/

theorem less_eq {x y : V} {a b : T} (hx : num x = some a) (hy : num y = some b) : less num x y = decide (a < b) := by simp [less, hx, hy]
theorem equal_eq {x y : V} {a b : T} (hx : num x = some a) (hy : num y = some b) : equal num x y = decide (a = b) := by simp [equal, hx, hy]

theorem compareValues_eq (s o : Bool) {x y : V} {a b : T} (hx : num x = some a) (hy : num y = some b) :
    Cut.compareValues num s o x y = Vista.Cut.compareValues s o a b := by
  simp [Cut.compareValues, Vista.Cut.compareValues, less_eq hx hy, less_eq hy hx]

theorem compareTo_eq {a b : Vista.Cut V} {A B : Vista.Cut T} (ha : CutMeans num a A) (hb : CutMeans num b B) :
    Cut.compareTo num a b = A.compareTo B := by
  cases a <;> cases A <;> first | exact ha.elim | skip
  all_goals
    cases b <;> cases B <;> first | exact hb.elim | skip
  all_goals first | rfl | exact compareValues_eq _ _ ha hb

theorem lt_eq {a b : Vista.Cut V} {A B : Vista.Cut T} (ha : CutMeans num a A) (hb : CutMeans num b B) :
    Cut.lt num a b = decide (A < B) := by
  simp only [Cut.lt, compareTo_eq ha hb]; rfl

theorem le_eq {a b : Vista.Cut V} {A B : Vista.Cut T} (ha : CutMeans num a A) (hb : CutMeans num b B) :
    Cut.le num a b = decide (A ≤ B) := by
  simp only [Cut.le, compareTo_eq ha hb]; rfl

theorem pyEq_eq {a b : Vista.Cut V} {A B : Vista.Cut T} (ha : CutMeans num a A) (hb : CutMeans num b B) :
    Cut.pyEq num a b = A.pyEq B := by
  cases a <;> cases A <;> first | exact ha.elim | skip
  all_goals
    cases b <;> cases B <;> first | exact hb.elim | skip
  all_goals first | rfl | exact equal_eq ha hb

theorem pyEq_eq_decide {a b : Vista.Cut V} {A B : Vista.Cut T} (ha : CutMeans num a A) (hb : CutMeans num b B) :
    Cut.pyEq num a b = decide (A = B) := by
  rw [pyEq_eq ha hb]
  cases A <;> cases B <;> simp [Vista.Cut.pyEq, Vista.Cut.compareTo]

theorem isLessThan_eq {a : Vista.Cut V} {A : Vista.Cut T} (ha : CutMeans num a A) {v : V} {t : T} (hv : num v = some t) :
    Cut.isLessThan num a v = A.isLessThan t := by
  cases a <;> cases A <;> first | exact ha.elim | skip
  · rfl
  · simp [Cut.isLessThan, Vista.Cut.isLessThan, less_eq ha hv, equal_eq ha hv]
  · simp [Cut.isLessThan, Vista.Cut.isLessThan, less_eq ha hv, equal_eq ha hv]
  · rfl

theorem isAboveAll_eq {a : Vista.Cut V} {A : Vista.Cut T} (ha : CutMeans num a A) : Cut.isAboveAll a = decide (A = .aboveAll) := by
  cases a <;> cases A <;> first | exact ha.elim | skip
  all_goals simp [Cut.isAboveAll]

theorem isBelowAll_eq {a : Vista.Cut V} {A : Vista.Cut T} (ha : CutMeans num a A) : Cut.isBelowAll a = decide (A = .belowAll) := by
  cases a <;> cases A <;> first | exact ha.elim | skip
  all_goals simp [Cut.isBelowAll]

theorem not_lt_decide (A B : Vista.Cut T) : (!decide (A < B)) = decide (B ≤ A) := by
  rw [Bool.eq_iff_iff, Bool.not_eq_true', decide_eq_false_iff_not, decide_eq_true_iff]
  exact not_lt

/-! ## Ranges -/

theorem new_same {a b : Vista.Cut V} {A B : Vista.Cut T} (ha : CutMeans num a A) (hb : CutMeans num b B) :
    Same (Means num) (Range.new num a b) (Vista.Range.new A B) := by
  refine same_bind (same_eq (by rw [le_eq ha hb])) fun _ _ _ => same_bind (same_eq (by rw [isAboveAll_eq ha]; simp)) fun _ _ _ =>
    same_bind (same_eq (by rw [isBelowAll_eq hb]; simp)) fun _ _ _ => ⟨ha, hb⟩

section ranges
variable {r s : Vista.Range V} {R S : Vista.Range T} (hr : Means num r R) (hs : Means num s S)
include hr

theorem contains_eq {v : V} {t : T} (hv : num v = some t) : Range.contains num r v = R.contains t := by
  simp [Range.contains, Vista.Range.contains, isLessThan_eq hr.lower hv, isLessThan_eq hr.upper hv]

theorem isEmpty_eq : Range.isEmpty num r = R.isEmpty := pyEq_eq hr.lower hr.upper

include hs

theorem encloses_eq : Range.encloses num r s = R.encloses S := by
  simp [Range.encloses, Vista.Range.encloses, compareTo_eq hr.lower hs.lower, compareTo_eq hr.upper hs.upper]

theorem isConnected_eq : Range.isConnected num r s = R.isConnected S := by
  simp [Range.isConnected, Vista.Range.isConnected, le_eq hr.lower hs.upper, le_eq hs.lower hr.upper]

theorem range_pyEq_eq : Range.pyEq num r s = R.pyEq S := by
  simp [Range.pyEq, Vista.Range.pyEq, pyEq_eq hr.lower hs.lower, pyEq_eq hr.upper hs.upper]

theorem span_same : Same (Means num) (Range.span num r s) (R.span S) := by
  simp only [Range.span, Vista.Range.span, compareTo_eq hr.lower hs.lower, compareTo_eq hr.upper hs.upper]
  split
  · exact hr
  · split
    · exact hs
    · apply new_same
      · split; exacts [hr.lower, hs.lower]
      · split; exacts [hr.upper, hs.upper]

theorem intersection_same : Same (Means num) (Range.intersection num r s) (R.intersection S) := by
  simp only [Range.intersection, Vista.Range.intersection, compareTo_eq hr.lower hs.lower, compareTo_eq hr.upper hs.upper]
  split
  · exact hr
  · split
    · exact hs
    · apply new_same
      · split; exacts [hr.lower, hs.lower]
      · split; exacts [hr.upper, hs.upper]

theorem intersects_eq : Range.intersects num r s = R.intersects S := by
  simp only [Range.intersects, Vista.Range.intersects, compareTo_eq hr.lower hs.lower, compareTo_eq hr.upper hs.upper]
  split
  · rfl
  · split
    · rfl
    · apply le_eq
      · split; exacts [hr.lower, hs.lower]
      · split; exacts [hr.upper, hs.upper]

end ranges

/-! ## The sorted dictionary -/

/-- Entries that stand for entries. -/
def EntryMeans (num : V → Option T) (e : Vista.Cut V × Vista.Range V) (E : Vista.Cut T × Vista.Range T) : Prop :=
  CutMeans num e.1 E.1 ∧ Means num e.2 E.2

/-- A dictionary that stands for one. -/
abbrev DictMeans (num : V → Option T) (d : Dict V) (D : RDict T) : Prop := List.Forall₂ (EntryMeans num) d D

section dicts
variable {d : Dict V} {D : RDict T} (hd : DictMeans num d D)
include hd

theorem length_eq : d.length = D.length := hd.length_eq

theorem isEmptyList_eq : d.isEmpty = D.isEmpty := by cases hd <;> rfl

theorem bisectLeft_eq {k : Vista.Cut V} {K : Vista.Cut T} (hk : CutMeans num k K) : bisectLeft num d k = SortedDict.bisectLeft D K :=
  countP_rel (fun _ _ h => lt_eq h.1 hk) hd

theorem bisect_eq {k : Vista.Cut V} {K : Vista.Cut T} (hk : CutMeans num k K) : bisect num d k = SortedDict.bisect D K :=
  countP_rel (fun a b h => by rw [lt_eq hk h.1]; exact not_lt_decide _ _) hd

theorem keyAt_same (i : Nat) : Same (CutMeans num) (keyAt d i) (SortedDict.keyAt D i) := by
  have := getElem_rel hd i
  unfold keyAt SortedDict.keyAt
  cases h1 : d[i]? <;> cases h2 : D[i]? <;> rw [h1, h2] at this
  · rfl
  · exact this.elim
  · exact this.elim
  · exact this.1

theorem valueAt_same (i : Nat) : Same (Means num) (valueAt d i) (SortedDict.valueAt D i) := by
  have := getElem_rel hd i
  unfold valueAt SortedDict.valueAt
  cases h1 : d[i]? <;> cases h2 : D[i]? <;> rw [h1, h2] at this
  · rfl
  · exact this.elim
  · exact this.elim
  · exact this.2

theorem get_same {k : Vista.Cut V} {K : Vista.Cut T} (hk : CutMeans num k K) : Same (Means num) (get num d k) (SortedDict.get D K) := by
  unfold get SortedDict.get
  induction hd with
  | nil => rfl
  | @cons e E _ _ h1 _ ih =>
    obtain ⟨E1, E2⟩ := E
    simp only [List.find?_cons, pyEq_eq_decide hk h1.1, List.lookup_cons]
    by_cases hK : K = E1
    · subst hK; simp only [decide_true, beq_self_eq_true]; exact h1.2
    · simp only [hK, decide_false, beq_eq_false_iff_ne.2 hK]; exact ih

theorem index_eq {k : Vista.Cut V} {K : Vista.Cut T} (hk : CutMeans num k K) : index num d k = SortedDict.index D K := by
  unfold index SortedDict.index
  rw [findIdx_rel (q := fun E => decide (E.1 = K)) (fun a b h => pyEq_eq_decide h.1 hk) hd]
  congr!

theorem irange_rel {a b : Vista.Cut V} {A B : Vista.Cut T} (ha : CutMeans num a A) (hb : CutMeans num b B) :
    List.Forall₂ (CutMeans num) (irange num d a b) (SortedDict.irange D A B) :=
  map_rel (fun _ _ h => h.1) (filter_rel (fun x y h => by rw [lt_eq h.1 ha, lt_eq h.1 hb, not_lt_decide]) hd)

theorem del_same {k : Vista.Cut V} {K : Vista.Cut T} (hk : CutMeans num k K) : Same (DictMeans num) (del num d k) (SortedDict.del D K) := by
  unfold del SortedDict.del
  rw [any_rel (fun a b h => pyEq_eq_decide h.1 hk) hd]
  split
  · exact filter_rel (fun a b h => by rw [pyEq_eq_decide h.1 hk]; simp) hd
  · rfl

theorem set_rel {k : Vista.Cut V} {K : Vista.Cut T} (hk : CutMeans num k K) {v : Vista.Range V} {W : Vista.Range T} (hv : Means num v W) :
    DictMeans num (set num d k v) (SortedDict.set D K W) := by
  induction hd with
  | nil => exact .cons ⟨hk, hv⟩ .nil
  | @cons e E _ _ h1 h2 ih =>
    simp only [set, SortedDict.set, lt_eq hk h1.1, pyEq_eq_decide hk h1.1, decide_eq_true_eq]
    split
    · exact .cons ⟨hk, hv⟩ (.cons h1 h2)
    · split
      · rename_i hK; exact .cons ⟨hK ▸ h1.1, hv⟩ h2
      · exact .cons h1 ih

theorem delAll_same {ks : List (Vista.Cut V)} {Ks : List (Vista.Cut T)} (hk : List.Forall₂ (CutMeans num) ks Ks) :
    Same (DictMeans num) (delAll num d ks) (Vista.delAll D Ks) := by
  induction hk generalizing d D with
  | nil => exact hd
  | cons h1 _ ih => exact same_bind (del_same hd h1) fun _ _ h => ih h

theorem clearRange_same {a b : Vista.Cut V} {A B : Vista.Cut T} (ha : CutMeans num a A) (hb : CutMeans num b B) :
    Same (DictMeans num) (clearRange num d a b) (Vista.clearRange D A B) := delAll_same hd (irange_rel hd ha hb)

theorem getOk_same (i : Nat) : Same (SameOption (Means num)) (do let k ← keyAt d i; let v ← get num d k; .ok (some v))
    (do let k ← SortedDict.keyAt D i; let v ← SortedDict.get D k; .ok (some v)) :=
  same_bind (keyAt_same hd i) fun _ _ h => same_bind (get_same hd h) fun _ _ h' => h'

theorem valueBelow_same {k : Vista.Cut V} {K : Vista.Cut T} (hk : CutMeans num k K) :
    Same (SameOption (Means num)) (valueBelow num d k) (Vista.valueBelow D K) := by
  simp only [valueBelow, Vista.valueBelow, bisectLeft_eq hd hk, length_eq hd]
  split
  · exact getOk_same hd _
  · trivial

theorem valueAtOrBelow_same {k : Vista.Cut V} {K : Vista.Cut T} (hk : CutMeans num k K) :
    Same (SameOption (Means num)) (valueAtOrBelow num d k) (Vista.valueAtOrBelow D K) := by
  simp only [valueAtOrBelow, Vista.valueAtOrBelow, bisectLeft_eq hd hk, length_eq hd, isEmptyList_eq hd]
  split
  · trivial
  · split
    · split
      · exact getOk_same hd _
      · trivial
    · refine same_bind (keyAt_same hd _) fun a A h => ?_
      rw [pyEq_eq_decide hk h]
      by_cases hK : K = A
      · subst hK
        simp only [decide_true, Bool.not_true, Bool.false_eq_true, if_false, ne_eq, not_true]
        exact same_bind (get_same hd hk) fun _ _ h' => h'
      · simp only [hK, decide_false, Bool.not_false, if_true, ne_eq, not_false_eq_true]
        split
        · exact getOk_same hd _
        · trivial

theorem valueAtOrAbove_same {k : Vista.Cut V} {K : Vista.Cut T} (hk : CutMeans num k K) :
    Same (SameOption (Means num)) (valueAtOrAbove num d k) (Vista.valueAtOrAbove D K) := by
  simp only [valueAtOrAbove, Vista.valueAtOrAbove, bisectLeft_eq hd hk, length_eq hd, isEmptyList_eq hd]
  split
  · trivial
  · split
    · trivial
    · exact getOk_same hd _

/-! ## Range sets -/

theorem rangeContaining_same {v : V} {t : T} (hv : num v = some t) :
    Same (SameOption (Means num)) (RangeSet.rangeContaining num d v) (Vista.RangeSet.rangeContaining D t) := by
  refine same_bind (valueAtOrBelow_same hd (k := .belowValue v) (K := .belowValue t) hv) fun a b h => ?_
  cases a <;> cases b
  · trivial
  · exact h.elim
  · exact h.elim
  · simp only [contains_eq h hv]
    split
    · exact h
    · trivial

theorem set_contains_eq {v : V} {t : T} (hv : num v = some t) : RangeSet.contains num d v = Vista.RangeSet.contains D t := by
  refine same_eq_iff.1 (same_bind (valueAtOrBelow_same hd (k := .belowValue v) (K := .belowValue t) hv) fun a b h => ?_)
  cases a <;> cases b
  · rfl
  · exact h.elim
  · exact h.elim
  · exact contains_eq h hv

section query
variable {q : Vista.Range V} {Q : Vista.Range T} (hq : Means num q Q)
include hq

theorem rangeEnclosingRange_same :
    Same (SameOption (Means num)) (RangeSet.rangeEnclosingRange num d q) (Vista.RangeSet.rangeEnclosingRange D Q) := by
  refine same_bind (valueAtOrBelow_same hd hq.lower) fun a b h => ?_
  cases a <;> cases b
  · trivial
  · exact h.elim
  · exact h.elim
  · simp only [encloses_eq h hq]
    split
    · exact h
    · trivial

theorem set_encloses_eq : RangeSet.encloses num d q = Vista.RangeSet.encloses D Q := by
  refine same_eq_iff.1 (same_bind (valueAtOrBelow_same hd hq.lower) fun a b h => ?_)
  cases a <;> cases b
  · rfl
  · exact h.elim
  · exact h.elim
  · exact encloses_eq h hq

omit hd in
theorem enclosedLoop_rel {l : List (Vista.Range V)} {L : List (Vista.Range T)} (hl : List.Forall₂ (Means num) l L) :
    List.Forall₂ (Means num) (RangeSet.enclosedLoop num q l) (Vista.RangeSet.enclosedLoop Q L) := by
  induction hl with
  | nil => exact .nil
  | cons h1 _ ih =>
    simp only [RangeSet.enclosedLoop, Vista.RangeSet.enclosedLoop, encloses_eq hq h1]
    split
    · exact .cons h1 ih
    · exact .nil

theorem rangesEnclosedBy_same :
    Same (List.Forall₂ (Means num)) (RangeSet.rangesEnclosedBy num d q) (Vista.RangeSet.rangesEnclosedBy D Q) := by
  refine same_bind (valueAtOrAbove_same hd hq.lower) fun a b h => ?_
  cases a <;> cases b
  · exact .nil
  · exact h.elim
  · exact h.elim
  · refine same_bind (same_eq (index_eq hd h.lower)) fun i j hij => ?_
    subst hij
    exact enclosedLoop_rel hq (drop_rel (map_rel (fun _ _ h => h.2) hd) _)

omit hd in
theorem nonEmptyOverlap_eq {c : Option (Vista.Range V)} {C : Option (Vista.Range T)} (hc : SameOption (Means num) c C) :
    RangeSet.nonEmptyOverlap num c q = Vista.RangeSet.nonEmptyOverlap C Q := by
  cases c <;> cases C
  · rfl
  · exact hc.elim
  · exact hc.elim
  · simp only [RangeSet.nonEmptyOverlap, Vista.RangeSet.nonEmptyOverlap, isConnected_eq hc hq]
    split
    · refine same_eq_iff.1 (same_bind (intersection_same hc hq) fun a b h => ?_)
      exact congrArg not (isEmpty_eq h)
    · rfl

theorem set_intersects_eq : RangeSet.intersects num d q = Vista.RangeSet.intersects D Q := by
  refine same_eq_iff.1 (same_bind (valueAtOrAbove_same hd hq.lower) fun a b h => ?_)
  refine same_bind (same_eq (nonEmptyOverlap_eq hq h)) fun x y hxy => ?_
  subst hxy
  cases x with
  | true => rfl
  | false =>
    refine same_bind (valueBelow_same hd hq.lower) fun a b h => ?_
    exact same_eq (nonEmptyOverlap_eq hq h)

end query

theorem entryAt_same (i : Nat) : Same (Means num) (RangeSet.entryAt num d i) (Vista.RangeSet.entryAt D i) :=
  same_bind (keyAt_same hd i) fun _ _ h => get_same hd h

theorem overlapLoop_same {q : Vista.Range V} {Q : Vista.Range T} (hq : Means num q Q) (i n : Nat) :
    Same (List.Forall₂ (Means num)) (RangeSet.overlapLoop num d q i n) (Vista.RangeSet.overlapLoop D Q i n) := by
  induction n generalizing i with
  | zero => exact .nil
  | succ n ih =>
    refine same_bind (entryAt_same hd i) fun a b h => same_bind (ih (i + 1)) fun l L hl => ?_
    simp only [intersects_eq h hq]
    split
    · exact .cons h hl
    · exact hl

theorem rangesOverlapping_same {q : Vista.Range V} {Q : Vista.Range T} (hq : Means num q Q) :
    Same (List.Forall₂ (Means num)) (RangeSet.rangesOverlapping num d q) (Vista.RangeSet.rangesOverlapping D Q) := by
  simp only [RangeSet.rangesOverlapping, Vista.RangeSet.rangesOverlapping, isEmptyList_eq hd, bisect_eq hd hq.lower, bisect_eq hd hq.upper,
    length_eq hd]
  have one : ∀ i, Same (List.Forall₂ (Means num)) (do let x ← RangeSet.entryAt num d i; .ok (if Range.intersects num x q then [x] else []))
      (do let x ← Vista.RangeSet.entryAt D i; .ok (if x.intersects Q then [x] else [])) := fun i =>
    same_bind (entryAt_same hd i) fun a b h => by
      simp only [intersects_eq h hq]
      split
      · exact .cons h .nil
      · exact .nil
  split
  · exact .nil
  · split
    · exact one _
    · split
      · exact one _
      · exact overlapLoop_same hd hq _ _

theorem rightmost_same {v : V} {t : T} (hv : num v = some t) :
    Same (SameOption (Means num)) (RangeSet.rightmostContainingOrBelow num d v) (Vista.RangeSet.rightmostContainingOrBelow D t) :=
  valueAtOrBelow_same hd (k := .belowValue v) (K := .belowValue t) hv

theorem leftmostTail_same (i : Nat) : Same (SameOption (Means num)) (RangeSet.leftmostTail num d i) (Vista.RangeSet.leftmostTail D i) := by
  simp only [RangeSet.leftmostTail, Vista.RangeSet.leftmostTail, length_eq hd]
  split
  · exact same_bind (entryAt_same hd i) fun _ _ h => h
  · trivial

theorem leftmost_same {v : V} {t : T} (hv : num v = some t) :
    Same (SameOption (Means num)) (RangeSet.leftmostContainingOrAbove num d v) (Vista.RangeSet.leftmostContainingOrAbove D t) := by
  have hb : CutMeans num (.aboveValue v) (.aboveValue t) := hv
  simp only [RangeSet.leftmostContainingOrAbove, Vista.RangeSet.leftmostContainingOrAbove, bisectLeft_eq hd hb]
  split
  · refine same_bind (entryAt_same hd _) fun a b h => ?_
    simp only [le_eq hb h.upper, decide_eq_true_eq]
    split
    · exact h
    · exact leftmostTail_same hd _
  · exact leftmostTail_same hd _

theorem set_span_same : Same (Means num) (RangeSet.span num d) (Vista.RangeSet.span D) := by
  simp only [RangeSet.span, Vista.RangeSet.span, Vista.RangeSet.isEmpty, length_eq hd, decide_eq_true_eq]
  split
  · rfl
  · exact same_bind (valueAt_same hd _) fun a b h => same_bind (valueAt_same hd _) fun a' b' h' => new_same h.lower h'.upper

theorem asRanges_rel : List.Forall₂ (Means num) (RangeSet.asRanges d) (Vista.RangeSet.asRanges D) := map_rel (fun _ _ h => h.2) hd

theorem replaceRange_same {q : Vista.Range V} {Q : Vista.Range T} (hq : Means num q Q) :
    Same (DictMeans num) (RangeSet.replaceRange num d q) (Vista.RangeSet.replaceRange D Q) := by
  simp only [RangeSet.replaceRange, Vista.RangeSet.replaceRange, isEmpty_eq hq]
  split
  · exact del_same hd hq.lower
  · exact set_rel hd hq.lower hq

omit hd in
theorem extendUpper_means {o : Option (Vista.Range V)} {O : Option (Vista.Range T)} (ho : SameOption (Means num) o O) {u : Vista.Cut V}
    {U : Vista.Cut T} (hu : CutMeans num u U) : CutMeans num (RangeSet.extendUpper num o u) (Vista.RangeSet.extendUpper O U) := by
  cases o <;> cases O
  · exact hu
  · exact ho.elim
  · exact ho.elim
  · simp only [RangeSet.extendUpper, Vista.RangeSet.extendUpper, lt_eq hu ho.upper, decide_eq_true_eq]
    split
    · exact ho.upper
    · exact hu

theorem addUpper_same {a b : Vista.Cut V} {A B : Vista.Cut T} (ha : CutMeans num a A) (hb : CutMeans num b B) :
    Same (DictMeans num) (RangeSet.addUpper num d a b) (Vista.RangeSet.addUpper D A B) := by
  refine same_bind (valueAtOrBelow_same hd hb) fun o O ho => ?_
  have hu := extendUpper_means ho hb
  exact same_bind (clearRange_same hd ha hu) fun d' D' hd' => same_bind (new_same ha hu) fun q Q hq => replaceRange_same hd' hq

theorem add_same {q : Vista.Range V} {Q : Vista.Range T} (hq : Means num q Q) :
    Same (DictMeans num) (RangeSet.add num d q) (Vista.RangeSet.add D Q) := by
  simp only [RangeSet.add, Vista.RangeSet.add, isEmpty_eq hq]
  split
  · exact hd
  · refine same_bind (valueBelow_same hd hq.lower) fun o O ho => ?_
    cases o <;> cases O
    · exact addUpper_same hd hq.lower hq.upper
    · exact ho.elim
    · exact ho.elim
    · simp only [le_eq hq.lower ho.upper, lt_eq hq.upper ho.upper, decide_eq_true_eq]
      split
      · split
        · exact hd
        · exact addUpper_same hd ho.lower hq.upper
      · exact addUpper_same hd hq.lower hq.upper

theorem addAll_same {qs : List (Vista.Range V)} {Qs : List (Vista.Range T)} (hq : List.Forall₂ (Means num) qs Qs) :
    Same (DictMeans num) (RangeSet.addAll num d qs) (Vista.RangeSet.addAll D Qs) := by
  induction hq generalizing d D with
  | nil => exact hd
  | cons h1 _ ih => exact same_bind (add_same hd h1) fun _ _ h => ih h

theorem clear_same : Same (DictMeans num) (RangeSet.clear num d) (Vista.RangeSet.clear D) :=
  clearRange_same hd (a := .belowAll) (b := .aboveAll) trivial trivial

theorem step_same {op : RsOp V} {Op : RsOp T} (hop : OpMeans num op Op) : Same (DictMeans num) (step num d op) (stepRs D Op) := by
  cases op <;> cases Op <;> first | exact hop.elim | skip
  · exact add_same hd hop
  · exact addAll_same hd hop
  · exact clear_same hd

theorem run_same {ops : List (RsOp V)} {Ops : List (RsOp T)} (hops : List.Forall₂ (OpMeans num) ops Ops) :
    Same (DictMeans num) (run num d ops) (runRs D Ops) := by
  induction hops generalizing d D with
  | nil => exact hd
  | cons h1 _ ih => exact same_bind (step_same hd h1) fun _ _ h => ih h

end dicts
end Numeric
end Vista
