import Verif.Spec.MixedRange
import Verif.Proofs.RangeSetHistory

/-!
# Values of several kinds: lemmas
-/
set_option linter.unusedSectionVars false
set_option linter.unusedSimpArgs false
namespace Vista
namespace Mixed
variable {T κ : Type} [LinearOrder T] [DecidableEq κ] {kind : T → κ}

/-- The values of two cuts, if any, are of the same kind. -/
def Okc (kind : T → κ) (a b : Vista.Cut T) : Prop := ∀ v w, a.endpoint = .ok v → b.endpoint = .ok w → kind v = kind w

theorem Okc.symm {a b : Vista.Cut T} (h : Okc kind a b) : Okc kind b a := fun v w hv hw => (h w v hw hv).symm

theorem compareTo_ok {a b : Vista.Cut T} (h : Okc kind a b) : Cut.compareTo kind a b = .ok (a.compareTo b) := by
  have key : ∀ (p q : Bool) (x y : T), kind x = kind y →
      Cut.compareValues kind p q x y = .ok (Vista.Cut.compareValues p q x y) := by
    intro p q x y hk
    unfold Cut.compareValues Vista.Cut.compareValues less
    simp only [hk, if_true, bind, Except.bind]
    by_cases h1 : x < y <;> by_cases h2 : y < x <;> cases p <;> cases q <;> simp [h1, h2]
  cases a <;> cases b <;> first
    | rfl
    | (simp only [Cut.compareTo, Vista.Cut.compareTo]; exact key _ _ _ _ (h _ _ rfl rfl))

theorem compareTo_err {a b : Vista.Cut T} (h : ¬ Okc kind a b) : Cut.compareTo kind a b = .error .typeError := by
  have key : ∀ (p q : Bool) (x y : T), kind x ≠ kind y → Cut.compareValues kind p q x y = .error .typeError := by
    intro p q x y hk
    unfold Cut.compareValues less
    simp only [hk, if_false, bind, Except.bind]
  cases a <;> cases b <;> first
    | (refine absurd ?_ h; intro v w hv hw; cases hv; done)
    | (refine absurd ?_ h; intro v w hv hw; cases hw; done)
    | (simp only [Cut.compareTo]
       apply key
       intro hk
       apply h
       intro v w hv hw
       cases hv; cases hw; exact hk)

theorem lt_ok {a b : Vista.Cut T} (h : Okc kind a b) : Cut.lt kind a b = .ok (decide (a < b)) := by
  unfold Cut.lt; rw [compareTo_ok h]; rfl
theorem le_ok {a b : Vista.Cut T} (h : Okc kind a b) : Cut.le kind a b = .ok (decide (a ≤ b)) := by
  unfold Cut.le; rw [compareTo_ok h]; rfl
theorem lt_err {a b : Vista.Cut T} (h : ¬ Okc kind a b) : Cut.lt kind a b = .error .typeError := by
  unfold Cut.lt; rw [compareTo_err h]; rfl
theorem le_err {a b : Vista.Cut T} (h : ¬ Okc kind a b) : Cut.le kind a b = .error .typeError := by
  unfold Cut.le; rw [compareTo_err h]; rfl

theorem isLessThan_ok {a : Vista.Cut T} {v : T} (h : Okc kind a (.belowValue v)) : Cut.isLessThan kind a v = .ok (a.isLessThan v) := by
  cases a with
  | belowAll => rfl
  | aboveAll => rfl
  | belowValue x =>
    have hk : kind x = kind v := h _ _ rfl rfl
    simp only [Cut.isLessThan, less, hk, if_true, bind, Except.bind, Vista.Cut.isLessThan]
    by_cases h1 : x < v <;> simp [h1]
  | aboveValue x =>
    have hk : kind x = kind v := h _ _ rfl rfl
    simp only [Cut.isLessThan, less, hk, if_true, Vista.Cut.isLessThan]

theorem isLessThan_err {a : Vista.Cut T} {v : T} (h : ¬ Okc kind a (.belowValue v)) : Cut.isLessThan kind a v = .error .typeError := by
  cases a with
  | belowAll => exact absurd (fun v w hv hw => by cases hv) h
  | aboveAll => exact absurd (fun v w hv hw => by cases hv) h
  | belowValue x =>
    have hk : kind x ≠ kind v := fun hk => h (fun _ _ h1 h2 => by cases h1; cases h2; exact hk)
    simp only [Cut.isLessThan, less, hk, if_false, bind, Except.bind]
  | aboveValue x =>
    have hk : kind x ≠ kind v := fun hk => h (fun _ _ h1 h2 => by cases h1; cases h2; exact hk)
    simp only [Cut.isLessThan, less, hk, if_false]

theorem new_ok {lo hi : Vista.Cut T} (h : Okc kind lo hi) : Range.new kind lo hi = Vista.Range.new lo hi := by
  unfold Range.new Vista.Range.new
  rw [le_ok h]; rfl
theorem new_err {lo hi : Vista.Cut T} (h : ¬ Okc kind lo hi) : Range.new kind lo hi = .error .typeError := by
  unfold Range.new
  rw [le_err h]; rfl

theorem made_iff (r : Vista.Range T) : Made kind r ↔ r.Valid ∧ Okc kind r.lower r.upper := by
  constructor
  · rintro ⟨lo, hi, h⟩
    by_cases hk : Okc kind lo hi
    · rw [new_ok hk] at h
      refine ⟨⟨lo, hi, h⟩, ?_⟩
      obtain ⟨-, rfl⟩ := (Vista.Range.new_ok_iff _ _ _).1 h
      exact hk
    · rw [new_err hk] at h; cases h
  · rintro ⟨⟨lo, hi, h⟩, hk⟩
    have h' := h
    obtain ⟨-, rfl⟩ := (Vista.Range.new_ok_iff _ _ _).1 h
    exact ⟨lo, hi, by rw [new_ok hk]; exact h'⟩

theorem comparable_iff (r s : Vista.Range T) : Comparable kind r s ↔
    Okc kind r.lower s.lower ∧ Okc kind r.lower s.upper ∧ Okc kind r.upper s.lower ∧ Okc kind r.upper s.upper := by
  unfold Comparable HasEndpoint Okc Vista.Range.lowerEndpoint Vista.Range.upperEndpoint
  constructor
  · intro h
    exact ⟨fun v w hv hw => h v w (.inl hv) (.inl hw), fun v w hv hw => h v w (.inl hv) (.inr hw),
      fun v w hv hw => h v w (.inr hv) (.inl hw), fun v w hv hw => h v w (.inr hv) (.inr hw)⟩
  · rintro ⟨h1, h2, h3, h4⟩ v w (hv | hv) (hw | hw)
    · exact h1 v w hv hw
    · exact h2 v w hv hw
    · exact h3 v w hv hw
    · exact h4 v w hv hw

/-! ### Dictionaries -/

open SortedDict

theorem bisectLeft_ok' {d : RDict T} {k : Vista.Cut T} (h : ∀ e ∈ d, Okc kind e.1 k) : ∃ n, bisectLeft kind d k = .ok n := by
  induction d with
  | nil => exact ⟨0, rfl⟩
  | cons e d ih =>
    obtain ⟨n, hn⟩ := ih fun e he => h e (by simp [he])
    simp only [bisectLeft, lt_ok (h e (by simp)), bind, Except.bind, hn]
    by_cases hlt : e.1 < k
    · exact ⟨n + 1, by simp [hlt]⟩
    · exact ⟨0, by simp [hlt]⟩

theorem bisectLeft_ok {d : RDict T} (hs : SortedDict.Sorted d) {k : Vista.Cut T} (h : ∀ e ∈ d, Okc kind e.1 k) :
    bisectLeft kind d k = .ok (SortedDict.bisectLeft d k) := by
  induction d with
  | nil => rfl
  | cons e d ih =>
    have hs' := List.pairwise_cons.1 hs
    have ih := ih hs'.2 fun e he => h e (by simp [he])
    simp only [bisectLeft, lt_ok (h e (by simp)), bind, Except.bind, ih]
    by_cases hlt : e.1 < k
    · simp [hlt, SortedDict.bisectLeft]
    · have : d.countP (fun e => decide (e.1 < k)) = 0 := by
        rw [List.countP_eq_zero]
        intro x hx hxk
        exact hlt ((hs'.1 x hx).trans (by simpa using hxk))
      simp [hlt, SortedDict.bisectLeft, this]

theorem valueBelow_ok {d : RDict T} (hs : SortedDict.Sorted d) {k : Vista.Cut T} (h : ∀ e ∈ d, Okc kind e.1 k) :
    valueBelow kind d k = Vista.valueBelow d k := by
  unfold valueBelow Vista.valueBelow
  rw [bisectLeft_ok hs h]
  rfl

theorem valueAtOrBelow_ok {d : RDict T} (hs : SortedDict.Sorted d) {k : Vista.Cut T} (h : ∀ e ∈ d, Okc kind e.1 k) :
    valueAtOrBelow kind d k = Vista.valueAtOrBelow d k := by
  unfold valueAtOrBelow Vista.valueAtOrBelow
  rw [bisectLeft_ok hs h]
  rfl

theorem drop_bisect {d : RDict T} (hs : SortedDict.Sorted d) (lo : Vista.Cut T) :
    d.drop (SortedDict.bisectLeft d lo) = d.filter fun e => decide (lo ≤ e.1) := by
  have hlo := split_lt hs lo
  rw [bisectLeft_eq]
  generalize hA : d.filter (fun e => decide (e.1 < lo)) = A at *
  generalize hB : d.filter (fun e => decide (lo ≤ e.1)) = B at *
  rw [hlo, List.drop_left]

theorem take_bisect {d : RDict T} (hs : SortedDict.Sorted d) (hi : Vista.Cut T) :
    d.take (SortedDict.bisectLeft d hi) = d.filter fun e => decide (e.1 < hi) := by
  have hlo := split_lt hs hi
  rw [bisectLeft_eq]
  generalize hA : d.filter (fun e => decide (e.1 < hi)) = A at *
  generalize hB : d.filter (fun e => decide (hi ≤ e.1)) = B at *
  rw [hlo, List.take_left]

theorem irange_ok {d : RDict T} (hs : SortedDict.Sorted d) {lo hi : Vista.Cut T} (h1 : ∀ e ∈ d, Okc kind e.1 lo)
    (h2 : ∀ e ∈ d, Okc kind e.1 hi) : irange kind d lo hi = .ok (SortedDict.irange d lo hi) := by
  unfold irange
  rw [bisectLeft_ok hs h1, bisectLeft_ok hs h2]
  simp only [bind, Except.bind]
  have main : ((d.take (SortedDict.bisectLeft d hi)).drop (SortedDict.bisectLeft d lo)) =
      d.filter fun e => decide (lo ≤ e.1) && decide (e.1 < hi) := by
    rw [take_bisect hs]
    have hA : SortedDict.Sorted (d.filter fun e => decide (e.1 < hi)) := List.Pairwise.filter _ hs
    rcases le_or_gt lo hi with hle | hlt
    · have : SortedDict.bisectLeft d lo = SortedDict.bisectLeft (d.filter fun e => decide (e.1 < hi)) lo := by
        rw [bisectLeft_eq, bisectLeft_eq, List.filter_filter]
        congr 1
        apply List.filter_congr
        intro e _
        by_cases h : e.1 < lo
        · simp [h, h.trans_le hle]
        · simp [h]
      rw [this, drop_bisect hA, List.filter_filter]
    · rw [List.drop_eq_nil_of_le, eq_comm, List.filter_eq_nil_iff]
      · intro e _ h
        simp only [Bool.and_eq_true, decide_eq_true_eq] at h
        exact absurd (h.1.trans_lt h.2) (not_lt.2 hlt.le)
      · rw [SortedDict.bisectLeft, ← List.countP_eq_length_filter]
        apply List.countP_mono_left
        intro e _ h
        simp only [decide_eq_true_eq] at *
        exact h.trans hlt
  rw [main]
  split
  · rename_i hl
    have : d.filter (fun e => decide (lo ≤ e.1)) = [] := by rw [← drop_bisect hs, hl, List.drop_length]
    rw [SortedDict.irange, List.filter_eq_nil_iff.2, List.map_nil]
    intro e he h
    rw [List.filter_eq_nil_iff] at this
    simp only [Bool.and_eq_true] at h
    exact this e he h.1
  · rfl

theorem delAll_ok {d d' : RDict T} {ks : List (Vista.Cut T)} (h : ∀ e ∈ d, ∀ k ∈ ks, Okc kind e.1 k) (hd : Vista.delAll d ks = .ok d') :
    delAll kind d ks = (d', .ok ()) := by
  induction ks generalizing d with
  | nil => simp only [Vista.delAll, Except.ok.injEq] at hd; subst hd; rfl
  | cons k ks ih =>
    obtain ⟨n, hn⟩ := bisectLeft_ok' (kind := kind) (d := d) (k := k) fun e he => h e he k (by simp)
    simp only [Vista.delAll, bind, Except.bind] at hd
    cases hk : SortedDict.del d k with
    | error e => rw [hk] at hd; cases hd
    | ok d1 =>
      rw [hk] at hd
      simp only [delAll, del, hn, bind, Except.bind, hk]
      apply ih _ hd
      intro e he k' hk'
      unfold SortedDict.del at hk
      split at hk
      · cases hk
        exact h e (List.mem_filter.1 he).1 k' (by simp [hk'])
      · cases hk

theorem irange_mem {d : RDict T} {lo hi k : Vista.Cut T} (hk : k ∈ SortedDict.irange d lo hi) : ∃ e ∈ d, e.1 = k := by
  unfold SortedDict.irange at hk
  obtain ⟨e, he, rfl⟩ := List.mem_map.1 hk
  exact ⟨e, (List.mem_filter.1 he).1, rfl⟩

theorem clearRange_ok {d d' : RDict T} (hs : SortedDict.Sorted d) {lo hi : Vista.Cut T} (h0 : ∀ e ∈ d, ∀ f ∈ d, Okc kind e.1 f.1)
    (h1 : ∀ e ∈ d, Okc kind e.1 lo) (h2 : ∀ e ∈ d, Okc kind e.1 hi) (hd : Vista.clearRange d lo hi = .ok d') :
    clearRange kind d lo hi = (d', .ok ()) := by
  unfold clearRange
  rw [irange_ok hs h1 h2]
  apply delAll_ok _ hd
  intro e he k hk
  obtain ⟨f, hf, rfl⟩ := irange_mem hk
  exact h0 e he f hf

theorem set_ok {d : RDict T} (hs : SortedDict.Sorted d) {k : Vista.Cut T} (h : ∀ e ∈ d, Okc kind k e.1) (r : Vista.Range T) :
    set kind d k r = .ok (SortedDict.set d k r) := by
  have hins : ∀ d : RDict T, (∀ e ∈ d, Okc kind k e.1) → (∀ e ∈ d, e.1 ≠ k) → insert kind d k r = .ok (SortedDict.set d k r) := by
    intro d
    induction d with
    | nil => intro _ _; rfl
    | cons e d ih =>
      intro h hne
      have ih := ih (fun e he => h e (by simp [he])) fun e he => hne e (by simp [he])
      simp only [insert, lt_ok (h e (by simp)), bind, Except.bind, SortedDict.set, ih]
      have : k ≠ e.1 := fun h' => hne e (by simp) h'.symm
      by_cases hlt : k < e.1 <;> simp [hlt, this]
  have hmap : ∀ d : RDict T, SortedDict.Sorted d → (∃ e ∈ d, e.1 = k) →
      d.map (fun e => if e.1 = k then (e.1, r) else e) = SortedDict.set d k r := by
    intro d
    induction d with
    | nil => rintro _ ⟨e, he, _⟩; cases he
    | cons e d ih =>
      rintro hs ⟨x, hx, hxk⟩
      have hs' := List.pairwise_cons.1 hs
      rcases List.mem_cons.1 hx with rfl | hx
      · have : d.map (fun e => if e.1 = k then (e.1, r) else e) = d := by
          conv_rhs => rw [← List.map_id d]
          apply List.map_congr_left
          intro y hy
          rw [if_neg]; · rfl
          intro hyk
          have := hs'.1 y hy
          rw [hxk, hyk] at this
          exact absurd this (lt_irrefl _)
        simp only [List.map_cons, this, SortedDict.set, hxk, lt_irrefl, if_false, if_true]
      · have hlt : e.1 < k := hxk ▸ hs'.1 x hx
        have ih := ih hs'.2 ⟨x, hx, hxk⟩
        simp only [List.map_cons, ih, SortedDict.set, not_lt.2 hlt.le, if_false, hlt.ne, hlt.ne']
  unfold set
  split
  · rename_i ha
    obtain ⟨e, he, hek⟩ := List.any_eq_true.1 ha
    rw [hmap d hs ⟨e, he, by simpa using hek⟩]
  · rename_i ha
    apply hins d h
    intro e he hek
    exact ha (List.any_eq_true.2 ⟨e, he, by simpa using hek⟩)

/-! ### `add` -/


theorem mem_toD {rs : List (Vista.Range T)} {e : Vista.Cut T × Vista.Range T} (he : e ∈ toD rs) : e.1 = e.2.lower ∧ e.2 ∈ rs := by
  unfold toD at he
  obtain ⟨m, hm, rfl⟩ := List.mem_map.1 he
  exact ⟨rfl, hm⟩

theorem replaceRange_ok {d d' : RDict T} (hs : SortedDict.Sorted d) {r : Vista.Range T} (h : ∀ e ∈ d, Okc kind e.1 r.lower)
    (hd : Vista.RangeSet.replaceRange d r = .ok d') : RangeSet.replaceRange kind d r = .ok d' := by
  unfold RangeSet.replaceRange
  unfold Vista.RangeSet.replaceRange at hd
  split
  · rename_i he
    rw [if_pos he] at hd
    obtain ⟨n, hn⟩ := bisectLeft_ok' h
    simp only [del, hn, bind, Except.bind, hd]
  · rename_i he
    rw [if_neg he] at hd
    rw [set_ok hs fun e he => (h e he).symm, hd]

theorem addUpper_ok {rs : List (Vista.Range T)} (hn : Normal rs) {S : Vista.Cut T → Prop} (hS : ∀ a b, S a → S b → Okc kind a b)
    (hrs : ∀ m ∈ rs, S m.lower ∧ S m.upper) {lb ub : Vista.Cut T} (hlb : S lb) (hub : S ub) {d' : RDict T}
    (hd : Vista.RangeSet.addUpper (toD rs) lb ub = .ok d') : RangeSet.addUpper kind (toD rs) lb ub = (d', .ok ()) := by
  have hkey : ∀ k, S k → ∀ e ∈ toD rs, Okc kind e.1 k := fun k hk e he => by
    obtain ⟨h1, h2⟩ := mem_toD he
    rw [h1]; exact hS _ _ (hrs _ h2).1 hk
  unfold RangeSet.addUpper
  unfold Vista.RangeSet.addUpper at hd
  rw [valueAtOrBelow_ok hn.sorted (hkey ub hub)]
  rw [Vista.valueAtOrBelow_toD hn] at hd ⊢
  simp only [bind, Except.bind] at hd ⊢
  generalize hb : (rs.filter fun r => decide (r.lower ≤ ub)).getLast? = below at hd ⊢
  have hbm : ∀ m, below = some m → m ∈ rs := by
    rintro m rfl
    exact (List.mem_filter.1 (List.mem_of_getLast? hb)).1
  have hext : RangeSet.extendUpper kind below ub = .ok (Vista.RangeSet.extendUpper below ub) ∧ S (Vista.RangeSet.extendUpper below ub) := by
    cases below with
    | none => exact ⟨rfl, hub⟩
    | some m =>
      have hm := hrs m (hbm m rfl)
      simp only [RangeSet.extendUpper, Vista.RangeSet.extendUpper, lt_ok (hS _ _ hub hm.2), bind, Except.bind]
      by_cases h : ub < m.upper
      · simp [h, hm.2]
      · simp [h, hub]
  rw [hext.1]
  generalize Vista.RangeSet.extendUpper below ub = ub' at hd hext ⊢
  obtain ⟨-, hub'⟩ := hext
  cases hc : Vista.clearRange (toD rs) lb ub' with
  | error e => rw [hc] at hd; cases hd
  | ok d1 =>
    rw [hc] at hd
    simp only at hd ⊢
    rw [clearRange_ok hn.sorted (fun e he f hf => by
      obtain ⟨h1, h2⟩ := mem_toD hf
      rw [h1]; exact hkey _ (hrs _ h2).1 e he) (hkey lb hlb) (hkey ub' hub') hc]
    have hd1 : d1 = (toD rs).filter fun e => !(decide (lb ≤ e.1) && decide (e.1 < ub')) := by
      rw [SortedDict.clearRange_eq hn.sorted] at hc
      cases hc; rfl
    simp only [RangeSet.finish, new_ok (hS _ _ hlb hub'), bind, Except.bind]
    cases hnew : Vista.Range.new lb ub' with
    | error e => rw [hnew] at hd; cases hd
    | ok rng =>
      rw [hnew] at hd
      simp only at hd ⊢
      have hl : rng.lower = lb := by
        obtain ⟨-, rfl⟩ := (Vista.Range.new_ok_iff _ _ _).1 hnew
        rfl
      rw [replaceRange_ok (hd1 ▸ List.Pairwise.filter _ hn.sorted) (fun e he => by
        rw [hd1] at he
        rw [hl]; exact hkey lb hlb e (List.mem_filter.1 he).1) hd]

theorem add_ok {rs : List (Vista.Range T)} (hn : Normal rs) {S : Vista.Cut T → Prop} (hS : ∀ a b, S a → S b → Okc kind a b)
    (hrs : ∀ m ∈ rs, S m.lower ∧ S m.upper) {r : Vista.Range T} (hr : S r.lower ∧ S r.upper) {d' : RDict T}
    (hd : Vista.RangeSet.add (toD rs) r = .ok d') : RangeSet.add kind (toD rs) r = (d', .ok ()) := by
  unfold RangeSet.add
  unfold Vista.RangeSet.add at hd
  split
  · rename_i he
    rw [if_pos he] at hd
    cases hd; rfl
  · rename_i he
    rw [if_neg he] at hd
    unfold RangeSet.addLower
    rw [valueBelow_ok hn.sorted (fun e he => by
      obtain ⟨h1, h2⟩ := mem_toD he
      rw [h1]; exact hS _ _ (hrs _ h2).1 hr.1)]
    rw [Vista.valueBelow_toD hn] at hd ⊢
    simp only [bind, Except.bind] at hd ⊢
    generalize hb : (rs.filter fun m => decide (m.lower < r.lower)).getLast? = below at hd ⊢
    cases below with
    | none => exact addUpper_ok hn hS hrs hr.1 hr.2 hd
    | some b =>
      have hbm := hrs b (List.mem_filter.1 (List.mem_of_getLast? hb)).1
      simp only at hd ⊢
      rw [le_ok (hS _ _ hr.1 hbm.2)]
      by_cases h1 : r.lower ≤ b.upper
      · rw [if_pos h1] at hd
        simp only [h1, decide_true, if_true]
        rw [lt_ok (hS _ _ hr.2 hbm.2)]
        by_cases h2 : r.upper < b.upper
        · rw [if_pos h2] at hd
          cases hd
          simp [h2]
        · rw [if_neg h2] at hd
          simp only [h2, decide_false, Bool.false_eq_true, if_false]
          exact addUpper_ok hn hS hrs hbm.1 hr.2 hd
      · rw [if_neg h1] at hd
        simp only [h1, decide_false, Bool.false_eq_true, if_false]
        exact addUpper_ok hn hS hrs hr.1 hr.2 hd

/-- Whether the cut is at a value. -/
def IsValue (c : Vista.Cut T) : Prop := ∃ v, c.endpoint = .ok v

theorem bisectLeft_err {rs : List (Vista.Range T)} (hn : Normal rs) {k : Vista.Cut T} (hk : IsValue k)
    (hne : ∀ m ∈ rs, IsValue m.lower → ¬ Okc kind m.lower k) :
    bisectLeft kind (toD rs) k = .error .typeError ∨ rs = [] ∨ ∃ m, rs = [m] ∧ m.lower = .belowAll := by
  have hval : ∀ c : Vista.Cut T, c ≠ .belowAll → c ≠ .aboveAll → IsValue c := by
    intro c h1 h2
    cases c with
    | belowAll => exact absurd rfl h1
    | aboveAll => exact absurd rfl h2
    | belowValue v => exact ⟨v, rfl⟩
    | aboveValue v => exact ⟨v, rfl⟩
  have hna : ∀ m ∈ rs, m.lower ≠ .aboveAll := fun m hm h => by
    have := ((Vista.Range.valid_iff m).1 (hn.valid hm)).2.1
    exact this h
  cases rs with
  | nil => exact .inr (.inl rfl)
  | cons m rest =>
    by_cases hb : m.lower = .belowAll
    · cases rest with
      | nil => exact .inr (.inr ⟨m, rfl, hb⟩)
      | cons m2 rest =>
        left
        have hm2 : IsValue m2.lower := by
          apply hval
          · intro h
            have h1 := (List.pairwise_cons.1 hn.lowers).1 m2 (by simp)
            rw [hb, h] at h1
            exact lt_irrefl _ h1
          · exact hna m2 (by simp)
        have hlt : Cut.lt kind m.lower k = .ok true := by
          rw [hb]
          obtain ⟨v, hv⟩ := hk
          cases k with
          | belowAll => cases hv
          | aboveAll => cases hv
          | belowValue v => rfl
          | aboveValue v => rfl
        simp only [toD, List.map_cons, bisectLeft, hlt, lt_err (hne m2 (by simp) hm2), bind, Except.bind, if_true]
    · left
      simp only [toD, List.map_cons, bisectLeft, lt_err (hne m (by simp) (hval _ hb (hna m (by simp)))), bind, Except.bind]

theorem add_err {rs : List (Vista.Range T)} (hn : Normal rs) {r : Vista.Range T} (hr : r.lower < r.upper)
    (hne : ∀ m ∈ rs, ∀ a b, (a = m.lower ∨ a = m.upper) → (b = r.lower ∨ b = r.upper) → IsValue a → IsValue b → ¬ Okc kind b a)
    (hex : ∃ m ∈ rs, IsValue m.lower ∨ IsValue m.upper) (hrx : IsValue r.lower ∨ IsValue r.upper) :
    RangeSet.add kind (toD rs) r = (toD rs, .error .typeError) := by
  have hv := Vista.Range.valid_of_lt hr
  have hemp : r.isEmpty = false := (Vista.Range.nonempty_iff hv).2 hr
  unfold RangeSet.add
  rw [hemp]
  simp only [Bool.false_eq_true, if_false]
  have hsym : ∀ m ∈ rs, ∀ b, (b = r.lower ∨ b = r.upper) → IsValue b → IsValue m.lower → ¬ Okc kind m.lower b :=
    fun m hm b hb hbv hmv h => hne m hm _ b (.inl rfl) hb hmv hbv h.symm
  have hbis := fun (k : Vista.Cut T) (hk : k = r.lower ∨ k = r.upper) (hkv : IsValue k) =>
    bisectLeft_err hn hkv (kind := kind) fun m hm hmv => hsym m hm k hk hkv hmv
  have hnil : rs ≠ [] := by
    rintro rfl
    obtain ⟨m, hm, _⟩ := hex
    cases hm
  have hupper : ∀ m, rs = [m] → m.lower = .belowAll → IsValue m.upper := by
    rintro m rfl hb
    obtain ⟨m', hm', h | h⟩ := hex
    · simp only [List.mem_singleton] at hm'; subst hm'
      obtain ⟨v, hv⟩ := h
      rw [hb] at hv; cases hv
    · simp only [List.mem_singleton] at hm'; subst hm'; exact h
  have hone : ∀ (m : Vista.Range T) (k : Vista.Cut T), m.lower = .belowAll → IsValue k → bisectLeft kind (toD [m]) k = .ok 1 := by
    intro m k hb hk
    have hlt : Cut.lt kind m.lower k = .ok true := by
      rw [hb]
      obtain ⟨v, hv⟩ := hk
      cases k with
      | belowAll => cases hv
      | aboveAll => cases hv
      | belowValue v => rfl
      | aboveValue v => rfl
    simp [toD, bisectLeft, hlt, bind, Except.bind]
  by_cases hlv : IsValue r.lower
  · have : RangeSet.addLower kind (toD rs) r = .error .typeError := by
      unfold RangeSet.addLower valueBelow
      rcases hbis r.lower (.inl rfl) hlv with h | h | ⟨m, h, hb⟩
      · rw [h]; rfl
      · exact absurd h hnil
      · have hu := hupper m h hb
        subst h
        have hle : Cut.le kind r.lower m.upper = .error .typeError := le_err (hne m (by simp) _ _ (.inr rfl) (.inl rfl) hu hlv)
        rw [hone m _ hb hlv]
        simp [bind, Except.bind, toD, SortedDict.keyAt, SortedDict.get, hle]
    rw [this]
  · have hlb : r.lower = .belowAll := by
      have := (Vista.Range.valid_iff r).1 hv
      cases hl : r.lower with
      | belowAll => rfl
      | aboveAll => exact absurd hl this.2.1
      | belowValue v => exact absurd ⟨v, by rw [hl]; rfl⟩ hlv
      | aboveValue v => exact absurd ⟨v, by rw [hl]; rfl⟩ hlv
    have huv : IsValue r.upper := hrx.resolve_left hlv
    have : RangeSet.addLower kind (toD rs) r = .ok (some r.lower) := by
      unfold RangeSet.addLower valueBelow
      have : bisectLeft kind (toD rs) r.lower = .ok 0 := by
        rw [hlb]
        cases rs with
        | nil => rfl
        | cons m rest =>
          have : Cut.lt kind m.lower .belowAll = .ok false := by
            cases m.lower <;> rfl
          simp [toD, bisectLeft, this, bind, Except.bind]
      rw [this]
      rfl
    rw [this]
    simp only
    have : (do let belowUb ← valueAtOrBelow kind (toD rs) r.upper
               RangeSet.extendUpper kind belowUb r.upper) = .error .typeError := by
      unfold valueAtOrBelow
      have hemp : (toD rs).isEmpty = false := by
        cases rs with
        | nil => exact absurd rfl hnil
        | cons m rest => rfl
      rw [hemp]
      simp only [Bool.false_eq_true, if_false]
      rcases hbis r.upper (.inr rfl) huv with h | h | ⟨m, h, hb⟩
      · rw [h]; rfl
      · exact absurd h hnil
      · have hu := hupper m h hb
        subst h
        have hlt : Cut.lt kind r.upper m.upper = .error .typeError := lt_err (hne m (by simp) _ _ (.inr rfl) (.inr rfl) hu huv)
        rw [hone m _ hb huv]
        simp [bind, Except.bind, toD, SortedDict.keyAt, SortedDict.get, RangeSet.extendUpper, hlt]
    unfold RangeSet.addUpper
    rw [this]

end Mixed
end Vista
