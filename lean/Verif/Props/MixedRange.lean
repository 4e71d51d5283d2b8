import Verif.Proofs.MixedRange
import Verif.Props.RangeMap

/-!
# C105: values that cannot be compared
-/
set_option linter.unusedSectionVars false
set_option linter.unusedSimpArgs false
namespace Vista
namespace Mixed
open Vista.RangeSet (asRanges)
variable {T κ : Type} [LinearOrder T] [DecidableEq κ] {kind : T → κ}

/-! ## Ranges -/

/-- Making a range with two endpoints raises `TypeError` exactly if they are of different kinds; otherwise, and for all other ranges, it does
what it does where everything can be compared. -/
theorem C105_make (lo hi v : T) :
    Range.open kind lo hi = (if kind lo = kind hi then Vista.Range.open lo hi else .error .typeError) ∧
    Range.closed kind lo hi = (if kind lo = kind hi then Vista.Range.closed lo hi else .error .typeError) ∧
    Range.closedOpen kind lo hi = (if kind lo = kind hi then Vista.Range.closedOpen lo hi else .error .typeError) ∧
    Range.openClosed kind lo hi = (if kind lo = kind hi then Vista.Range.openClosed lo hi else .error .typeError) ∧
    Range.lessThan kind v = Vista.Range.lessThan v ∧ Range.atMost kind v = Vista.Range.atMost v ∧
    Range.greaterThan kind v = Vista.Range.greaterThan v ∧ Range.atLeast kind v = Vista.Range.atLeast v ∧
    Range.all kind = (Vista.Range.all : Res (Vista.Range T)) := by
  have two : ∀ (a b : Vista.Cut T), a.endpoint = .ok lo → b.endpoint = .ok hi →
      Range.new kind a b = if kind lo = kind hi then Vista.Range.new a b else .error .typeError := by
    intro a b ha hb
    split
    · rename_i h
      exact new_ok fun v w hv hw => by rw [ha] at hv; rw [hb] at hw; cases hv; cases hw; exact h
    · rename_i h
      exact new_err fun hk => h (hk lo hi ha hb)
  refine ⟨two _ _ rfl rfl, two _ _ rfl rfl, two _ _ rfl rfl, two _ _ rfl rfl, ?_, ?_, ?_, ?_, ?_⟩
  · exact new_ok fun v w hv hw => by cases hv
  · exact new_ok fun v w hv hw => by cases hv
  · exact new_ok fun v w hv hw => by cases hw
  · exact new_ok fun v w hv hw => by cases hw
  · exact new_ok fun v w hv hw => by cases hw

theorem comparableTo_iff (r : Vista.Range T) (v : T) :
    ComparableTo kind r v ↔ Okc kind r.lower (.belowValue v) ∧ Okc kind r.upper (.belowValue v) := by
  unfold ComparableTo HasEndpoint Okc Vista.Range.lowerEndpoint Vista.Range.upperEndpoint
  constructor
  · intro h
    exact ⟨fun x w hx hw => by cases hw; exact h x (.inl hx), fun x w hx hw => by cases hw; exact h x (.inr hx)⟩
  · rintro ⟨h1, h2⟩ x (hx | hx)
    · exact h1 x v hx rfl
    · exact h2 x v hx rfl

theorem contains_ok {r : Vista.Range T} {v : T} (h1 : Okc kind r.lower (.belowValue v)) (h2 : Okc kind r.upper (.belowValue v)) :
    Range.contains kind r v = .ok (r.contains v) := by
  unfold Range.contains Vista.Range.contains
  rw [isLessThan_ok h1, isLessThan_ok h2]
  simp only [bind, Except.bind]
  cases r.lower.isLessThan v <;> simp

theorem lower_cases {r : Vista.Range T} (h : r.Valid) : r.lower = .belowAll ∨ IsValue r.lower := by
  have := (Vista.Range.valid_iff r).1 h
  cases hl : r.lower with
  | belowAll => exact .inl rfl
  | aboveAll => exact absurd hl this.2.1
  | belowValue v => exact .inr ⟨v, rfl⟩
  | aboveValue v => exact .inr ⟨v, rfl⟩

theorem upper_cases {r : Vista.Range T} (h : r.Valid) : r.upper = .aboveAll ∨ IsValue r.upper := by
  have := (Vista.Range.valid_iff r).1 h
  cases hl : r.upper with
  | belowAll => exact absurd hl this.2.2
  | aboveAll => exact .inl rfl
  | belowValue v => exact .inr ⟨v, rfl⟩
  | aboveValue v => exact .inr ⟨v, rfl⟩

theorem contains_err {r : Vista.Range T} {v : T} (hv : r.Valid) (hr : Okc kind r.lower r.upper)
    (h : ¬ (Okc kind r.lower (.belowValue v) ∧ Okc kind r.upper (.belowValue v))) : Range.contains kind r v = .error .typeError := by
  unfold Range.contains
  by_cases h1 : Okc kind r.lower (.belowValue v)
  · have h2 : ¬ Okc kind r.upper (.belowValue v) := fun h2 => h ⟨h1, h2⟩
    rw [isLessThan_err h2]
    rcases lower_cases hv with hl | ⟨x, hx⟩
    · rw [hl]; rfl
    · refine absurd ?_ h2
      intro y w hy hw
      cases hw
      exact (hr x y hx hy).symm.trans (h1 x v hx rfl)
  · rw [isLessThan_err h1]; rfl

/-- `v in r` raises `TypeError` exactly if the value is of another kind than an endpoint. -/
theorem C105_contains (r : Vista.Range T) (hr : Made kind r) (v : T) :
    (ComparableTo kind r v → Range.contains kind r v = .ok (r.contains v)) ∧
    (¬ ComparableTo kind r v → Range.contains kind r v = .error .typeError) := by
  rw [comparableTo_iff]
  have hr := (made_iff r).1 hr
  exact ⟨fun h => contains_ok h.1 h.2, fun h => contains_err hr.1 hr.2 h⟩

/-- Two ranges that can be compared behave as they do where everything can be compared. -/
theorem C105_comparable (r s : Vista.Range T) (hr : Made kind r) (hs : Made kind s) (h : Comparable kind r s) :
    Range.encloses kind r s = .ok (r.encloses s) ∧ Range.isConnected kind r s = .ok (r.isConnected s) ∧
    Range.span kind r s = r.span s ∧ Range.intersection kind r s = r.intersection s ∧
    Range.intersects kind r s = .ok (r.intersects s) := by
  obtain ⟨h1, h2, h3, h4⟩ := (comparable_iff r s).1 h
  have hr := ((made_iff r).1 hr).2
  have hs := ((made_iff s).1 hs).2
  have pick : ∀ (p q : Prop) [Decidable p] [Decidable q], Okc kind (if p then r.lower else s.lower) (if q then r.upper else s.upper) := by
    intro p q _ _
    split <;> split
    · exact hr
    · exact h2
    · exact h3.symm
    · exact hs
  refine ⟨?_, ?_, ?_, ?_, ?_⟩
  · unfold Range.encloses Vista.Range.encloses
    rw [compareTo_ok h1, compareTo_ok h4]
    simp only [bind, Except.bind]
    by_cases h : r.lower.compareTo s.lower ≤ 0 <;> simp [h]
  · unfold Range.isConnected Vista.Range.isConnected
    rw [le_ok h2, le_ok h3.symm]
    simp only [bind, Except.bind]
    by_cases h : r.lower ≤ s.upper <;> simp [h]
  · unfold Range.span Vista.Range.span
    rw [compareTo_ok h1, compareTo_ok h4]
    simp only [bind, Except.bind, new_ok (pick _ _)]
  · unfold Range.intersection Vista.Range.intersection
    rw [compareTo_ok h1, compareTo_ok h4]
    simp only [bind, Except.bind, new_ok (pick _ _)]
  · unfold Range.intersects Vista.Range.intersects
    rw [compareTo_ok h1, compareTo_ok h4]
    simp only [bind, Except.bind, le_ok (pick _ _)]
    split
    · rfl
    · split <;> rfl

theorem cmp_bv {c : Vista.Cut T} (h : IsValue c) : Cut.compareTo kind .belowAll c = .ok (-1) := by
  obtain ⟨v, hv⟩ := h; cases c <;> first | rfl | cases hv
theorem cmp_vb {c : Vista.Cut T} (h : IsValue c) : Cut.compareTo kind c .belowAll = .ok 1 := by
  obtain ⟨v, hv⟩ := h; cases c <;> first | rfl | cases hv
theorem cmp_av {c : Vista.Cut T} (h : IsValue c) : Cut.compareTo kind .aboveAll c = .ok 1 := by
  obtain ⟨v, hv⟩ := h; cases c <;> first | rfl | cases hv
theorem cmp_va {c : Vista.Cut T} (h : IsValue c) : Cut.compareTo kind c .aboveAll = .ok (-1) := by
  obtain ⟨v, hv⟩ := h; cases c <;> first | rfl | cases hv
theorem not_bound {c : Vista.Cut T} (h : IsValue c) : c ≠ .belowAll ∧ c ≠ .aboveAll := by
  obtain ⟨v, hv⟩ := h
  constructor <;> (rintro rfl; cases hv)

/-- If two ranges cannot be compared, all endpoints of the one are of another kind than all endpoints of the other. -/
theorem apart {r s : Vista.Range T} (hr : Okc kind r.lower r.upper) (hs : Okc kind s.lower s.upper) (h : ¬ Comparable kind r s) :
    (∃ v, HasEndpoint r v) ∧ (∃ v, HasEndpoint s v) ∧ ∀ v w, HasEndpoint r v → HasEndpoint s w → kind v ≠ kind w := by
  unfold Comparable at h
  simp only [not_forall] at h
  obtain ⟨v, w, hv, hw, hne⟩ := h
  have same : ∀ (r : Vista.Range T), Okc kind r.lower r.upper → ∀ a b, HasEndpoint r a → HasEndpoint r b → kind a = kind b := by
    rintro r hr a b (ha | ha) (hb | hb)
    · have : Except.ok a = (Except.ok b : Res T) := ha.symm.trans hb
      cases this; rfl
    · exact hr a b ha hb
    · exact (hr b a hb ha).symm
    · have : Except.ok a = (Except.ok b : Res T) := ha.symm.trans hb
      cases this; rfl
  refine ⟨⟨v, hv⟩, ⟨w, hw⟩, fun v' w' hv' hw' he => hne ?_⟩
  rw [same r hr v v' hv hv', he, same s hs w' w hw' hw]

/-- Of two ranges that cannot be compared, the intersection is not found, nor whether they intersect: `TypeError`.  The span is the range of
everything, if one has no lower and the other no upper bound, else `TypeError`.  Two ranges without bound on the same side are connected,
else `TypeError`.  `encloses` gives false if only the second has no lower bound, or the first has no lower bound but an upper one, and the
second no upper one; else `TypeError`. -/
theorem C105_incomparable (r s : Vista.Range T) (hr : Made kind r) (hs : Made kind s) (h : ¬ Comparable kind r s) :
    Range.intersection kind r s = .error .typeError ∧ Range.intersects kind r s = .error .typeError ∧
    Range.span kind r s =
      (if !r.hasLowerBound && !s.hasUpperBound || !r.hasUpperBound && !s.hasLowerBound then Vista.Range.all else .error .typeError) ∧
    Range.isConnected kind r s =
      (if !r.hasLowerBound && !s.hasLowerBound || !r.hasUpperBound && !s.hasUpperBound then .ok true else .error .typeError) ∧
    Range.encloses kind r s =
      (if r.hasLowerBound && !s.hasLowerBound || !r.hasLowerBound && r.hasUpperBound && !s.hasUpperBound then .ok false
       else .error .typeError) := by
  obtain ⟨vr, hr⟩ := (made_iff r).1 hr
  obtain ⟨vs, hs⟩ := (made_iff s).1 hs
  obtain ⟨⟨x, hx⟩, ⟨y, hy⟩, hne⟩ := apart hr hs h
  have no : ∀ a b, (a = r.lower ∨ a = r.upper) → (b = s.lower ∨ b = s.upper) → IsValue a → IsValue b → ¬ Okc kind a b ∧ ¬ Okc kind b a := by
    rintro a b ha hb ⟨v, hv⟩ ⟨w, hw⟩
    have h1 : HasEndpoint r v := by
      rcases ha with rfl | rfl
      · exact .inl hv
      · exact .inr hv
    have h2 : HasEndpoint s w := by
      rcases hb with rfl | rfl
      · exact .inl hw
      · exact .inr hw
    exact ⟨fun hk => hne v w h1 h2 (hk v w hv hw), fun hk => hne v w h1 h2 (hk w v hw hv).symm⟩
  have hx' : IsValue r.lower ∨ IsValue r.upper := hx.imp (fun h => ⟨x, h⟩) (fun h => ⟨x, h⟩)
  have hy' : IsValue s.lower ∨ IsValue s.upper := hy.imp (fun h => ⟨y, h⟩) (fun h => ⟨y, h⟩)
  obtain ⟨rl, ru⟩ := r
  obtain ⟨sl, su⟩ := s
  have c1 := lower_cases vr
  have c2 := upper_cases vr
  have c3 := lower_cases vs
  have c4 := upper_cases vs
  clear vr vs hr hs hx hy hne h
  simp only at c1 c2 c3 c4 no hx' hy'
  have nb : ¬ IsValue (.belowAll : Vista.Cut T) := fun ⟨v, hv⟩ => by cases hv
  have na : ¬ IsValue (.aboveAll : Vista.Cut T) := fun ⟨v, hv⟩ => by cases hv
  have bb : Cut.compareTo kind .belowAll (.belowAll : Vista.Cut T) = .ok 0 := rfl
  have aa : Cut.compareTo kind .aboveAll (.aboveAll : Vista.Cut T) = .ok 0 := rfl
  have ba : Cut.compareTo kind .belowAll (.aboveAll : Vista.Cut T) = .ok (-1) := rfl
  have ab : Cut.compareTo kind .aboveAll (.belowAll : Vista.Cut T) = .ok 1 := rfl
  have e1 : IsValue rl → IsValue sl → Cut.compareTo kind rl sl = .error .typeError := fun a b =>
    compareTo_err (no _ _ (.inl rfl) (.inl rfl) a b).1
  have e2 : IsValue rl → IsValue su → Cut.compareTo kind rl su = .error .typeError := fun a b =>
    compareTo_err (no _ _ (.inl rfl) (.inr rfl) a b).1
  have e3 : IsValue ru → IsValue sl → Cut.compareTo kind sl ru = .error .typeError := fun a b =>
    compareTo_err (no _ _ (.inr rfl) (.inl rfl) a b).2
  have e4 : IsValue ru → IsValue su → Cut.compareTo kind ru su = .error .typeError := fun a b =>
    compareTo_err (no _ _ (.inr rfl) (.inr rfl) a b).1
  have hall : (Vista.Range.all : Res (Vista.Range T)) = .ok ⟨.belowAll, .aboveAll⟩ := rfl
  clear no
  rcases c1 with rfl | c1 <;> rcases c2 with rfl | c2 <;> rcases c3 with rfl | c3 <;> rcases c4 with rfl | c4 <;>
    first
    | (exfalso; simp only [nb, na, or_self] at hx' hy'; done)
    | simp_all [Range.intersection, Range.intersects, Range.span, Range.isConnected, Range.encloses, Range.new, Cut.le, bind, Except.bind,
        cmp_bv, cmp_vb, cmp_av, cmp_va, not_bound, Vista.Range.hasLowerBound, Vista.Range.hasUpperBound, checkArg]

/-! ## Range sets -/

/-- The cuts of the ranges of a set and of a range. -/
def Around (rs : List (Vista.Range T)) (r : Vista.Range T) (c : Vista.Cut T) : Prop :=
  (∃ m ∈ rs, c = m.lower ∨ c = m.upper) ∨ c = r.lower ∨ c = r.upper

theorem around_ok {rs : List (Vista.Range T)} (hu : Uniform kind rs) {r : Vista.Range T} (hr : Okc kind r.lower r.upper)
    (hc : ∀ m ∈ rs, Comparable kind m r) : ∀ a b, Around rs r a → Around rs r b → Okc kind a b := by
  have self : ∀ c : Vista.Cut T, Okc kind c c := fun c v w hv hw => by
    have : Except.ok v = (Except.ok w : Res T) := hv.symm.trans hw
    cases this; rfl
  have old : ∀ m ∈ rs, ∀ n ∈ rs, ∀ a b, (a = m.lower ∨ a = m.upper) → (b = n.lower ∨ b = n.upper) → Okc kind a b := by
    rintro m hm n hn a b ha hb
    obtain ⟨h1, h2, h3, h4⟩ := (comparable_iff m n).1 (hu m hm n hn)
    rcases ha with rfl | rfl <;> rcases hb with rfl | rfl <;> assumption
  have mix : ∀ m ∈ rs, ∀ a b, (a = m.lower ∨ a = m.upper) → (b = r.lower ∨ b = r.upper) → Okc kind a b := by
    rintro m hm a b ha hb
    obtain ⟨h1, h2, h3, h4⟩ := (comparable_iff m r).1 (hc m hm)
    rcases ha with rfl | rfl <;> rcases hb with rfl | rfl <;> assumption
  rintro a b (⟨m, hm, ha⟩ | ha) (⟨n, hn, hb⟩ | hb)
  · exact old m hm n hn a b ha hb
  · exact mix m hm a b ha hb
  · exact (mix n hn b a hb ha).symm
  · rcases ha with rfl | rfl <;> rcases hb with rfl | rfl
    · exact self _
    · exact hr
    · exact hr.symm
    · exact self _

theorem uniform_addSpec {rs : List (Vista.Range T)} (hu : Uniform kind rs) {r : Vista.Range T} (hr : Okc kind r.lower r.upper)
    (hc : ∀ m ∈ rs, Comparable kind m r) : Uniform kind (addSpec rs r) := by
  have hS := around_ok hu hr hc
  have hm : ∀ m ∈ addSpec rs r, Around rs r m.lower ∧ Around rs r m.upper := by
    intro m hm
    unfold addSpec at hm
    rcases List.mem_append.1 hm with hm | hm
    · have := (List.mem_filter.1 hm).1
      exact ⟨.inl ⟨m, this, .inl rfl⟩, .inl ⟨m, this, .inr rfl⟩⟩
    rcases List.mem_cons.1 hm with rfl | hm
    · constructor
      · rcases Split.hullLower_cases r (mid rs r) with h | ⟨x, hx, h⟩
        · exact .inr (.inl h)
        · exact .inl ⟨x, (List.mem_filter.1 hx).1, .inl h⟩
      · rcases Split.hullUpper_cases r (mid rs r) with h | ⟨x, hx, h⟩
        · exact .inr (.inr h)
        · exact .inl ⟨x, (List.mem_filter.1 hx).1, .inr h⟩
    · have := (List.mem_filter.1 hm).1
      exact ⟨.inl ⟨m, this, .inl rfl⟩, .inl ⟨m, this, .inr rfl⟩⟩
  intro a ha b hb
  rw [comparable_iff]
  exact ⟨hS _ _ (hm a ha).1 (hm b hb).1, hS _ _ (hm a ha).1 (hm b hb).2, hS _ _ (hm a ha).2 (hm b hb).1, hS _ _ (hm a ha).2 (hm b hb).2⟩

theorem add_toD_acc {rs : List (Vista.Range T)} (hn : Normal rs) (hu : Uniform kind rs) {r : Vista.Range T} (hr : Made kind r)
    (ha : Acceptable kind rs r) :
    ∃ rs', Vista.RangeSet.add (toD rs) r = .ok (toD rs') ∧ RangeSet.add kind (toD rs) r = (toD rs', .ok ()) ∧ Normal rs' ∧ Uniform kind rs' := by
  obtain ⟨hv, hk⟩ := (made_iff r).1 hr
  by_cases he : r.isEmpty = true
  · refine ⟨rs, add_toD_empty he, ?_, hn, hu⟩
    unfold RangeSet.add
    rw [if_pos he]
  · have hc := ha.resolve_left he
    have hlt := (Vista.Range.nonempty_iff hv).1 (by simpa using he)
    refine ⟨addSpec rs r, add_toD hn hlt, ?_, addSpec_normal hn hlt, uniform_addSpec hu hk hc⟩
    exact add_ok hn (around_ok hu hk hc) (fun m hm => ⟨.inl ⟨m, hm, .inl rfl⟩, .inl ⟨m, hm, .inr rfl⟩⟩)
      ⟨.inr (.inl rfl), .inr (.inr rfl)⟩ (add_toD hn hlt)

theorem add_toD_ref {rs : List (Vista.Range T)} (hn : Normal rs) (hu : Uniform kind rs) {r : Vista.Range T} (hr : Made kind r)
    (ha : ¬ Acceptable kind rs r) : RangeSet.add kind (toD rs) r = (toD rs, .error .typeError) := by
  obtain ⟨hv, hk⟩ := (made_iff r).1 hr
  unfold Acceptable at ha
  simp only [not_or, not_forall] at ha
  obtain ⟨he, m, hm, hc⟩ := ha
  have hlt := (Vista.Range.nonempty_iff hv).1 (by simpa using he)
  have hmk : Okc kind m.lower m.upper := ((comparable_iff m m).1 (hu m hm m hm)).2.1
  obtain ⟨⟨v, hv'⟩, ⟨w, hw'⟩, hne⟩ := apart hmk hk hc
  refine add_err hn hlt ?_ ⟨m, hm, hv'.imp (fun h => ⟨v, h⟩) (fun h => ⟨v, h⟩)⟩ (hw'.imp (fun h => ⟨w, h⟩) (fun h => ⟨w, h⟩))
  rintro n hn' a b ha hb ⟨x, hx⟩ ⟨y, hy⟩ ho
  have h1 : HasEndpoint n x := by
    rcases ha with rfl | rfl
    · exact .inl hx
    · exact .inr hx
  have h2 : HasEndpoint r y := by
    rcases hb with rfl | rfl
    · exact .inl hy
    · exact .inr hy
  exact hne v y hv' h2 ((hu m hm n hn' v x hv' h1).trans (ho y x hy hx).symm)

theorem reach_of {rs : List (Vista.Range T)} {d : RDict T} (hd : Reachable d) (he : d = toD rs) : asRanges d = rs := by
  rw [he, asRanges_toD]

/-- Adding a range to a set: if the range is empty or can be compared with all ranges of the set, it does what it does where everything can
be compared; else it raises `TypeError`, and the set is as before. -/
theorem C105_add (d : RDict T) (hd : Reachable d) (hu : Uniform kind (asRanges d)) (r : Vista.Range T) (hr : Made kind r) :
    (Acceptable kind (asRanges d) r →
      ∃ d', Vista.RangeSet.add d r = .ok d' ∧ RangeSet.add kind d r = (d', .ok ()) ∧ Uniform kind (asRanges d')) ∧
    (¬ Acceptable kind (asRanges d) r → RangeSet.add kind d r = (d, .error .typeError)) := by
  obtain ⟨rs, rfl, hn⟩ := hd.normal
  rw [asRanges_toD] at *
  constructor
  · intro ha
    obtain ⟨rs', h1, h2, h3, h4⟩ := add_toD_acc hn hu hr ha
    exact ⟨toD rs', h1, h2, by rw [asRanges_toD]; exact h4⟩
  · exact add_toD_ref hn hu hr

theorem addAll_toD {rs : List (Vista.Range T)} (hn : Normal rs) (hu : Uniform kind rs) (ks : List (Vista.Range T)) (hk : ∀ r ∈ ks, Made kind r) :
    (∃ rs', Vista.RangeSet.addAll (toD rs) ks = .ok (toD rs') ∧ RangeSet.addAll kind (toD rs) ks = (toD rs', .ok ()) ∧ Normal rs' ∧
      Uniform kind rs') ∨
    ∃ pre r rest rs', ks = pre ++ r :: rest ∧ Vista.RangeSet.addAll (toD rs) pre = .ok (toD rs') ∧
      RangeSet.addAll kind (toD rs) pre = (toD rs', .ok ()) ∧ ¬ Acceptable kind rs' r ∧
      RangeSet.addAll kind (toD rs) ks = (toD rs', .error .typeError) ∧ Normal rs' ∧ Uniform kind rs' := by
  induction ks generalizing rs with
  | nil => exact .inl ⟨rs, rfl, rfl, hn, hu⟩
  | cons k ks ih =>
    by_cases ha : Acceptable kind rs k
    · obtain ⟨rs1, h1, h2, h3, h4⟩ := add_toD_acc hn hu (hk k (by simp)) ha
      rcases ih h3 h4 fun r hr => hk r (by simp [hr]) with ⟨rs', i1, i2, i3, i4⟩ | ⟨pre, r, rest, rs', i0, i1, i2, i3, i4, i5, i6⟩
      · exact .inl ⟨rs', by simp only [Vista.RangeSet.addAll, h1, bind, Except.bind, i1], by simp only [RangeSet.addAll, h2, i2], i3, i4⟩
      · exact .inr ⟨k :: pre, r, rest, rs', by rw [i0]; rfl, by simp only [Vista.RangeSet.addAll, h1, bind, Except.bind, i1],
          by simp only [RangeSet.addAll, h2, i2], i3, by simp only [RangeSet.addAll, h2, i4], i5, i6⟩
    · exact .inr ⟨[], k, ks, rs, rfl, rfl, rfl, ha, by simp only [RangeSet.addAll, add_toD_ref hn hu (hk k (by simp)) ha], hn, hu⟩

/-- `add_all` does what it does where everything can be compared, or stops with `TypeError` at the first range that cannot be compared with
the set as it is then; the ranges before that range have been added, the others not. -/
theorem C105_add_all (d : RDict T) (hd : Reachable d) (hu : Uniform kind (asRanges d)) (rs : List (Vista.Range T)) (hr : ∀ r ∈ rs, Made kind r) :
    (∃ d', Vista.RangeSet.addAll d rs = .ok d' ∧ RangeSet.addAll kind d rs = (d', .ok ()) ∧ Uniform kind (asRanges d')) ∨
    ∃ pre r rest d', rs = pre ++ r :: rest ∧ Vista.RangeSet.addAll d pre = .ok d' ∧ RangeSet.addAll kind d pre = (d', .ok ()) ∧
      ¬ Acceptable kind (asRanges d') r ∧ RangeSet.addAll kind d rs = (d', .error .typeError) ∧ Uniform kind (asRanges d') := by
  obtain ⟨ms, rfl, hn⟩ := hd.normal
  rw [asRanges_toD] at hu
  rcases addAll_toD hn hu rs hr with ⟨rs', i1, i2, i3, i4⟩ | ⟨pre, r, rest, rs', i0, i1, i2, i3, i4, i5, i6⟩
  · exact .inl ⟨toD rs', i1, i2, by rw [asRanges_toD]; exact i4⟩
  · exact .inr ⟨pre, r, rest, toD rs', i0, i1, i2, by rw [asRanges_toD]; exact i3, i4, by rw [asRanges_toD]; exact i6⟩

theorem clear_toD' {rs : List (Vista.Range T)} (hn : Normal rs) (hu : Uniform kind rs) : RangeSet.clear kind (toD rs) = ([], .ok ()) := by
  unfold RangeSet.clear
  refine clearRange_ok hn.sorted ?_ ?_ ?_ (clear_toD hn)
  · intro e he f hf
    obtain ⟨h1, h2⟩ := mem_toD he
    obtain ⟨h3, h4⟩ := mem_toD hf
    rw [h1, h3]
    exact ((comparable_iff _ _).1 (hu _ h2 _ h4)).1
  · intro e _ v w hv hw; cases hw
  · intro e _ v w hv hw; cases hw

/-- Whatever is done to a set with values of whatever kinds, if exceptions are caught: each call returns or raises `TypeError`; the set is
the result of the calls that returned, with those that raised left out (of an `add_all`, from some range on), and its ranges can all be
compared with each other.  So what is proved of range sets where everything can be compared holds of it. -/
theorem C105_history (ops : List (RsOp T)) (hops : ∀ op ∈ ops, ∀ r ∈ op.ranges, Made kind r) :
    ∃ calls, Kept ops (attempts kind [] ops).2 calls ∧ ValidOps calls ∧
      runRs Vista.RangeSet.create calls = .ok (attempts kind [] ops).1 ∧ Reachable (attempts kind [] ops).1 ∧
      Uniform kind (asRanges (attempts kind [] ops).1) := by
  have key : ∀ (ops : List (RsOp T)), (∀ op ∈ ops, ∀ r ∈ op.ranges, Made kind r) → ∀ rs : List (Vista.Range T), Normal rs → Uniform kind rs →
      ∃ calls rs', Kept ops (attempts kind (toD rs) ops).2 calls ∧ ValidOps calls ∧ (attempts kind (toD rs) ops).1 = toD rs' ∧
        runRs (toD rs) calls = .ok (toD rs') ∧ Uniform kind rs' := by
    intro ops
    induction ops with
    | nil => intro _ rs hn hu; exact ⟨[], rs, .nil, (fun _ h => by cases h), rfl, rfl, hu⟩
    | cons op ops ih =>
      intro hops rs hn hu
      have ih := ih fun op ho => hops op (by simp [ho])
      have hop := hops op (by simp)
      have valid : ∀ {op : RsOp T} {calls : List (RsOp T)}, (∀ r ∈ op.ranges, Made kind r) → ValidOps calls → ValidOps (op :: calls) := by
        intro op calls h1 h2 o ho r hr
        rcases List.mem_cons.1 ho with rfl | ho
        · exact ((made_iff r).1 (h1 r hr)).1
        · exact h2 o ho r hr
      cases op with
      | add r =>
        by_cases ha : Acceptable kind rs r
        · obtain ⟨rs1, h1, h2, h3, h4⟩ := add_toD_acc hn hu (hop r (by simp [RsOp.ranges])) ha
          obtain ⟨calls, rs', k1, k2, k3, k4, k5⟩ := ih rs1 h3 h4
          refine ⟨.add r :: calls, rs', ?_, valid hop k2, ?_, ?_, k5⟩
          · simp only [attempts, attempt, h2]; exact .added r k1
          · simp only [attempts, attempt, h2]; exact k3
          · simp only [runRs, stepRs, h1, bind, Except.bind]; exact k4
        · have h2 := add_toD_ref hn hu (hop r (by simp [RsOp.ranges])) ha
          obtain ⟨calls, rs', k1, k2, k3, k4, k5⟩ := ih rs hn hu
          refine ⟨calls, rs', ?_, k2, ?_, k4, k5⟩
          · simp only [attempts, attempt, h2]; exact .refused r k1
          · simp only [attempts, attempt, h2]; exact k3
      | addAll ks =>
        rcases addAll_toD hn hu ks hop with ⟨rs1, h1, h2, h3, h4⟩ | ⟨pre, r, rest, rs1, i0, h1, i2, i3, h2, h3, h4⟩
        · obtain ⟨calls, rs', k1, k2, k3, k4, k5⟩ := ih rs1 h3 h4
          refine ⟨.addAll ks :: calls, rs', ?_, valid hop k2, ?_, ?_, k5⟩
          · simp only [attempts, attempt, h2]; exact .addedAll ks k1
          · simp only [attempts, attempt, h2]; exact k3
          · simp only [runRs, stepRs, h1, bind, Except.bind]; exact k4
        · obtain ⟨calls, rs', k1, k2, k3, k4, k5⟩ := ih rs1 h3 h4
          refine ⟨.addAll pre :: calls, rs', ?_, valid (fun x hx => hop x ?_) k2, ?_, ?_, k5⟩
          · simp only [attempts, attempt, h2]; rw [i0]; exact .addedSome pre r rest k1
          · simp only [RsOp.ranges] at hx ⊢
            rw [i0]; simp [hx]
          · simp only [attempts, attempt, h2]; exact k3
          · simp only [runRs, stepRs, h1, bind, Except.bind]; exact k4
      | clear =>
        have h2 := clear_toD' hn hu
        obtain ⟨calls, rs', k1, k2, k3, k4, k5⟩ := ih [] normal_nil fun r hr => by cases hr
        refine ⟨.clear :: calls, rs', ?_, valid hop k2, ?_, ?_, k5⟩
        · simp only [attempts, attempt, h2]; exact .cleared k1
        · simp only [attempts, attempt, h2]; exact k3
        · simp only [runRs, stepRs, clear_toD hn, bind, Except.bind]; exact k4
  obtain ⟨calls, rs', k1, k2, k3, k4, k5⟩ := key ops hops [] normal_nil fun r hr => by cases hr
  have k4' : runRs Vista.RangeSet.create calls = .ok (attempts kind [] ops).1 := by
    rw [show (attempts kind [] ops).1 = toD rs' from k3]; exact k4
  refine ⟨calls, k1, k2, k4', ⟨calls, k2, k4'⟩, ?_⟩
  rw [show (attempts kind [] ops).1 = toD rs' from k3, asRanges_toD]
  exact k5

/-- What a lookup of a value in a set finds, or a `TypeError`. -/
theorem lookup_cases {rs : List (Vista.Range T)} (hn : Normal rs) (hu : Uniform kind rs) (v : T) :
    ((∀ m ∈ rs, ComparableTo kind m v) → valueAtOrBelow kind (toD rs) (.belowValue v) = Vista.valueAtOrBelow (toD rs) (.belowValue v)) ∧
    ((¬ ∀ m ∈ rs, ComparableTo kind m v) → valueAtOrBelow kind (toD rs) (.belowValue v) = .error .typeError ∨
      ∃ m, rs = [m] ∧ m.lower = .belowAll ∧ valueAtOrBelow kind (toD rs) (.belowValue v) = .ok (some m)) := by
  constructor
  · intro h
    apply valueAtOrBelow_ok hn.sorted
    intro e he
    obtain ⟨h1, h2⟩ := mem_toD he
    rw [h1]
    exact ((comparableTo_iff _ _).1 (h _ h2)).1
  · intro h
    simp only [not_forall] at h
    obtain ⟨m, hm, hc⟩ := h
    unfold ComparableTo at hc
    simp only [not_forall] at hc
    obtain ⟨x, hx, hne⟩ := hc
    have hkv : IsValue (.belowValue v : Vista.Cut T) := ⟨v, rfl⟩
    have hemp : (toD rs).isEmpty = false := by
      cases rs with
      | nil => cases hm
      | cons m rest => rfl
    unfold valueAtOrBelow
    rw [hemp]
    simp only [Bool.false_eq_true, if_false]
    rcases bisectLeft_err (kind := kind) hn hkv (by
      rintro n hn' ⟨y, hy⟩ ho
      exact hne ((hu m hm n hn' x y hx (.inl hy)).trans (ho y v hy rfl))) with h | h | ⟨n, h, hb⟩
    · left; rw [h]; rfl
    · subst h; cases hm
    · right
      refine ⟨n, h, hb, ?_⟩
      subst h
      have : bisectLeft kind (toD [n]) (.belowValue v) = .ok 1 := by
        have : Cut.lt kind n.lower (.belowValue v) = .ok true := by rw [hb]; rfl
        simp [toD, bisectLeft, this, bind, Except.bind]
      rw [this]
      simp [bind, Except.bind, toD, SortedDict.keyAt, SortedDict.get]

theorem contains_cases {rs : List (Vista.Range T)} (hn : Normal rs) (hu : Uniform kind rs) (v : T) :
    ((∀ m ∈ rs, ComparableTo kind m v) → RangeSet.contains kind (toD rs) v = Vista.RangeSet.contains (toD rs) v ∧
      RangeSet.rangeContaining kind (toD rs) v = Vista.RangeSet.rangeContaining (toD rs) v) ∧
    ((¬ ∀ m ∈ rs, ComparableTo kind m v) → RangeSet.contains kind (toD rs) v = .error .typeError ∧
      RangeSet.rangeContaining kind (toD rs) v = .error .typeError) := by
  obtain ⟨l1, l2⟩ := lookup_cases hn hu v
  constructor
  · intro h
    unfold RangeSet.contains Vista.RangeSet.contains RangeSet.rangeContaining Vista.RangeSet.rangeContaining
    rw [l1 h, valueAtOrBelow_toD hn]
    simp only [bind, Except.bind]
    cases hb : (rs.filter fun r => decide (r.lower ≤ .belowValue v)).getLast? with
    | none => exact ⟨rfl, rfl⟩
    | some m =>
      have hm := (comparableTo_iff _ _).1 (h m (List.mem_filter.1 (List.mem_of_getLast? hb)).1)
      simp only [contains_ok hm.1 hm.2]
      exact ⟨trivial, trivial⟩
  · intro h
    unfold RangeSet.contains RangeSet.rangeContaining
    rcases l2 h with h' | ⟨m, hm, hb, h'⟩
    · rw [h']; exact ⟨rfl, rfl⟩
    · rw [h']
      have hmm : m ∈ rs := by rw [hm]; simp
      have : Range.contains kind m v = .error .typeError := by
        apply contains_err (hn.valid hmm) ((comparable_iff m m).1 (hu m hmm m hmm)).2.1
        rw [← comparableTo_iff]
        intro hc
        apply h
        rw [hm]
        intro n hn'
        simp only [List.mem_singleton] at hn'
        rw [hn']; exact hc
      simp only [bind, Except.bind, this]
      exact ⟨trivial, trivial⟩

/-- `v in set` and `range_containing(v)` raise `TypeError` exactly if some endpoint in the set is of another kind than the value; otherwise they
do what they do where everything can be compared. -/
theorem C105_lookup (d : RDict T) (hd : Reachable d) (hu : Uniform kind (asRanges d)) (v : T) :
    ((∀ m ∈ asRanges d, ComparableTo kind m v) → RangeSet.contains kind d v = Vista.RangeSet.contains d v ∧
      RangeSet.rangeContaining kind d v = Vista.RangeSet.rangeContaining d v) ∧
    ((¬ ∀ m ∈ asRanges d, ComparableTo kind m v) → RangeSet.contains kind d v = .error .typeError ∧
      RangeSet.rangeContaining kind d v = .error .typeError) := by
  obtain ⟨rs, rfl, hn⟩ := hd.normal
  rw [asRanges_toD] at *
  exact contains_cases hn hu v

/-- A range that can be compared with the set is enclosed or not as where everything can be compared.  For one that cannot, `encloses` gives
false if it has no lower bound and all ranges of the set have one, or if it has a lower and no upper bound and the set consists of one range
without lower bound; else it raises `TypeError`. -/
theorem C105_encloses (d : RDict T) (hd : Reachable d) (hu : Uniform kind (asRanges d)) (r : Vista.Range T) (hr : Made kind r) :
    ((∀ m ∈ asRanges d, Comparable kind m r) → RangeSet.encloses kind d r = Vista.RangeSet.encloses d r) ∧
    ((¬ ∀ m ∈ asRanges d, Comparable kind m r) →
      let excluded := r.hasLowerBound = false ∧ (∀ m ∈ asRanges d, m.hasLowerBound = true) ∨
        r.hasLowerBound = true ∧ r.hasUpperBound = false ∧ ∃ m, asRanges d = [m] ∧ m.hasLowerBound = false
      (excluded → RangeSet.encloses kind d r = .ok false) ∧ (¬ excluded → RangeSet.encloses kind d r = .error .typeError)) := by
  obtain ⟨rs, rfl, hn⟩ := hd.normal
  rw [asRanges_toD] at *
  constructor
  · intro h
    unfold RangeSet.encloses Vista.RangeSet.encloses
    rw [valueAtOrBelow_ok hn.sorted (fun e he => by
      obtain ⟨h1, h2⟩ := mem_toD he
      rw [h1]; exact ((comparable_iff _ _).1 (h _ h2)).1), valueAtOrBelow_toD hn]
    simp only [bind, Except.bind]
    cases hb : (rs.filter fun m => decide (m.lower ≤ r.lower)).getLast? with
    | none => rfl
    | some m =>
      have hm := (List.mem_filter.1 (List.mem_of_getLast? hb)).1
      have hmm : Made kind m := (made_iff m).2 ⟨hn.valid hm, ((comparable_iff m m).1 (hu m hm m hm)).2.1⟩
      simp only [(C105_comparable m r hmm hr (h m hm)).1]
  · intro h
    simp only [not_forall] at h
    obtain ⟨n, hn', hc⟩ := h
    obtain ⟨hv, hk⟩ := (made_iff r).1 hr
    obtain ⟨⟨x, hx⟩, ⟨y, hy⟩, hne⟩ := apart ((comparable_iff n n).1 (hu n hn' n hn')).2.1 hk hc
    have made : ∀ m ∈ rs, Made kind m := fun m hm => (made_iff m).2 ⟨hn.valid hm, ((comparable_iff m m).1 (hu m hm m hm)).2.1⟩
    have inc : ∀ m ∈ rs, (∃ v, HasEndpoint m v) → ¬ Comparable kind m r := by
      rintro m hm ⟨v, hv⟩ h
      exact hne x y hx hy ((hu n hn' m hm x v hx hv).trans (h v y hv hy))
    have hemp : (toD rs).isEmpty = false := by
      cases rs with
      | nil => cases hn'
      | cons m rest => rfl
    rcases lower_cases hv with hl | hl
    · -- no lower bound
      have hlb : r.hasLowerBound = false := by simp [Vista.Range.hasLowerBound, hl]
      have hru : r.hasUpperBound = true := by
        rcases upper_cases hv with hu' | hu'
        · exfalso
          rcases hy with hy | hy
          · rw [Vista.Range.lowerEndpoint, hl] at hy; cases hy
          · rw [Vista.Range.upperEndpoint, hu'] at hy; cases hy
        · simp [Vista.Range.hasUpperBound, (not_bound hu').2]
      cases rs with
      | nil => cases hn'
      | cons m rest =>
        have hbis : bisectLeft kind (toD (m :: rest)) .belowAll = .ok 0 := by
          have : Cut.lt kind m.lower .belowAll = .ok false := by cases m.lower <;> rfl
          simp [toD, bisectLeft, this, bind, Except.bind]
        by_cases hm : m.lower = .belowAll
        · have hmlb : m.hasLowerBound = false := by simp [Vista.Range.hasLowerBound, hm]
          have hlook : valueAtOrBelow kind (toD (m :: rest)) .belowAll = .ok (some m) := by
            unfold valueAtOrBelow
            rw [hemp, hbis]
            simp [bind, Except.bind, toD, SortedDict.keyAt, SortedDict.get, hm]
          have hme : ∃ v, HasEndpoint m v := by
            rcases upper_cases (hn.valid (show m ∈ m :: rest by simp)) with hu' | ⟨v, hv'⟩
            · exfalso
              have : rest = [] := by
                cases rest with
                | nil => rfl
                | cons m2 rest =>
                  have := (List.pairwise_cons.1 hn.sep).1 m2 (by simp)
                  rw [hu', ← not_le] at this
                  exact absurd (Cut.le_aboveAll _) this
              subst this
              simp only [List.mem_singleton] at hn'
              subst hn'
              rcases hx with hx | hx
              · rw [Vista.Range.lowerEndpoint, hm] at hx; cases hx
              · rw [Vista.Range.upperEndpoint, hu'] at hx; cases hx
            · exact ⟨v, .inr hv'⟩
          have henc := (C105_incomparable m r (made m (by simp)) hr (inc m (by simp) hme)).2.2.2.2
          rw [hlb, hru, hmlb] at henc
          simp only [Bool.false_and, Bool.not_false, Bool.true_and, Bool.not_true, Bool.and_false, Bool.or_self, Bool.false_eq_true, if_false] at henc
          refine ⟨?_, fun _ => ?_⟩
          · rintro (⟨-, h2⟩ | ⟨h1, -⟩)
            · have := h2 m (by simp)
              rw [hmlb] at this; cases this
            · rw [hlb] at h1; cases h1
          · unfold RangeSet.encloses
            rw [hl, hlook]
            simp only [bind, Except.bind, henc]
        · have hall : ∀ m' ∈ m :: rest, m'.hasLowerBound = true := by
            intro m' hm'
            have : m'.lower ≠ .belowAll := by
              intro h
              rcases List.mem_cons.1 hm' with rfl | hm'
              · exact hm h
              · have := (List.pairwise_cons.1 hn.lowers).1 m' hm'
                rw [h, ← not_le] at this
                exact this (Cut.belowAll_le _)
            simp [Vista.Range.hasLowerBound, this]
          refine ⟨fun _ => ?_, fun h => absurd (.inl ⟨hlb, hall⟩) h⟩
          unfold RangeSet.encloses valueAtOrBelow
          rw [hl, hemp, hbis]
          have : ¬ (Vista.Cut.belowAll = m.lower) := fun h => hm h.symm
          simp [bind, Except.bind, toD, SortedDict.keyAt, SortedDict.get, this]
    · -- a lower bound
      have hlb : r.hasLowerBound = true := by simp [Vista.Range.hasLowerBound, (not_bound hl).1]
      rcases bisectLeft_err (kind := kind) hn hl (by
        rintro m hm ⟨v, hv'⟩ ho
        obtain ⟨w, hw⟩ := hl
        exact hne x w hx (.inl hw) ((hu n hn' m hm x v hx (.inl hv')).trans (ho v w hv' hw))) with hb | hb | ⟨m, hb, hm⟩
      · have herr : RangeSet.encloses kind (toD rs) r = .error .typeError := by
          unfold RangeSet.encloses valueAtOrBelow
          rw [hemp, hb]; rfl
        refine ⟨?_, fun _ => herr⟩
        rintro (⟨h1, -⟩ | ⟨-, -, m, h3, h4⟩)
        · rw [hlb] at h1; cases h1
        · exfalso
          have hml : m.lower = .belowAll := by simpa [Vista.Range.hasLowerBound] using h4
          rw [h3] at hb
          have hlt : Cut.lt kind m.lower r.lower = .ok true := by
            unfold Cut.lt
            rw [hml, cmp_bv hl]; rfl
          simp [toD, bisectLeft, hlt, bind, Except.bind] at hb
      · rw [hb] at hn'; cases hn'
      · have hlt : Cut.lt kind m.lower r.lower = .ok true := by
          unfold Cut.lt
          rw [hm, cmp_bv hl]; rfl
        have hlook : valueAtOrBelow kind (toD rs) r.lower = .ok (some m) := by
          unfold valueAtOrBelow
          rw [hemp, hb]
          simp [bind, Except.bind, toD, bisectLeft, hlt, SortedDict.keyAt, SortedDict.get]
        have hmr : m ∈ rs := by rw [hb]; simp
        have hnm : n = m := by rw [hb] at hn'; simpa using hn'
        have henc := (C105_incomparable m r (made m hmr) hr (inc m hmr ⟨x, hnm ▸ hx⟩)).2.2.2.2
        have hmlb : m.hasLowerBound = false := by simp [Vista.Range.hasLowerBound, hm]
        have hmub : m.hasUpperBound = true := by
          rcases upper_cases (hn.valid hmr) with hu' | hu'
          · exfalso
            rw [hnm] at hx
            rcases hx with hx | hx
            · rw [Vista.Range.lowerEndpoint, hm] at hx; cases hx
            · rw [Vista.Range.upperEndpoint, hu'] at hx; cases hx
          · simp [Vista.Range.hasUpperBound, (not_bound hu').2]
        rw [hmlb, hmub, hlb] at henc
        have heq : RangeSet.encloses kind (toD rs) r = Range.encloses kind m r := by
          unfold RangeSet.encloses
          rw [hlook]; rfl
        rw [heq, henc]
        refine ⟨?_, ?_⟩
        · rintro (⟨h1, -⟩ | ⟨-, h2, -⟩)
          · rw [hlb] at h1; cases h1
          · simp [h2]
        · intro h
          cases hru : r.hasUpperBound with
          | true => simp
          | false => exact absurd (.inr ⟨hlb, hru, m, hb, hmlb⟩) h

/-! ## Range maps -/

theorem uniform_iff (L : List (Vista.Range T)) : Uniform kind L ↔
    ∀ a b, (∃ m ∈ L, a = m.lower ∨ a = m.upper) → (∃ m ∈ L, b = m.lower ∨ b = m.upper) → Okc kind a b := by
  constructor
  · rintro h a b ⟨m, hm, ha⟩ ⟨n, hn, hb⟩
    obtain ⟨h1, h2, h3, h4⟩ := (comparable_iff m n).1 (h m hm n hn)
    rcases ha with rfl | rfl <;> rcases hb with rfl | rfl <;> assumption
  · intro h m hm n hn
    rw [comparable_iff]
    exact ⟨h _ _ ⟨m, hm, .inl rfl⟩ ⟨n, hn, .inl rfl⟩, h _ _ ⟨m, hm, .inl rfl⟩ ⟨n, hn, .inr rfl⟩,
      h _ _ ⟨m, hm, .inr rfl⟩ ⟨n, hn, .inl rfl⟩, h _ _ ⟨m, hm, .inr rfl⟩ ⟨n, hn, .inr rfl⟩⟩

theorem uniform_sub {L M : List (Vista.Range T)} (h : Uniform kind L) (hs : ∀ m ∈ M, m ∈ L) : Uniform kind M :=
  fun r hr s hs' => h r (hs r hr) s (hs s hs')

theorem addAll_uniform {rs ks : List (Vista.Range T)} (hn : Normal rs) (hu : Uniform kind (rs ++ ks)) (hk : ∀ r ∈ ks, Made kind r) :
    ∃ rs', Vista.RangeSet.addAll (toD rs) ks = .ok (toD rs') ∧ RangeSet.addAll kind (toD rs) ks = (toD rs', .ok ()) := by
  induction ks generalizing rs with
  | nil => exact ⟨rs, rfl, rfl⟩
  | cons k ks ih =>
    obtain ⟨hv, hko⟩ := (made_iff k).1 (hk k (by simp))
    have hurs : Uniform kind rs := uniform_sub hu fun m hm => by simp [hm]
    have hc : ∀ m ∈ rs, Comparable kind m k := fun m hm => hu m (by simp [hm]) k (by simp)
    have step : ∃ rs1, Vista.RangeSet.add (toD rs) k = .ok (toD rs1) ∧ RangeSet.add kind (toD rs) k = (toD rs1, .ok ()) ∧ Normal rs1 ∧
        Uniform kind (rs1 ++ ks) := by
      by_cases he : k.isEmpty = true
      · refine ⟨rs, add_toD_empty he, ?_, hn, uniform_sub hu fun m hm => ?_⟩
        · unfold RangeSet.add
          rw [if_pos he]
        · rcases List.mem_append.1 hm with hm | hm <;> simp [hm]
      · have hlt := (Vista.Range.nonempty_iff hv).1 (by simpa using he)
        refine ⟨addSpec rs k, add_toD hn hlt, ?_, addSpec_normal hn hlt, ?_⟩
        · exact add_ok hn (around_ok hurs hko hc) (fun m hm => ⟨.inl ⟨m, hm, .inl rfl⟩, .inl ⟨m, hm, .inr rfl⟩⟩)
            ⟨.inr (.inl rfl), .inr (.inr rfl)⟩ (add_toD hn hlt)
        · rw [uniform_iff] at hu ⊢
          have sub : ∀ a, (∃ m ∈ addSpec rs k ++ ks, a = m.lower ∨ a = m.upper) → ∃ m ∈ rs ++ k :: ks, a = m.lower ∨ a = m.upper := by
            rintro a ⟨m, hm, ha⟩
            rcases List.mem_append.1 hm with hm | hm
            · unfold addSpec at hm
              rcases List.mem_append.1 hm with hm | hm
              · exact ⟨m, by simp [(List.mem_filter.1 hm).1], ha⟩
              rcases List.mem_cons.1 hm with rfl | hm
              · rcases ha with rfl | rfl
                · rcases Split.hullLower_cases k (mid rs k) with h | ⟨x, hx, h⟩
                  · exact ⟨k, by simp, .inl h⟩
                  · exact ⟨x, by simp [(List.mem_filter.1 hx).1], .inl h⟩
                · rcases Split.hullUpper_cases k (mid rs k) with h | ⟨x, hx, h⟩
                  · exact ⟨k, by simp, .inr h⟩
                  · exact ⟨x, by simp [(List.mem_filter.1 hx).1], .inr h⟩
              · exact ⟨m, by simp [(List.mem_filter.1 hm).1], ha⟩
            · exact ⟨m, by simp [hm], ha⟩
          exact fun a b ha hb => hu a b (sub a ha) (sub b hb)
    obtain ⟨rs1, h1, h2, h3, h4⟩ := step
    obtain ⟨rs', i1, i2⟩ := ih h3 h4 fun r hr => hk r (by simp [hr])
    exact ⟨rs', by simp only [Vista.RangeSet.addAll, h1, bind, Except.bind, i1], by simp only [RangeSet.addAll, h2, i2]⟩

/-- A range map can be made exactly if all keys can be compared with each other and the map could be made where everything can be
compared; it is then the same.  If all keys can be compared with each other, the exceptions are the same, too; otherwise it is a `TypeError`
or (for example if the key that cannot be compared is empty) a `ValueError`. -/
theorem C105_map {V : Type} (m : List (Vista.Range T × V)) (hm : IsMapping m) (hk : ∀ k ∈ m.map (·.1), Made kind k) :
    (∀ rm, RangeMap.new kind m = .ok rm ↔ Uniform kind (m.map (·.1)) ∧ Vista.RangeMap.new m = .ok rm) ∧
    (Uniform kind (m.map (·.1)) → RangeMap.new kind m = Vista.RangeMap.new m) ∧
    (¬ Uniform kind (m.map (·.1)) → RangeMap.new kind m = .error .typeError ∨ RangeMap.new kind m = .error .valueError) := by
  have huni : Uniform kind (m.map (·.1)) → RangeMap.new kind m = Vista.RangeMap.new m := by
    intro hu
    obtain ⟨rs', h1, h2⟩ := addAll_uniform (kind := kind) (normal_nil (T := T)) (by simpa using hu) hk
    have h1 : Vista.RangeSet.addAll Vista.RangeSet.create (m.map (·.1)) = .ok (toD rs') := h1
    have h2 : RangeSet.addAll kind [] (m.map (·.1)) = (toD rs', .ok ()) := h2
    unfold RangeMap.new Vista.RangeMap.new
    rw [h1, h2]
    rfl
  have hok : ∀ rm, RangeMap.new kind m = .ok rm → Uniform kind (m.map (·.1)) := by
    intro rm h
    unfold RangeMap.new at h
    rcases addAll_toD (kind := kind) (normal_nil (T := T)) (fun r hr => by cases hr) (m.map (·.1)) hk with
      ⟨rs', i1, i2, i3, i4⟩ | ⟨pre, r, rest, rs', i0, i1, i2, i3, i4, i5, i6⟩
    · have i2 : RangeSet.addAll kind [] (m.map (·.1)) = (toD rs', .ok ()) := i2
      rw [i2] at h
      simp only [length_toD] at h
      by_cases hl : m.length ≠ rs'.length
      · rw [if_pos hl] at h; cases h
      · obtain ⟨rs2, j1, j2, -, -, j5⟩ := addAll_count (m.map (·.1)) hm.valid (normal_nil (T := T))
        rw [i1] at j1
        have : rs' = rs2 := by
          have := congrArg asRanges (Except.ok.inj j1)
          simpa using this
        subst this
        have hp := j5 (by simp only [List.length_nil, List.length_map, Nat.zero_add]; exact (not_not.1 hl).symm)
        exact uniform_sub i4 fun k hk => hp.mem_iff.2 (by simpa using hk)
    · have i4 : RangeSet.addAll kind [] (m.map (·.1)) = (toD rs', .error .typeError) := i4
      rw [i4] at h; cases h
  refine ⟨fun rm => ⟨fun h => ⟨hok rm h, by rw [← huni (hok rm h)]; exact h⟩, fun h => by rw [huni h.1]; exact h.2⟩, huni, fun hnu => ?_⟩
  rcases addAll_toD (kind := kind) (normal_nil (T := T)) (fun r hr => by cases hr) (m.map (·.1)) hk with
    ⟨rs', i1, i2, i3, i4⟩ | ⟨pre, r, rest, rs', i0, i1, i2, i3, i4, i5, i6⟩
  · have i2 : RangeSet.addAll kind [] (m.map (·.1)) = (toD rs', .ok ()) := i2
    right
    cases hr : RangeMap.new kind m with
    | ok rm => exact absurd (hok rm hr) hnu
    | error e =>
      unfold RangeMap.new at hr
      rw [i2] at hr
      simp only at hr
      split at hr
      · cases hr; rfl
      · cases hr
  · have i4 : RangeSet.addAll kind [] (m.map (·.1)) = (toD rs', .error .typeError) := i4
    left
    unfold RangeMap.new
    rw [i4]

/-- Looking up a value of another kind than the endpoints of the keys raises `TypeError`; other values are looked up as where everything can be
compared. -/
theorem C105_map_lookup {V : Type} (m : List (Vista.Range T × V)) (hm : IsMapping m) (hk : ∀ k ∈ m.map (·.1), Made kind k)
    (rm : Vista.RangeMap T V) (h : RangeMap.new kind m = .ok rm) (v : T) :
    ((∀ k ∈ m.map (·.1), ComparableTo kind k v) → RangeMap.getItem kind rm v = rm.getItem v) ∧
    ((¬ ∀ k ∈ m.map (·.1), ComparableTo kind k v) → RangeMap.getItem kind rm v = .error .typeError) := by
  obtain ⟨hu, hnew⟩ := ((C105_map m hm hk).1 rm).1 h
  obtain ⟨rs, rfl, hn, hp⟩ := Vista.RangeMap.new_ok hm hnew
  have hmem : ∀ k, k ∈ rs ↔ k ∈ m.map (·.1) := fun k => hp.mem_iff
  have hurs : Uniform kind rs := uniform_sub hu fun k hk => (hmem k).1 hk
  obtain ⟨c1, c2⟩ := contains_cases hn hurs v
  constructor
  · intro h
    unfold RangeMap.getItem Vista.RangeMap.getItem
    simp only [(c1 fun k hk => h k ((hmem k).1 hk)).2]
  · intro h
    unfold RangeMap.getItem
    simp only [(c2 fun h' => h fun k hk => h' k ((hmem k).2 hk)).2, bind, Except.bind]

/-! ### Concrete cases -/

namespace Example

/-- Numbers below 100 stand for integers, the others for strings. -/
def sort (n : Nat) : Bool := decide (n < 100)

/-- `Range.closed(1, "b")`. -/
example : Range.closed sort 1 101 = .error .typeError ∧ Range.closed sort 1 5 = .ok ⟨.belowValue 1, .aboveValue 5⟩ := by decide +kernel

def ints : Vista.Range Nat := ⟨.belowValue 1, .aboveValue 5⟩
def strs : Vista.Range Nat := ⟨.belowValue 101, .aboveValue 105⟩
def upTo : Vista.Range Nat := ⟨.belowAll, .belowValue 5⟩
def from3 : Vista.Range Nat := ⟨.belowValue 3, .aboveAll⟩
def strsFrom : Vista.Range Nat := ⟨.belowValue 101, .aboveAll⟩

theorem made_ints : Made sort ints := ⟨_, _, show Range.new sort (.belowValue 1) (.aboveValue 5) = .ok ints by decide +kernel⟩
theorem made_strs : Made sort strs := ⟨_, _, show Range.new sort (.belowValue 101) (.aboveValue 105) = .ok strs by decide +kernel⟩
theorem made_upTo : Made sort upTo := ⟨_, _, show Range.new sort .belowAll (.belowValue 5) = .ok upTo by decide +kernel⟩
theorem made_from3 : Made sort from3 := ⟨_, _, show Range.new sort (.belowValue 3) .aboveAll = .ok from3 by decide +kernel⟩
theorem made_strsFrom : Made sort strsFrom := ⟨_, _, show Range.new sort (.belowValue 101) .aboveAll = .ok strsFrom by decide +kernel⟩

theorem ints_strs : ¬ Comparable sort ints strs := fun h => absurd (h 1 101 (.inl rfl) (.inl rfl)) (by decide)
theorem ints_upTo : Comparable sort ints upTo := by
  rintro v w (hv | hv) (hw | hw) <;> cases hv <;> cases hw <;> rfl

example := C105_comparable ints upTo made_ints made_upTo ints_upTo
example := C105_incomparable ints strs made_ints made_strs ints_strs
example : Range.span sort upTo strsFrom = .ok ⟨.belowAll, .aboveAll⟩ ∧ Range.isConnected sort from3 strsFrom = .ok true ∧
    Range.encloses sort ints upTo = .ok false ∧ Range.isConnected sort upTo strsFrom = .error .typeError := by decide +kernel
example := C105_contains ints made_ints 102

/-- Integers, then strings, a number of both in one call, and more integers. -/
def story : List (RsOp Nat) := [.add ints, .add strs, .addAll [⟨.belowValue 7, .aboveValue 9⟩, strs, ⟨.belowValue 11, .aboveValue 12⟩], .add ⟨.belowValue 101, .belowValue 101⟩]

theorem story_made : ∀ op ∈ story, ∀ r ∈ op.ranges, Made sort r := by
  intro op hop r hr
  rw [made_iff, Vista.Range.valid_iff]
  simp only [story, List.mem_cons, List.not_mem_nil, or_false] at hop
  rcases hop with rfl | rfl | rfl | rfl <;> simp only [RsOp.ranges, List.mem_cons, List.not_mem_nil, or_false] at hr
  all_goals
    rcases hr with rfl | rfl | rfl
    all_goals
      refine ⟨by decide +kernel, ?_⟩
      intro v w hv hw
      cases hv; cases hw; rfl

example : ∃ calls, Kept story (attempts sort [] story).2 calls ∧ ValidOps calls ∧
      runRs Vista.RangeSet.create calls = .ok (attempts sort [] story).1 ∧ Reachable (attempts sort [] story).1 ∧
      Uniform sort (asRanges (attempts sort [] story).1) := C105_history story story_made

example : (attempts sort [] story).2 = [.ok (), .error .typeError, .error .typeError, .ok ()] ∧
    asRanges (attempts sort [] story).1 = [ints, ⟨.belowValue 7, .aboveValue 9⟩] := by decide +kernel

theorem reach : Reachable (attempts sort [] story).1 := (C105_history story story_made).elim fun _ h => h.2.2.2.1
theorem uni : Uniform sort (asRanges (attempts sort [] story).1) := (C105_history story story_made).elim fun _ h => h.2.2.2.2

example := C105_add _ reach uni strs made_strs
example := C105_add_all _ reach uni [from3, strs] (by simp only [List.mem_cons, List.not_mem_nil, or_false]; rintro r (rfl | rfl); exacts [made_from3, made_strs])
example := C105_lookup _ reach uni 101
example := C105_encloses _ reach uni strs made_strs
theorem is_mapping : IsMapping [(ints, 'a'), (strs, 'b')] :=
  ⟨by decide, by
    intro k hk
    simp only [List.map_cons, List.map_nil, List.mem_cons, List.not_mem_nil, or_false] at hk
    rcases hk with rfl | rfl
    · exact ((made_iff _).1 made_ints).1
    · exact ((made_iff _).1 made_strs).1⟩
theorem keys_made : ∀ k ∈ [(ints, 'a'), (strs, 'b')].map (·.1), Made sort k := by
  intro k hk
  simp only [List.map_cons, List.map_nil, List.mem_cons, List.not_mem_nil, or_false] at hk
  rcases hk with rfl | rfl
  exacts [made_ints, made_strs]
example := C105_map _ is_mapping keys_made
example := C105_map_lookup [(ints, 'a')] ⟨by decide, fun k hk => is_mapping.valid k (by simp at hk ⊢; exact .inl hk)⟩
  (fun k hk => keys_made k (by simp at hk ⊢; exact .inl hk)) ⟨[(ints, 'a')], [(.belowValue 1, ints)]⟩ rfl 101

/-- Counterexample: once integer ranges cover everything, the set contains every string, although asking any of the ranges that were
added would raise, and ranges of strings can be added. -/
theorem _root_.Vista.Mixed.C105_everything_counterexample :
    (attempts sort [] [.add upTo, .add from3, .add strs]).2 = [.ok (), .ok (), .ok ()] ∧
    RangeSet.contains sort (attempts sort [] [.add upTo, .add from3, .add strs]).1 101 = .ok true ∧
    Range.contains sort upTo 101 = .error .typeError ∧ Range.contains sort from3 101 = .error .typeError ∧
    (attempts sort [] [.add strs, .add upTo, .add from3]).2 = [.ok (), .error .typeError, .error .typeError] := by decide +kernel

/-- Counterexample: `rightmost_containing_or_below` of a string gives a range of integers, if the set consists of one range without lower
bound, and raises in other sets of integers. -/
theorem _root_.Vista.Mixed.C105_rightmost_counterexample :
    RangeSet.rightmostContainingOrBelow sort (attempts sort [] [.add upTo]).1 101 = .ok (some upTo) ∧
    RangeSet.rightmostContainingOrBelow sort (attempts sort [] [.add ints]).1 101 = .error .typeError := by decide +kernel

end Example

end Mixed
end Vista
