import Verif.Proofs.RangeSet
import Verif.Spec.RangeSet

/-! The invariant of range-set histories, and the queries in closed form. -/
set_option linter.unusedSectionVars false
namespace Vista
variable {T : Type} [LinearOrder T]
open RangeSet

theorem pairwise_getLast? {α : Type} {R : α → α → Prop} {l : List α} (h : l.Pairwise R) {x a : α}
    (hx : l.getLast? = some x) (ha : a ∈ l) : a = x ∨ R a x := by
  rcases List.eq_nil_or_concat l with rfl | ⟨l, y, rfl⟩
  · simp at ha
  · simp only [List.concat_eq_append, List.getLast?_append, List.getLast?_singleton, Option.some_or,
      Option.some.injEq] at *
    subst hx
    rcases List.mem_append.1 ha with ha | ha
    · exact .inr ((List.pairwise_append.1 h).2.2 a ha y (by simp))
    · exact .inl (by simpa using ha)

theorem pairwise_head? {α : Type} {R : α → α → Prop} {l : List α} (h : l.Pairwise R) {x a : α}
    (hx : l.head? = some x) (ha : a ∈ l) : a = x ∨ R x a := by
  cases l with
  | nil => simp at ha
  | cons y l =>
    simp only [List.head?_cons, Option.some.injEq] at hx
    subst hx
    rw [List.pairwise_cons] at h
    rcases List.mem_cons.1 ha with ha | ha
    · exact .inl ha
    · exact .inr (h.1 a ha)

theorem mem_addSpec_hull (rs : List (Range T)) (r : Range T) :
    (⟨hullLower r (mid rs r), hullUpper r (mid rs r)⟩ : Range T) ∈ addSpec rs r := by
  simp [addSpec]

theorem hull_encloses {rs : List (Range T)} (r : Range T) :
    (⟨hullLower r (mid rs r), hullUpper r (mid rs r)⟩ : Range T).encloses r = true := by
  rw [Range.encloses_iff]
  exact ⟨Split.hullLower_le, Split.le_hullUpper⟩

theorem addSpec_covers_old {rs : List (Range T)} (h : Normal rs) {r : Range T} (hr : r.lower < r.upper) {m : Range T}
    (hm : m ∈ rs) : ∃ m' ∈ addSpec rs r, m'.encloses m = true := by
  have s := split_of_normal h hr
  rw [split3 h hr] at hm
  rcases List.mem_append.1 hm with hm | hm
  · exact ⟨m, by simp [addSpec, hm], by rw [Range.encloses_iff]; exact ⟨le_refl _, le_refl _⟩⟩
  rcases List.mem_append.1 hm with hm | hm
  · refine ⟨_, mem_addSpec_hull rs r, ?_⟩
    rw [Range.encloses_iff]
    exact ⟨s.head_lower hm, s.last_upper hm⟩
  · exact ⟨m, by simp [addSpec, hm], by rw [Range.encloses_iff]; exact ⟨le_refl _, le_refl _⟩⟩

theorem connected_mono {a b f g : Range T} (h : a.isConnected b = true) (h1 : f.encloses a = true)
    (h2 : g.encloses b = true) : f.isConnected g = true := by
  rw [Range.isConnected_iff] at *
  rw [Range.encloses_iff] at *
  exact ⟨h1.1.trans (h.1.trans h2.2), h2.1.trans (h.2.trans h1.2)⟩

theorem addSpec_least {rs : List (Range T)} {r : Range T} (F : Range T → Prop)
    (hF : Disconnected F) (hrs : ∀ m ∈ rs, FamilyEncloses F m) (hrF : FamilyEncloses F r) :
    ∀ m ∈ addSpec rs r, FamilyEncloses F m := by
  intro m hm
  unfold addSpec at hm
  rcases List.mem_append.1 hm with hm | hm
  · exact hrs m (List.mem_filter.1 hm).1
  rcases List.mem_cons.1 hm with rfl | hm
  · obtain ⟨f, hf, hfe⟩ := hrF
    refine ⟨f, hf, ?_⟩
    have key : ∀ m ∈ mid rs r, f.encloses m = true := by
      intro m hm
      obtain ⟨g, hg, hge⟩ := hrs m (List.mem_filter.1 hm).1
      have hc : m.isConnected r = true := (List.mem_filter.1 hm).2
      have := hF g f hg hf (connected_mono hc hge hfe)
      rw [← this]; exact hge
    rw [Range.encloses_iff] at *
    constructor
    · rcases Split.hullLower_cases r (mid rs r) with h | ⟨x, hx, h⟩
      · simp only [h]; exact hfe.1
      · simp only [h]; exact ((Range.encloses_iff _ _).1 (key x hx)).1
    · rcases Split.hullUpper_cases r (mid rs r) with h | ⟨x, hx, h⟩
      · simp only [h]; exact hfe.2
      · simp only [h]; exact ((Range.encloses_iff _ _).1 (key x hx)).2
  · exact hrs m (List.mem_filter.1 hm).1

theorem contains_of_encloses {r s : Range T} (h : r.encloses s = true) {v : T} (hv : s.contains v = true) :
    r.contains v = true := by
  rw [Range.encloses_iff] at h; rw [Range.contains_iff] at *
  exact ⟨h.1.trans hv.1, hv.2.trans h.2⟩

/-- A value of the hull of `r` and the members connected to `r` is in `r` or one of them. -/
theorem hull_contains {rs : List (Range T)} {r : Range T} {v : T}
    (hv : (⟨hullLower r (mid rs r), hullUpper r (mid rs r)⟩ : Range T).contains v = true) :
    r.contains v = true ∨ ∃ m ∈ rs, m.contains v = true := by
  by_cases h1 : r.lower ≤ .belowValue v
  · by_cases h2 : Cut.aboveValue v ≤ r.upper
    · exact .inl ((Range.contains_iff _ _).2 ⟨h1, h2⟩)
    · right
      rcases Split.hullUpper_cases r (mid rs r) with h | ⟨x, hx, h⟩
      · rw [Range.contains_iff] at hv; simp only [h] at hv; exact absurd hv.2 h2
      · refine ⟨x, (List.mem_filter.1 hx).1, ?_⟩
        rw [Range.contains_iff] at *
        simp only [h] at hv
        have hc := (Range.isConnected_iff _ _).1 (List.mem_filter.1 hx).2
        exact ⟨hc.1.trans ((Cut.lt_aboveValue_iff _ _).1 (not_le.1 h2)), hv.2⟩
  · right
    rcases Split.hullLower_cases r (mid rs r) with h | ⟨x, hx, h⟩
    · rw [Range.contains_iff] at hv; simp only [h] at hv; exact absurd hv.1 h1
    · refine ⟨x, (List.mem_filter.1 hx).1, ?_⟩
      rw [Range.contains_iff] at *
      simp only [h] at hv
      have hc := (Range.isConnected_iff _ _).1 (List.mem_filter.1 hx).2
      exact ⟨hv.1, ((Cut.belowValue_lt_iff _ _).1 (not_le.1 h1)).trans hc.2⟩

/-- What is preserved by every operation: the normal form, leastness, and the values. -/
structure Inv (rs : List (Range T)) (A : List (Range T)) : Prop where
  normal : Normal rs
  covers : ∀ a ∈ A, a.isEmpty = false → FamilyEncloses (· ∈ rs) a
  least : ∀ F : Range T → Prop, Disconnected F → (∀ a ∈ A, a.isEmpty = false → FamilyEncloses F a) →
    ∀ m ∈ rs, FamilyEncloses F m
  values : ∀ v, (∃ m ∈ rs, m.contains v = true) ↔ ∃ a ∈ A, a.contains v = true

theorem inv_nil : Inv ([] : List (Range T)) [] := ⟨normal_nil, by simp, by simp, by simp⟩

theorem inv_add {rs A : List (Range T)} (h : Inv rs A) {r : Range T} (hr : r.Valid) :
    ∃ rs', add (toD rs) r = .ok (toD rs') ∧ Inv rs' (A ++ [r]) := by
  by_cases he : r.isEmpty = true
  · refine ⟨rs, add_toD_empty he, h.normal, ?_, ?_, ?_⟩
    · intro a ha hae
      rcases List.mem_append.1 ha with ha | ha
      · exact h.covers a ha hae
      · simp only [List.mem_singleton] at ha; subst ha; rw [he] at hae; cases hae
    · intro F hF hA
      exact h.least F hF fun a ha => hA a (by simp [ha])
    · intro v
      rw [h.values v]
      constructor
      · rintro ⟨a, ha, hv⟩; exact ⟨a, by simp [ha], hv⟩
      · rintro ⟨a, ha, hv⟩
        rcases List.mem_append.1 ha with ha | ha
        · exact ⟨a, ha, hv⟩
        · simp only [List.mem_singleton] at ha; subst ha
          rw [Range.isEmpty_iff] at he
          rw [Range.contains_iff, he] at hv
          exact absurd (hv.2.trans hv.1) (not_le.2 (Cut.belowValue_lt_aboveValue v))
  · have he' : r.isEmpty = false := by simpa using he
    have hlt := (Range.nonempty_iff hr).1 he'
    refine ⟨addSpec rs r, add_toD h.normal hlt, addSpec_normal h.normal hlt, ?_, ?_, ?_⟩
    · intro a ha hae
      rcases List.mem_append.1 ha with ha | ha
      · obtain ⟨m, hm, hme⟩ := h.covers a ha hae
        obtain ⟨m', hm', hme'⟩ := addSpec_covers_old h.normal hlt hm
        refine ⟨m', hm', ?_⟩
        rw [Range.encloses_iff] at *
        exact ⟨hme'.1.trans hme.1, hme.2.trans hme'.2⟩
      · simp only [List.mem_singleton] at ha; subst ha
        exact ⟨_, mem_addSpec_hull rs a, hull_encloses a⟩
    · intro F hF hA
      exact addSpec_least F hF (h.least F hF fun a ha => hA a (by simp [ha])) (hA r (by simp) he')
    · intro v
      constructor
      · rintro ⟨m, hm, hv⟩
        have aux : (∃ m ∈ rs, m.contains v = true) → ∃ a ∈ A ++ [r], a.contains v = true := by
          intro h'
          obtain ⟨a, ha, hv⟩ := (h.values v).1 h'
          exact ⟨a, by simp [ha], hv⟩
        unfold addSpec at hm
        rcases List.mem_append.1 hm with hm | hm
        · exact aux ⟨m, (List.mem_filter.1 hm).1, hv⟩
        rcases List.mem_cons.1 hm with rfl | hm
        · rcases hull_contains hv with hv | hv
          · exact ⟨r, by simp, hv⟩
          · exact aux hv
        · exact aux ⟨m, (List.mem_filter.1 hm).1, hv⟩
      · rintro ⟨a, ha, hv⟩
        rcases List.mem_append.1 ha with ha | ha
        · obtain ⟨m, hm, hmv⟩ := (h.values v).2 ⟨a, ha, hv⟩
          obtain ⟨m', hm', hme'⟩ := addSpec_covers_old h.normal hlt hm
          exact ⟨m', hm', contains_of_encloses hme' hmv⟩
        · simp only [List.mem_singleton] at ha; subst ha
          exact ⟨_, mem_addSpec_hull rs a, contains_of_encloses (hull_encloses a) hv⟩

theorem inv_addAll {rs A : List (Range T)} (h : Inv rs A) (ks : List (Range T)) (hk : ∀ r ∈ ks, r.Valid) :
    ∃ rs', addAll (toD rs) ks = .ok (toD rs') ∧ Inv rs' (A ++ ks) := by
  induction ks generalizing rs A with
  | nil => exact ⟨rs, rfl, by simpa using h⟩
  | cons k ks ih =>
    obtain ⟨rs1, h1, i1⟩ := inv_add h (hk k (by simp))
    obtain ⟨rs2, h2, i2⟩ := ih i1 (fun r hr => hk r (by simp [hr]))
    refine ⟨rs2, ?_, by simpa using i2⟩
    simp only [addAll, h1, bind, Except.bind]
    exact h2

theorem inv_step {rs A : List (Range T)} (h : Inv rs A) (op : RsOp T) (hop : ∀ r ∈ op.ranges, r.Valid) :
    ∃ rs', stepRs (toD rs) op = .ok (toD rs') ∧ Inv rs' (liveStep A op) := by
  cases op with
  | add r => exact inv_add h (hop r (by simp [RsOp.ranges]))
  | addAll ks => exact inv_addAll h ks (fun r hr => hop r (by simpa [RsOp.ranges] using hr))
  | clear => exact ⟨[], clear_toD h.normal, inv_nil⟩

theorem inv_run_aux (ops : List (RsOp T)) (hops : ValidOps ops) {rs A : List (Range T)} (h : Inv rs A) :
    ∃ rs', runRs (toD rs) ops = .ok (toD rs') ∧ Inv rs' (ops.foldl liveStep A) := by
  induction ops generalizing rs A with
  | nil => exact ⟨rs, rfl, h⟩
  | cons op ops ih =>
    obtain ⟨rs1, h1, i1⟩ := inv_step h op (hops op (by simp))
    obtain ⟨rs2, h2, i2⟩ := ih (fun o ho => hops o (by simp [ho])) i1
    refine ⟨rs2, ?_, i2⟩
    simp only [runRs, h1, bind, Except.bind]
    exact h2

/-- Every history succeeds and establishes the invariant. -/
theorem inv_run (ops : List (RsOp T)) (hops : ValidOps ops) :
    ∃ rs, runRs RangeSet.create ops = .ok (toD rs) ∧ Inv rs (liveRanges ops) := inv_run_aux ops hops inv_nil

theorem Reachable.normal {d : RDict T} (h : Reachable d) : ∃ rs, d = toD rs ∧ Normal rs := by
  obtain ⟨ops, hv, hr⟩ := h
  obtain ⟨rs, h1, i⟩ := inv_run ops hv
  rw [h1] at hr; cases hr
  exact ⟨rs, rfl, i.normal⟩

/-! ### Uniqueness of least normal forms -/

theorem eq_of_same_members {rs1 rs2 : List (Range T)} (h1 : Normal rs1) (h2 : Normal rs2)
    (h : ∀ m, m ∈ rs1 ↔ m ∈ rs2) : rs1 = rs2 := by
  induction rs1 generalizing rs2 with
  | nil =>
    cases rs2 with
    | nil => rfl
    | cons b bs => exact absurd ((h b).2 (by simp)) (by simp)
  | cons a as ih =>
    cases rs2 with
    | nil => exact absurd ((h a).1 (by simp)) (by simp)
    | cons b bs =>
      have l1 := h1.lowers
      have l2 := h2.lowers
      rw [List.pairwise_cons] at l1 l2
      have hab : a = b := by
        rcases List.mem_cons.1 ((h a).1 (by simp)) with e | ha
        · exact e
        · rcases List.mem_cons.1 ((h b).2 (by simp)) with e | hb
          · exact e.symm
          · exact absurd ((l1.1 b hb).trans (l2.1 a ha)) (lt_irrefl _)
      subst hab
      congr 1
      have s1 := h1.sep
      have s2 := h2.sep
      rw [List.pairwise_cons] at s1 s2
      refine ih ⟨s1.2, fun m hm => h1.ne m (by simp [hm])⟩ ⟨s2.2, fun m hm => h2.ne m (by simp [hm])⟩ fun m => ?_
      constructor
      · intro hm
        rcases List.mem_cons.1 ((h m).1 (by simp [hm])) with e | hm'
        · subst e; exact absurd (l1.1 m hm) (lt_irrefl _)
        · exact hm'
      · intro hm
        rcases List.mem_cons.1 ((h m).2 (by simp [hm])) with e | hm'
        · subst e; exact absurd (l2.1 m hm) (lt_irrefl _)
        · exact hm'

theorem Normal.disconnectedFamily {rs : List (Range T)} (h : Normal rs) : Disconnected (· ∈ rs) :=
  fun _ _ ha hb hc => h.disconnected ha hb hc

theorem encloses_trans {a b c : Range T} (h1 : a.encloses b = true) (h2 : b.encloses c = true) :
    a.encloses c = true := by
  rw [Range.encloses_iff] at *
  exact ⟨h1.1.trans h2.1, h2.2.trans h1.2⟩

theorem encloses_antisymm {a b : Range T} (h1 : a.encloses b = true) (h2 : b.encloses a = true) : a = b := by
  rw [Range.encloses_iff] at *
  exact Range.ext' (le_antisymm h1.1 h2.1) (le_antisymm h2.2 h1.2)

theorem Normal.eq_of_encloses {rs : List (Range T)} (h : Normal rs) {a b : Range T} (ha : a ∈ rs) (hb : b ∈ rs)
    (he : a.encloses b = true) : a = b := by
  refine h.disconnected ha hb ?_
  rw [Range.encloses_iff] at he
  rw [Range.isConnected_iff]
  exact ⟨he.1.trans (h.ne b hb).le, (h.ne b hb).le.trans he.2⟩

theorem inv_unique {rs1 rs2 A B : List (Range T)} (h1 : Inv rs1 A) (h2 : Inv rs2 B)
    (hAB : ∀ a, a.isEmpty = false → (a ∈ A ↔ a ∈ B)) : rs1 = rs2 := by
  have c12 : ∀ m ∈ rs2, FamilyEncloses (· ∈ rs1) m :=
    h2.least _ h1.normal.disconnectedFamily fun a ha hae => h1.covers a ((hAB a hae).2 ha) hae
  have c21 : ∀ m ∈ rs1, FamilyEncloses (· ∈ rs2) m :=
    h1.least _ h2.normal.disconnectedFamily fun a ha hae => h2.covers a ((hAB a hae).1 ha) hae
  have key : ∀ {r1 r2 : List (Range T)}, Normal r1 → Normal r2 → (∀ m ∈ r2, FamilyEncloses (· ∈ r1) m) →
      (∀ m ∈ r1, FamilyEncloses (· ∈ r2) m) → ∀ m ∈ r2, m ∈ r1 := by
    intro r1 r2 n1 n2 c12 c21 m hm
    obtain ⟨f, hf, hfe⟩ := c12 m hm
    obtain ⟨g, hg, hge⟩ := c21 f hf
    have := n2.eq_of_encloses hg hm (encloses_trans hge hfe)
    subst this
    rw [← encloses_antisymm hfe hge]; exact hf
  exact eq_of_same_members h1.normal h2.normal fun m =>
    ⟨key h2.normal h1.normal c21 c12 m, key h1.normal h2.normal c12 c21 m⟩

/-! ### Queries -/

/-- The floor entry for `k` is any member whose cuts surround `k`. -/
theorem floor_eq {rs : List (Range T)} (h : Normal rs) {m : Range T} (hm : m ∈ rs) {k : Cut T} (h1 : m.lower ≤ k)
    (h2 : k ≤ m.upper) : (rs.filter fun r => decide (r.lower ≤ k)).getLast? = some m := by
  have hmF : m ∈ rs.filter fun r => decide (r.lower ≤ k) := List.mem_filter.2 ⟨hm, by simpa using h1⟩
  have hp : (rs.filter fun r => decide (r.lower ≤ k)).Pairwise fun a b => a.upper < b.lower :=
    List.Pairwise.filter _ h.sep
  cases hl : (rs.filter fun r => decide (r.lower ≤ k)).getLast? with
  | none => rw [List.getLast?_eq_none_iff] at hl; rw [hl] at hmF; simp at hmF
  | some x =>
    rcases pairwise_getLast? hp hl hmF with e | e
    · rw [e]
    · have hx := List.mem_of_getLast? hl
      have := (List.mem_filter.1 hx).2
      simp only [decide_eq_true_eq] at this
      exact absurd (h2.trans_lt e) (not_lt.2 this)

theorem floor_mem {rs : List (Range T)} {k : Cut T} {m : Range T}
    (h : (rs.filter fun r => decide (r.lower ≤ k)).getLast? = some m) : m ∈ rs ∧ m.lower ≤ k := by
  have := List.mem_filter.1 (List.mem_of_getLast? h)
  exact ⟨this.1, by simpa using this.2⟩

theorem rangeContaining_toD {rs : List (Range T)} (h : Normal rs) (v : T) :
    (∀ m, rangeContaining (toD rs) v = .ok (some m) ↔ m ∈ rs ∧ m.contains v = true) ∧
    (rangeContaining (toD rs) v = .ok none ↔ ∀ m ∈ rs, m.contains v = false) := by
  unfold rangeContaining
  rw [valueAtOrBelow_toD h]
  have key : ∀ m ∈ rs, m.contains v = true →
      (rs.filter fun r => decide (r.lower ≤ .belowValue v)).getLast? = some m := by
    intro m hm hv
    rw [Range.contains_iff] at hv
    exact floor_eq h hm hv.1 ((Cut.belowValue_lt_aboveValue v).le.trans hv.2)
  cases hf : (rs.filter fun r => decide (r.lower ≤ .belowValue v)).getLast? with
  | none =>
    simp only [bind, Except.bind]
    have hn : ∀ m ∈ rs, m.contains v = false := by
      intro m hm
      by_contra hc
      have := key m hm (by simpa using hc)
      rw [hf] at this; cases this
    refine ⟨fun m => ⟨by simp, fun ⟨h1, h2⟩ => ?_⟩, fun _ => hn, fun _ => by simp⟩
    rw [hn m h1] at h2; cases h2
  | some x =>
    have hx := floor_mem hf
    simp only [bind, Except.bind]
    by_cases hc : x.contains v = true
    · simp only [hc, if_true]
      refine ⟨fun m => ?_, by simp, fun hn => ?_⟩
      · constructor
        · intro e
          simp only [Except.ok.injEq, Option.some.injEq] at e
          subst e; exact ⟨hx.1, hc⟩
        · rintro ⟨h1, h2⟩
          have := key m h1 h2
          rw [hf] at this; rw [this]
      · rw [hn x hx.1] at hc; cases hc
    · simp only [hc]
      have hn : ∀ m ∈ rs, m.contains v = false := by
        intro m hm
        by_contra hc'
        have := key m hm (by simpa using hc')
        rw [hf] at this
        simp only [Option.some.injEq] at this
        subst this
        exact hc (by simpa using hc')
      refine ⟨fun m => ⟨by simp, fun ⟨h1, h2⟩ => ?_⟩, fun _ => hn, fun _ => by simp⟩
      rw [hn m h1] at h2; cases h2

theorem rangeEnclosing_toD {rs : List (Range T)} (h : Normal rs) {q : Range T} (hq : q.Valid) :
    (∀ m, rangeEnclosingRange (toD rs) q = .ok (some m) ↔ m ∈ rs ∧ m.encloses q = true) ∧
    (rangeEnclosingRange (toD rs) q = .ok none ↔ ∀ m ∈ rs, m.encloses q = false) := by
  unfold rangeEnclosingRange
  rw [valueAtOrBelow_toD h]
  have key : ∀ m ∈ rs, m.encloses q = true →
      (rs.filter fun r => decide (r.lower ≤ q.lower)).getLast? = some m := by
    intro m hm hv
    rw [Range.encloses_iff] at hv
    rw [Range.valid_iff] at hq
    exact floor_eq h hm hv.1 (hq.1.trans hv.2)
  cases hf : (rs.filter fun r => decide (r.lower ≤ q.lower)).getLast? with
  | none =>
    simp only [bind, Except.bind]
    have hn : ∀ m ∈ rs, m.encloses q = false := by
      intro m hm
      by_contra hc
      have := key m hm (by simpa using hc)
      rw [hf] at this; cases this
    refine ⟨fun m => ⟨by simp, fun ⟨h1, h2⟩ => ?_⟩, fun _ => hn, fun _ => by simp⟩
    rw [hn m h1] at h2; cases h2
  | some x =>
    have hx := floor_mem hf
    simp only [bind, Except.bind]
    by_cases hc : x.encloses q = true
    · simp only [hc, if_true]
      refine ⟨fun m => ?_, by simp, fun hn => ?_⟩
      · constructor
        · intro e
          simp only [Except.ok.injEq, Option.some.injEq] at e
          subst e; exact ⟨hx.1, hc⟩
        · rintro ⟨h1, h2⟩
          have := key m h1 h2
          rw [hf] at this; rw [this]
      · rw [hn x hx.1] at hc; cases hc
    · simp only [hc]
      have hn : ∀ m ∈ rs, m.encloses q = false := by
        intro m hm
        by_contra hc'
        have := key m hm (by simpa using hc')
        rw [hf] at this
        simp only [Option.some.injEq] at this
        subst this
        exact hc (by simpa using hc')
      refine ⟨fun m => ⟨by simp, fun ⟨h1, h2⟩ => ?_⟩, fun _ => hn, fun _ => by simp⟩
      rw [hn m h1] at h2; cases h2

/-- `encloses` answers according to `range_enclosing_range`; likewise `in` and `range_containing`. -/
theorem encloses_toD {rs : List (Range T)} (h : Normal rs) {q : Range T} (hq : q.Valid) :
    ∃ b, encloses (toD rs) q = .ok b ∧ (b = true ↔ ∃ m ∈ rs, m.encloses q = true) := by
  have hr := rangeEnclosing_toD h hq
  unfold rangeEnclosingRange at hr
  unfold encloses
  rw [valueAtOrBelow_toD h] at *
  simp only [bind, Except.bind] at *
  cases hf : (rs.filter fun r => decide (r.lower ≤ q.lower)).getLast? with
  | none =>
    rw [hf] at hr
    refine ⟨false, rfl, ?_⟩
    have := hr.2.1 rfl
    constructor
    · simp
    · rintro ⟨m, hm, he⟩; rw [this m hm] at he; cases he
  | some x =>
    rw [hf] at hr
    refine ⟨_, rfl, ?_⟩
    constructor
    · intro hx; exact ⟨x, (floor_mem hf).1, hx⟩
    · rintro ⟨m, hm, he⟩
      have := (hr.1 m).2 ⟨hm, he⟩
      by_contra hc
      simp [hc] at this

theorem contains_toD {rs : List (Range T)} (h : Normal rs) (v : T) :
    ∃ b, contains (toD rs) v = .ok b ∧ (b = true ↔ ∃ m ∈ rs, m.contains v = true) := by
  have hr := rangeContaining_toD h v
  unfold rangeContaining at hr
  unfold contains
  rw [valueAtOrBelow_toD h] at *
  simp only [bind, Except.bind] at *
  cases hf : (rs.filter fun r => decide (r.lower ≤ .belowValue v)).getLast? with
  | none =>
    rw [hf] at hr
    refine ⟨false, rfl, ?_⟩
    have := hr.2.1 rfl
    constructor
    · simp
    · rintro ⟨m, hm, he⟩; rw [this m hm] at he; cases he
  | some x =>
    rw [hf] at hr
    refine ⟨_, rfl, ?_⟩
    constructor
    · intro hx; exact ⟨x, (floor_mem hf).1, hx⟩
    · rintro ⟨m, hm, he⟩
      have := (hr.1 m).2 ⟨hm, he⟩
      by_contra hc
      simp [hc] at this

theorem enclosesAll_toD {rs : List (Range T)} (h : Normal rs) (qs : List (Range T)) (hq : ∀ q ∈ qs, q.Valid) :
    ∃ b, enclosesAll (toD rs) qs = .ok b ∧ (b = true ↔ ∀ q ∈ qs, ∃ m ∈ rs, m.encloses q = true) := by
  induction qs with
  | nil => exact ⟨true, rfl, by simp⟩
  | cons q qs ih =>
    obtain ⟨b, h1, h2⟩ := encloses_toD h (hq q (by simp))
    obtain ⟨b', h3, h4⟩ := ih (fun q hq' => hq q (by simp [hq']))
    simp only [enclosesAll, h1, bind, Except.bind]
    cases b with
    | false =>
      refine ⟨false, rfl, ?_⟩
      constructor
      · simp
      · intro h'; exact h2.2 (h' q (by simp))
    | true =>
      refine ⟨b', h3, ?_⟩
      rw [h4]
      constructor
      · intro h' x hx
        rcases List.mem_cons.1 hx with rfl | hx
        · exact h2.1 rfl
        · exact h' x hx
      · intro h' x hx; exact h' x (by simp [hx])

/-- Two ranges have a common non-empty sub-range. -/
def Overlap (m r : Range T) : Prop := max m.lower r.lower < min m.upper r.upper

theorem nonEmptyOverlap_some {m r : Range T} (hm : m.Valid) (hr : r.Valid) :
    ∃ b, nonEmptyOverlap (some m) r = .ok b ∧ (b = true ↔ Overlap m r) := by
  unfold nonEmptyOverlap
  simp only
  have hm' := (Range.valid_iff _).1 hm
  have hr' := (Range.valid_iff _).1 hr
  by_cases hc : m.isConnected r = true
  · simp only [hc, if_true, Range.intersection_eq m r hm hr]
    rw [Range.isConnected_iff] at hc
    have hok : Range.new (max m.lower r.lower) (min m.upper r.upper) = .ok ⟨max m.lower r.lower, min m.upper r.upper⟩ := by
      rw [Range.new_ok_iff]
      refine ⟨⟨max_le (le_min hm'.1 hc.1) (le_min hc.2 hr'.1), ?_, ?_⟩, rfl⟩
      · rcases max_choice m.lower r.lower with h | h <;> rw [h]
        exacts [hm'.2.1, hr'.2.1]
      · rcases min_choice m.upper r.upper with h | h <;> rw [h]
        exacts [hm'.2.2, hr'.2.2]
    rw [hok]
    refine ⟨_, rfl, ?_⟩
    rw [Bool.not_eq_true', Range.nonempty_iff (Range.valid_new hok)]
    rfl
  · have hcf : m.isConnected r = false := by simpa using hc
    simp only [hcf, Bool.false_eq_true, if_false]
    refine ⟨false, rfl, by simp, fun ho => absurd ?_ hc⟩
    rw [Range.isConnected_iff]
    unfold Overlap at ho
    exact ⟨(le_max_left _ _).trans (ho.le.trans (min_le_right _ _)), (le_max_right _ _).trans (ho.le.trans (min_le_left _ _))⟩

theorem intersects_toD {rs : List (Range T)} (h : Normal rs) {r : Range T} (hr : r.Valid) :
    ∃ b, intersects (toD rs) r = .ok b ∧ (b = true ↔ ∃ m ∈ rs, Overlap m r) := by
  unfold intersects
  rw [valueAtOrAbove_toD h, valueBelow_toD h]
  simp only [bind, Except.bind]
  -- a member starting at or above r.lower that overlaps makes the ceiling overlap
  have ceil : ∀ m ∈ rs, r.lower ≤ m.lower → Overlap m r →
      ∃ c, (rs.filter fun x => decide (r.lower ≤ x.lower)).head? = some c ∧ Overlap c r := by
    intro m hm hlow ho
    have hmF : m ∈ rs.filter fun x => decide (r.lower ≤ x.lower) := List.mem_filter.2 ⟨hm, by simpa using hlow⟩
    cases hh : (rs.filter fun x => decide (r.lower ≤ x.lower)).head? with
    | none => rw [List.head?_eq_none_iff] at hh; rw [hh] at hmF; simp at hmF
    | some c =>
      refine ⟨c, rfl, ?_⟩
      rcases pairwise_head? (List.Pairwise.filter _ h.lowers) hh hmF with e | e
      · rw [← e]; exact ho
      · have hc := List.mem_filter.1 (List.mem_of_head? hh)
        simp only [decide_eq_true_eq] at hc
        unfold Overlap at *
        rw [max_eq_left hc.2, lt_min_iff]
        exact ⟨h.ne c hc.1, e.trans (lt_of_le_of_lt (le_max_left _ _) (lt_of_lt_of_le ho (min_le_right _ _)))⟩
  have flr : ∀ m ∈ rs, m.lower < r.lower → Overlap m r →
      (rs.filter fun x => decide (x.lower < r.lower)).getLast? = some m := by
    intro m hm hlow ho
    have hmF : m ∈ rs.filter fun x => decide (x.lower < r.lower) := List.mem_filter.2 ⟨hm, by simpa using hlow⟩
    cases hl : (rs.filter fun x => decide (x.lower < r.lower)).getLast? with
    | none => rw [List.getLast?_eq_none_iff] at hl; rw [hl] at hmF; simp at hmF
    | some x =>
      rcases pairwise_getLast? (List.Pairwise.filter _ h.sep) hl hmF with e | e
      · rw [e]
      · have hx := (List.mem_filter.1 (List.mem_of_getLast? hl)).2
        simp only [decide_eq_true_eq] at hx
        unfold Overlap at ho
        have h1 : r.lower < m.upper := lt_of_le_of_lt (le_max_right _ _) (lt_of_lt_of_le ho (min_le_left _ _))
        exact absurd (h1.trans e) (not_lt.2 hx.le)
  -- second half
  have low : ∃ b, nonEmptyOverlap (rs.filter fun x => decide (x.lower < r.lower)).getLast? r = .ok b ∧
      ((b = true → ∃ m ∈ rs, Overlap m r) ∧ ((∃ m ∈ rs, m.lower < r.lower ∧ Overlap m r) → b = true)) := by
    cases hl : (rs.filter fun x => decide (x.lower < r.lower)).getLast? with
    | none =>
      refine ⟨false, rfl, by simp, ?_⟩
      rintro ⟨m, hm, hlow, ho⟩
      rw [flr m hm hlow ho] at hl; cases hl
    | some x =>
      have hx := List.mem_filter.1 (List.mem_of_getLast? hl)
      obtain ⟨b, hb1, hb2⟩ := nonEmptyOverlap_some (h.valid hx.1) hr
      refine ⟨b, hb1, fun h' => ⟨x, hx.1, hb2.1 h'⟩, ?_⟩
      rintro ⟨m, hm, hlow, ho⟩
      rw [flr m hm hlow ho] at hl
      simp only [Option.some.injEq] at hl
      subst hl
      exact hb2.2 ho
  obtain ⟨bl, hl1, hl2, hl3⟩ := low
  cases hc : (rs.filter fun x => decide (r.lower ≤ x.lower)).head? with
  | none =>
    simp only [nonEmptyOverlap] at hl1 ⊢
    refine ⟨bl, hl1, hl2, ?_⟩
    rintro ⟨m, hm, ho⟩
    by_cases hlow : m.lower < r.lower
    · exact hl3 ⟨m, hm, hlow, ho⟩
    · obtain ⟨c, hc', -⟩ := ceil m hm (not_lt.1 hlow) ho
      rw [hc] at hc'; cases hc'
  | some c =>
    have hcm := List.mem_filter.1 (List.mem_of_head? hc)
    obtain ⟨b, hb1, hb2⟩ := nonEmptyOverlap_some (h.valid hcm.1) hr
    rw [hb1]
    cases b with
    | true =>
      exact ⟨true, rfl, fun _ => ⟨c, hcm.1, hb2.1 rfl⟩, fun _ => rfl⟩
    | false =>
      refine ⟨bl, hl1, hl2, ?_⟩
      rintro ⟨m, hm, ho⟩
      by_cases hlow : m.lower < r.lower
      · exact hl3 ⟨m, hm, hlow, ho⟩
      · obtain ⟨c', hc', ho'⟩ := ceil m hm (not_lt.1 hlow) ho
        rw [hc] at hc'
        simp only [Option.some.injEq] at hc'
        subst hc'
        have := hb2.2 ho'
        cases this

theorem entryAt_toD {rs : List (Range T)} (h : Normal rs) {i : Nat} {m : Range T} (hi : rs[i]? = some m) :
    entryAt (toD rs) i = .ok m := by
  unfold entryAt
  have : (toD rs)[i]? = some (m.lower, m) := by
    unfold toD; rw [List.getElem?_map, hi]; rfl
  exact SortedDict.keyAt_bind_get h.sorted this

theorem overlapLoop_toD {rs : List (Range T)} (h : Normal rs) {r : Range T} (i n : Nat)
    (hin : i + n ≤ rs.length) :
    overlapLoop (toD rs) r i n = .ok (((rs.drop i).take n).filter fun m => m.intersects r) := by
  induction n generalizing i with
  | zero => simp [overlapLoop]
  | succ n ih =>
    have hi : i < rs.length := by omega
    have hg : rs[i]? = some rs[i] := List.getElem?_eq_getElem hi
    simp only [overlapLoop, entryAt_toD h hg, ih (i + 1) (by omega), bind, Except.bind]
    rw [List.drop_eq_getElem_cons hi, List.take_succ_cons, List.filter_cons]

theorem filter_eq_of_split {α : Type} {p : α → Bool} {l A B C : List α} (h : l = A ++ (B ++ C))
    (hA : ∀ a ∈ A, p a = false) (hC : ∀ a ∈ C, p a = false) : l.filter p = B.filter p := by
  have h1 : A.filter p = [] := List.filter_eq_nil_iff.2 fun a ha => by simp [hA a ha]
  have h2 : C.filter p = [] := List.filter_eq_nil_iff.2 fun a ha => by simp [hC a ha]
  rw [h, List.filter_append, List.filter_append, h1, h2]
  simp

theorem rangesOverlapping_toD {rs : List (Range T)} (h : Normal rs) {r : Range T} (hr : r.Valid) :
    rangesOverlapping (toD rs) r = .ok (rs.filter fun m => m.isConnected r) := by
  have hr' := (Range.valid_iff _).1 hr
  have hint : ∀ l : List (Range T), (∀ m ∈ l, m ∈ rs) → (l.filter fun m => m.intersects r) = l.filter fun m => m.isConnected r := by
    intro l hl
    apply List.filter_congr
    intro m hm
    exact Range.intersects_eq m r (h.valid (hl m hm)) hr
  unfold rangesOverlapping
  have hb1 : SortedDict.bisect (toD rs) r.lower = (rs.filter fun m => decide (m.lower ≤ r.lower)).length := by
    rw [SortedDict.bisect_eq, filter_toD (fun c => decide (c ≤ r.lower)), length_toD]
  have hb2 : SortedDict.bisect (toD rs) r.upper = (rs.filter fun m => decide (m.lower ≤ r.upper)).length := by
    rw [SortedDict.bisect_eq, filter_toD (fun c => decide (c ≤ r.upper)), length_toD]
  rw [hb1, hb2, length_toD]
  have sp1 := split_by (fun m : Range T => decide (m.lower ≤ r.lower)) rs h.lowers (by
    intro a b hab hb; simp only [decide_eq_true_eq] at *; exact hab.le.trans hb)
  have sp2 := split_by (fun m : Range T => decide (m.lower ≤ r.upper)) rs h.lowers (by
    intro a b hab hb; simp only [decide_eq_true_eq] at *; exact hab.le.trans hb)
  have hA1 : ∀ a ∈ rs.filter (fun m => decide (m.lower ≤ r.lower)), a.lower ≤ r.lower := by
    intro a ha; simpa using (List.mem_filter.1 ha).2
  have hB2 : ∀ a ∈ rs.filter (fun m => !decide (m.lower ≤ r.upper)), r.upper < a.lower := by
    intro a ha; simpa using (List.mem_filter.1 ha).2
  have hAB : (rs.filter fun m => decide (m.lower ≤ r.lower)).length ≤ (rs.filter fun m => decide (m.lower ≤ r.upper)).length := by
    rw [← List.countP_eq_length_filter, ← List.countP_eq_length_filter]
    apply List.countP_mono_left
    intro x _ hx
    simp only [decide_eq_true_eq] at *
    exact hx.trans hr'.1
  generalize rs.filter (fun m => decide (m.lower ≤ r.lower)) = A at *
  generalize rs.filter (fun m => !decide (m.lower ≤ r.lower)) = A' at *
  generalize rs.filter (fun m => decide (m.lower ≤ r.upper)) = B at *
  generalize rs.filter (fun m => !decide (m.lower ≤ r.upper)) = B' at *
  -- everything before the last element of A is not connected to r
  have pre : ∀ (A0 : List (Range T)) (x : Range T), A = A0 ++ [x] → ∀ a ∈ A0, a.isConnected r = false := by
    intro A0 x hA a ha
    have hs := h.sep
    rw [sp1, hA] at hs
    have h1 := (List.pairwise_append.1 (List.pairwise_append.1 hs).1).2.2 a ha x (by simp)
    have h2 := hA1 x (by rw [hA]; simp)
    rw [← Bool.not_eq_true, Range.isConnected_iff]
    rintro ⟨-, h3⟩
    exact absurd (h1.trans_le h2) (not_lt.2 h3)
  have post : ∀ a ∈ B', a.isConnected r = false := by
    intro a ha
    rw [← Bool.not_eq_true, Range.isConnected_iff]
    rintro ⟨h3, -⟩
    exact absurd h3 (not_le.2 (hB2 a ha))
  have lenA : rs.length = A.length + A'.length := by conv_lhs => rw [sp1]; simp
  have lenB : rs.length = B.length + B'.length := by conv_lhs => rw [sp2]; simp
  cases hrs : rs with
  | nil => rfl
  | cons r0 rs0 =>
    rw [← hrs]
    have hne : (toD rs).isEmpty = false := by rw [hrs]; rfl
    simp only [hne, Bool.false_eq_true, if_false]
    have hpos : 0 < rs.length := by rw [hrs]; simp
    by_cases hfl : A.length = rs.length
    · simp only [hfl, if_true]
      have hA'n : A' = [] := List.length_eq_zero_iff.1 (by omega)
      subst hA'n
      rw [List.append_nil] at sp1
      subst sp1
      rcases List.eq_nil_or_concat rs with e | ⟨A0, x, e⟩
      · rw [e] at hpos; simp at hpos
      · rw [List.concat_eq_append] at e
        have hg : rs[rs.length - 1]? = some x := by rw [e]; simp
        have hxc := hint [x] (by simp [e])
        simp only [List.filter_cons, List.filter_nil] at hxc
        simp only [entryAt_toD h hg, bind, Except.bind]
        rw [filter_eq_of_split (A := A0) (B := [x]) (C := []) (by simpa using e) (pre A0 x e) (by simp)]
        simp only [List.filter_cons, List.filter_nil]
        rw [hxc]
    · simp only [hfl, if_false]
      by_cases hto : B.length = 0
      · simp only [hto, if_true]
        have hBn : B = [] := List.length_eq_zero_iff.1 hto
        subst hBn
        rw [List.nil_append] at sp2
        have hg : rs[0]? = some r0 := by rw [hrs]; simp
        have hr0 : r0.isConnected r = false := post r0 (by rw [← sp2, hrs]; simp)
        have hr0i : r0.intersects r = false := by
          rw [Range.intersects_eq r0 r (h.valid (by rw [hrs]; simp)) hr]; exact hr0
        simp only [entryAt_toD h hg, bind, Except.bind, hr0i, Bool.false_eq_true, if_false]
        rw [List.filter_eq_nil_iff.2]
        intro a ha
        rw [sp2] at ha
        simp [post a ha]
      · simp only [hto, if_false]
        rw [overlapLoop_toD h _ _ (by omega)]
        congr 1
        rw [hint]
        · -- rs = take i ++ (middle ++ B')
          have hd : rs = rs.take (A.length - 1) ++ ((rs.drop (A.length - 1)).take (B.length - (A.length - 1)) ++ B') := by
            have e1 : rs.drop (A.length - 1) = (rs.drop (A.length - 1)).take (B.length - (A.length - 1)) ++
                (rs.drop (A.length - 1)).drop (B.length - (A.length - 1)) := (List.take_append_drop _ _).symm
            have e2 : (rs.drop (A.length - 1)).drop (B.length - (A.length - 1)) = B' := by
              rw [List.drop_drop]
              have : A.length - 1 + (B.length - (A.length - 1)) = B.length := by omega
              rw [this]
              conv_lhs => rw [sp2]
              simp
            rw [e2] at e1
            rw [← e1, List.take_append_drop]
          refine (filter_eq_of_split hd ?_ post).symm
          intro a ha
          rcases List.eq_nil_or_concat A with e | ⟨A0, x, e⟩
          · rw [e] at ha; simp at ha
          · rw [List.concat_eq_append] at e
            refine pre A0 x e a ?_
            have : rs.take (A.length - 1) = A0 := by
              conv_lhs => rw [sp1]
              rw [e]; simp
            rw [this] at ha; exact ha
        · intro m hm
          exact List.mem_of_mem_drop (List.mem_of_mem_take hm)

theorem findIdx_toD {rs : List (Range T)} (h : Normal rs) {i : Nat} {m : Range T} (hi : rs[i]? = some m) :
    SortedDict.index (toD rs) m.lower = .ok i := by
  unfold SortedDict.index
  have : (toD rs).findIdx? (fun e => decide (e.1 = m.lower)) = some i := by
    rw [List.findIdx?_eq_some_iff_getElem]
    have hil : i < rs.length := by
      by_contra hc
      rw [List.getElem?_eq_none (by omega)] at hi; cases hi
    have hge : rs[i] = m := by
      rw [List.getElem?_eq_getElem hil] at hi
      simpa using hi
    refine ⟨by simpa using hil, by simp [toD, hge], ?_⟩
    intro j hj
    have hlt := (List.pairwise_iff_getElem.1 h.lowers) j i (by omega) hil hj
    simp only [toD, List.getElem_map, decide_eq_true_eq]
    rw [← hge]
    exact ne_of_lt hlt
  rw [this]

theorem enclosedLoop_eq {q : Range T} {l : List (Range T)} (h : Normal l) (hl : ∀ m ∈ l, q.lower ≤ m.lower) :
    enclosedLoop q l = l.filter fun m => q.encloses m := by
  induction l with
  | nil => rfl
  | cons x xs ih =>
    have hs := h.uppers
    rw [List.pairwise_cons] at hs
    have hsep := h.sep
    rw [List.pairwise_cons] at hsep
    have hn : Normal xs := ⟨hsep.2, fun m hm => h.ne m (by simp [hm])⟩
    simp only [enclosedLoop, List.filter_cons]
    by_cases hx : q.encloses x = true
    · simp only [hx, if_true]
      rw [ih hn (fun m hm => hl m (by simp [hm]))]
    · simp only [hx]
      symm
      rw [List.filter_eq_nil_iff.2]
      · rfl
      intro m hm hc
      rw [Range.encloses_iff] at hx hc
      exact hx ⟨hl x (by simp), (hs.1 m hm).le.trans hc.2⟩

theorem rangesEnclosedBy_toD {rs : List (Range T)} (h : Normal rs) (q : Range T) :
    rangesEnclosedBy (toD rs) q = .ok (rs.filter fun m => q.encloses m) := by
  unfold rangesEnclosedBy
  rw [valueAtOrAbove_toD h]
  have sp := split_by (fun m : Range T => decide (m.lower < q.lower)) rs h.lowers (by
    intro a b hab hb; simp only [decide_eq_true_eq] at *; exact hab.trans hb)
  have hfe : (rs.filter fun m => !decide (m.lower < q.lower)) = rs.filter fun m => decide (q.lower ≤ m.lower) := by
    apply List.filter_congr
    intro m _
    simp [← decide_not]
  rw [hfe] at sp
  have hA : ∀ a ∈ rs.filter (fun m => decide (m.lower < q.lower)), q.encloses a = false := by
    intro a ha
    have := (List.mem_filter.1 ha).2
    simp only [decide_eq_true_eq] at this
    rw [← Bool.not_eq_true, Range.encloses_iff]
    rintro ⟨h1, -⟩
    exact absurd this (not_lt.2 h1)
  have hB : ∀ a ∈ rs.filter (fun m => decide (q.lower ≤ m.lower)), q.lower ≤ a.lower := by
    intro a ha; simpa using (List.mem_filter.1 ha).2
  generalize rs.filter (fun m => decide (m.lower < q.lower)) = A at *
  generalize rs.filter (fun m => decide (q.lower ≤ m.lower)) = B at *
  have hfil : rs.filter (fun m => q.encloses m) = B.filter fun m => q.encloses m :=
    filter_eq_of_split (A := A) (B := B) (C := []) (by simpa using sp) hA (by simp)
  rw [hfil]
  cases B with
  | nil => rfl
  | cons b B =>
    simp only [List.head?_cons, bind, Except.bind]
    have hi : rs[A.length]? = some b := by rw [sp]; simp
    rw [findIdx_toD h hi]
    simp only [values_toD]
    congr 1
    have hd : rs.drop A.length = b :: B := by rw [sp]; simp
    rw [hd]
    apply enclosedLoop_eq _ hB
    have hn := h
    rw [sp] at hn
    exact ⟨(List.pairwise_append.1 hn.sep).2.1, fun m hm => hn.ne m (List.mem_append.2 (.inr hm))⟩

theorem notAbove_iff (m : Range T) (limit : T) : NotAbove m limit ↔ m.lower ≤ .belowValue limit := by
  unfold NotAbove
  have hg : Range.greaterThan limit = .ok ⟨.aboveValue limit, .aboveAll⟩ := (Range.new_ok_iff _ _ _).2 ⟨by simp, rfl⟩
  rw [hg]
  simp only [Except.ok.injEq, forall_eq']
  rw [← Bool.not_eq_true, Range.encloses_iff]
  simp only [Cut.le_aboveAll, and_true, not_le]
  exact Cut.lt_aboveValue_iff _ _

theorem notBelow_iff (m : Range T) (limit : T) : NotBelow m limit ↔ .aboveValue limit ≤ m.upper := by
  unfold NotBelow
  have hg : Range.lessThan limit = .ok ⟨.belowAll, .belowValue limit⟩ := (Range.new_ok_iff _ _ _).2 ⟨by simp, rfl⟩
  rw [hg]
  simp only [Except.ok.injEq, forall_eq']
  rw [← Bool.not_eq_true, Range.encloses_iff]
  simp only [Cut.belowAll_le, true_and, not_le]
  exact Cut.belowValue_lt_iff _ _

theorem rightmost_toD {rs : List (Range T)} (h : Normal rs) (limit : T) :
    rightmostContainingOrBelow (toD rs) limit = .ok (rs.filter fun m => decide (m.lower ≤ .belowValue limit)).getLast? :=
  valueAtOrBelow_toD h _

theorem leftmost_toD {rs : List (Range T)} (h : Normal rs) (limit : T) :
    leftmostContainingOrAbove (toD rs) limit = .ok (rs.find? fun m => decide (Cut.aboveValue limit ≤ m.upper)) := by
  unfold leftmostContainingOrAbove
  have hb : SortedDict.bisectLeft (toD rs) (.aboveValue limit) = (rs.filter fun m => decide (m.lower < .aboveValue limit)).length := by
    rw [SortedDict.bisectLeft_eq, filter_toD (fun c => decide (c < .aboveValue limit)), length_toD]
  simp only [hb]
  have sp := split_by (fun m : Range T => decide (m.lower < .aboveValue limit)) rs h.lowers (by
    intro a b hab hb; simp only [decide_eq_true_eq] at *; exact hab.trans hb)
  have hA : ∀ a ∈ rs.filter (fun m => decide (m.lower < .aboveValue limit)), a.lower < .aboveValue limit := by
    intro a ha; simpa using (List.mem_filter.1 ha).2
  have hB : ∀ a ∈ rs.filter (fun m => !decide (m.lower < .aboveValue limit)), .aboveValue limit ≤ a.lower := by
    intro a ha; simpa using (List.mem_filter.1 ha).2
  generalize rs.filter (fun m => decide (m.lower < .aboveValue limit)) = A at *
  generalize rs.filter (fun m => !decide (m.lower < .aboveValue limit)) = B at *
  have len : rs.length = A.length + B.length := by conv_lhs => rw [sp]; simp
  have tail : leftmostTail (toD rs) A.length = .ok (B.find? fun m => decide (Cut.aboveValue limit ≤ m.upper)) := by
    unfold leftmostTail
    rw [length_toD]
    cases B with
    | nil =>
      have : ¬ A.length < rs.length := by simp at len; omega
      simp [this]
    | cons b B =>
      have hlt : A.length < rs.length := by simp at len; omega
      have hi : rs[A.length]? = some b := by rw [sp]; simp
      simp only [hlt, if_true, entryAt_toD h hi, bind, Except.bind]
      have hb : Cut.aboveValue limit ≤ b.upper :=
        (hB b (by simp)).trans (h.ne b (by rw [sp]; simp)).le
      simp [hb]
  rcases List.eq_nil_or_concat A with e | ⟨A0, x, e⟩
  · subst e
    simp only [List.nil_append] at sp
    subst sp
    simpa using tail
  · rw [List.concat_eq_append] at e
    have hlen : A.length ≥ 1 := by rw [e]; simp
    have hi : rs[A.length - 1]? = some x := by rw [sp, e]; simp
    simp only [hlen, if_true, entryAt_toD h hi, bind, Except.bind]
    have hpre : ∀ a ∈ A0, ¬ Cut.aboveValue limit ≤ a.upper := by
      intro a ha
      have hs := h.sep
      rw [sp, e] at hs
      have h1 := (List.pairwise_append.1 (List.pairwise_append.1 hs).1).2.2 a ha x (by simp)
      exact not_le.2 (h1.trans (hA x (by rw [e]; simp)))
    have hfind : rs.find? (fun m => decide (Cut.aboveValue limit ≤ m.upper)) =
        if Cut.aboveValue limit ≤ x.upper then some x else B.find? fun m => decide (Cut.aboveValue limit ≤ m.upper) := by
      rw [sp, e, List.find?_append, List.find?_append]
      have : A0.find? (fun m => decide (Cut.aboveValue limit ≤ m.upper)) = none := by
        rw [List.find?_eq_none]; intro a ha; simpa using hpre a ha
      rw [this]
      by_cases hx : Cut.aboveValue limit ≤ x.upper <;> simp [hx]
    rw [hfind]
    by_cases hx : Cut.aboveValue limit ≤ x.upper
    · simp [hx]
    · simp only [hx, if_false]
      exact tail

theorem span_toD {rs : List (Range T)} (h : Normal rs) :
    (rs = [] → span (toD rs) = .error .valueError) ∧
    (∀ a b, rs.head? = some a → rs.getLast? = some b → span (toD rs) = .ok ⟨a.lower, b.upper⟩) := by
  constructor
  · rintro rfl; rfl
  · intro a b ha hb
    unfold span RangeSet.isEmpty
    rw [length_toD]
    have hne : rs ≠ [] := by intro e; rw [e] at ha; simp at ha
    have hl : ¬ rs.length = 0 := by simpa using hne
    simp only [hl, decide_false, Bool.false_eq_true, if_false]
    have h0 : SortedDict.valueAt (toD rs) 0 = .ok a := by
      unfold SortedDict.valueAt toD
      rw [List.getElem?_map, ← List.head?_eq_getElem?, ha]; rfl
    have h1 : SortedDict.valueAt (toD rs) (rs.length - 1) = .ok b := by
      unfold SortedDict.valueAt toD
      rw [List.getElem?_map, ← List.getLast?_eq_getElem?, hb]; rfl
    rw [h0, h1]
    simp only [bind, Except.bind]
    have ham := List.mem_of_head? ha
    have hab : a.lower < b.upper := by
      rcases pairwise_head? h.uppers ha (List.mem_of_getLast? hb) with e | e
      · rw [e]; exact h.ne a ham
      · exact (h.ne a ham).trans e
    exact (Range.new_ok_iff _ _ _).2 ⟨(Range.valid_iff _).1 (Range.valid_of_lt (r := ⟨a.lower, b.upper⟩) hab), rfl⟩

theorem setState_toD {rs : List (Range T)} (h : Normal rs) : setState rs = toD rs :=
  SortedDict.ofList_sorted h.sorted

end Vista
