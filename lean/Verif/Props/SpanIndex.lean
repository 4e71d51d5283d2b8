import Verif.Props.Span

/-!
# Properties C28-C29: `HasSpanIndex`

Items are of any type `I`, with a function giving the span of an item.
-/
set_option linter.unusedSectionVars false
namespace Vista
open RangeSet
variable {I : Type}

/-! ## C28 -/

section Overlapping
variable [DecidableEq I] (span : I → Span)

set_option linter.unusedSimpArgs false in
theorem multiPut_spec (k : Span) (v : I) {d : List (Span × List I)} (hd : (d.map (·.1)).Nodup) :
    ((multiPut k v d).map (·.1)).Nodup ∧ (∀ k', k' ∈ (multiPut k v d).map (·.1) ↔ k' = k ∨ k' ∈ d.map (·.1)) ∧
    (∀ k' w, w ∈ OverlappingIndex.get (multiPut k v d) k' ↔ (k' = k ∧ w = v) ∨ w ∈ OverlappingIndex.get d k') ∧
    ((∀ k', (OverlappingIndex.get d k').Nodup) → ∀ k', (OverlappingIndex.get (multiPut k v d) k').Nodup) := by
  induction d with
  | nil =>
    refine ⟨by simp [multiPut], by simp [multiPut], ?_, ?_⟩
    · intro k' w
      by_cases h : k' = k
      · subst h; simp [multiPut, OverlappingIndex.get, List.lookup]
      · have : (k' == k) = false := by simpa using h
        simp [multiPut, OverlappingIndex.get, List.lookup, this, h]
    · intro _ k'
      by_cases h : k' = k
      · subst h; simp [multiPut, OverlappingIndex.get, List.lookup]
      · have : (k' == k) = false := by simpa using h
        simp [multiPut, OverlappingIndex.get, List.lookup, this]
  | cons e d ih =>
    obtain ⟨a, vs⟩ := e
    simp only [List.map_cons, List.nodup_cons] at hd
    obtain ⟨h1, h2, h3, h4⟩ := ih hd.2
    unfold multiPut
    by_cases hk : a = k
    · subst hk
      rw [if_pos rfl]
      refine ⟨by simpa using hd, by simp, ?_, ?_⟩
      · intro k' w
        by_cases h : k' = a
        · subst h
          simp only [OverlappingIndex.get, List.lookup, beq_self_eq_true, Option.getD_some, true_and]
          by_cases hv : v ∈ vs
          · rw [if_pos hv]
            constructor
            · exact .inr
            · rintro (rfl | h)
              · exact hv
              · exact h
          · rw [if_neg hv]; simp [or_comm]
        · have hb : (k' == a) = false := by simpa using h
          simp [OverlappingIndex.get, List.lookup, hb, h]
      · intro hn k'
        by_cases h : k' = a
        · subst h
          have := hn k'
          simp only [OverlappingIndex.get, List.lookup, beq_self_eq_true, Option.getD_some] at this ⊢
          by_cases hv : v ∈ vs
          · rw [if_pos hv]; exact this
          · rw [if_neg hv]
            rw [List.nodup_append]
            refine ⟨this, by simp, ?_⟩
            intro x hx y hy
            simp only [List.mem_singleton] at hy
            subst hy; rintro rfl; exact hv hx
        · have hb : (k' == a) = false := by simpa using h
          have := hn k'
          simp only [OverlappingIndex.get, List.lookup, hb] at this ⊢
          exact this
    · rw [if_neg hk]
      refine ⟨?_, ?_, ?_, ?_⟩
      · simp only [List.map_cons, List.nodup_cons]
        refine ⟨?_, h1⟩
        rw [h2]; rintro (e | e)
        · exact hk e
        · exact hd.1 e
      · intro k'
        simp only [List.map_cons, List.mem_cons, h2]; tauto
      · intro k' w
        by_cases h : k' = a
        · subst h
          simp [OverlappingIndex.get, List.lookup, hk]
        · have hb : (k' == a) = false := by simpa using h
          have := h3 k' w
          simp only [OverlappingIndex.get, List.lookup, hb] at this ⊢
          exact this
      · intro hn k'
        by_cases h : k' = a
        · subst h
          have := hn k'
          simp only [OverlappingIndex.get, List.lookup, beq_self_eq_true] at this ⊢
          exact this
        · have hb : (k' == a) = false := by simpa using h
          have := h4 (fun k'' => ?_) k'
          · simp only [OverlappingIndex.get, List.lookup, hb] at this ⊢
            exact this
          · by_cases hka : k'' = a
            · subst hka
              have : List.lookup k'' d = none := (lookup_none_iff d k'').2 hd.1
              simp [OverlappingIndex.get, this]
            · have hb' : (k'' == a) = false := by simpa using hka
              have := hn k''
              simp only [OverlappingIndex.get, List.lookup, hb'] at this ⊢
              exact this

theorem spanIndex_concat (items : List I) (it : I) :
    spanIndex span (items ++ [it]) = multiPut (span it) it (spanIndex span items) := by
  simp [spanIndex, List.foldl_append]

theorem spanIndex_spec (items : List I) :
    ((spanIndex span items).map (·.1)).Nodup ∧
    (∀ k, k ∈ (spanIndex span items).map (·.1) ↔ ∃ it ∈ items, span it = k) ∧
    (∀ k it, it ∈ OverlappingIndex.get (spanIndex span items) k ↔ it ∈ items ∧ span it = k) ∧
    (∀ k, (OverlappingIndex.get (spanIndex span items) k).Nodup) := by
  induction h : items.length generalizing items with
  | zero =>
    rw [List.length_eq_zero_iff.1 h]
    simp [spanIndex, OverlappingIndex.get]
  | succ n ih =>
    rcases List.eq_nil_or_concat items with rfl | ⟨ys, e, rfl⟩
    · simp at h
    · rw [List.concat_eq_append] at h ⊢
      obtain ⟨h1, h2, h3, h4⟩ := ih ys (by simpa using h)
      obtain ⟨g1, g2, g3, g4⟩ := multiPut_spec (span e) e h1
      rw [spanIndex_concat]
      refine ⟨g1, ?_, ?_, g4 h4⟩
      · intro k
        rw [g2, h2]
        simp only [List.mem_append, List.mem_singleton]
        constructor
        · rintro (rfl | ⟨it, hi, rfl⟩)
          · exact ⟨e, .inr rfl, rfl⟩
          · exact ⟨it, .inl hi, rfl⟩
        · rintro ⟨it, hi | rfl, rfl⟩
          · exact .inr ⟨it, hi, rfl⟩
          · exact .inl rfl
      · intro k it
        rw [g3, h3]
        simp only [List.mem_append, List.mem_singleton]
        constructor
        · rintro (⟨rfl, rfl⟩ | ⟨a, b⟩)
          · exact ⟨.inr rfl, rfl⟩
          · exact ⟨.inl a, b⟩
        · rintro ⟨a | rfl, rfl⟩
          · exact .inr ⟨a, rfl⟩
          · exact .inl ⟨rfl, rfl⟩

theorem select_spec (items : List I) (p : Span → Bool) :
    (∀ it, it ∈ OverlappingIndex.select (spanIndex span items) p ↔ it ∈ items ∧ p (span it) = true) ∧
    (OverlappingIndex.select (spanIndex span items) p).Nodup := by
  obtain ⟨h1, h2, h3, h4⟩ := spanIndex_spec span items
  constructor
  · intro it
    simp only [OverlappingIndex.select, List.mem_flatMap, List.mem_filter, h3, h2]
    constructor
    · rintro ⟨k, -, ⟨hi, rfl⟩, hp⟩; exact ⟨hi, hp⟩
    · rintro ⟨hi, hp⟩; exact ⟨span it, ⟨it, hi, rfl⟩, ⟨hi, rfl⟩, hp⟩
  · unfold OverlappingIndex.select List.Nodup
    rw [List.pairwise_flatMap]
    refine ⟨fun k _ => (h4 k).filter _, h1.imp ?_⟩
    intro a b hab x hx y hy hxy
    subst hxy
    have e1 := ((h3 a x).1 (List.mem_filter.1 hx).1).2
    have e2 := ((h3 b x).1 (List.mem_filter.1 hy).1).2
    exact hab (e1.symm.trans e2)

/-- Each query of an index returns, without repetition, exactly the indexed items whose span is related to the query span
(`overlaps` / `containsSpan` are characterised by offsets in C24). -/
theorem C28_index (items : List I) (q : Span) :
    (∀ it, it ∈ OverlappingIndex.getExactlyMatching (spanIndex span items) q ↔ it ∈ items ∧ span it = q) ∧
    (∀ it, it ∈ OverlappingIndex.getOverlapping (spanIndex span items) q ↔ it ∈ items ∧ (span it).overlaps q = true) ∧
    (∀ it, it ∈ OverlappingIndex.getContained (spanIndex span items) q ↔ it ∈ items ∧ q.containsSpan (span it) = true) ∧
    (∀ it, it ∈ OverlappingIndex.getContaining (spanIndex span items) q ↔ it ∈ items ∧ (span it).containsSpan q = true) ∧
    (OverlappingIndex.getExactlyMatching (spanIndex span items) q).Nodup ∧
    (OverlappingIndex.getOverlapping (spanIndex span items) q).Nodup ∧
    (OverlappingIndex.getContained (spanIndex span items) q).Nodup ∧
    (OverlappingIndex.getContaining (spanIndex span items) q).Nodup :=
  ⟨fun it => (spanIndex_spec span items).2.2.1 q it, (select_spec span items _).1, (select_spec span items _).1,
    (select_spec span items _).1, (spanIndex_spec span items).2.2.2 q, (select_spec span items _).2,
    (select_spec span items _).2, (select_spec span items _).2⟩

end Overlapping

/-- Items for the examples: a name and a span. -/
abbrev ExItem := Nat × Span

example : OverlappingIndex.getOverlapping (spanIndex (fun i : ExItem => i.2) [(1, ⟨0, 5⟩), (2, ⟨5, 9⟩), (3, ⟨0, 5⟩), (4, ⟨3, 6⟩)]) ⟨4, 5⟩ =
    [(1, ⟨0, 5⟩), (3, ⟨0, 5⟩), (4, ⟨3, 6⟩)] := by decide +kernel

/-! ## C29 -/

/-- The item the index keeps for its span: the last one given with that span. -/
def LastWithSpan (span : I → Span) (items : List I) (it : I) : Prop :=
  ∃ pre post, items = pre ++ it :: post ∧ ∀ x ∈ post, span x ≠ span it

/-- When all spans are distinct, every item is kept. -/
theorem lastWithSpan_of_distinct {span : I → Span} {items : List I} (h : (items.map span).Nodup) (it : I) :
    LastWithSpan span items it ↔ it ∈ items := by
  constructor
  · rintro ⟨pre, post, rfl, -⟩; simp
  · intro hi
    obtain ⟨pre, post, rfl⟩ := List.append_of_mem hi
    refine ⟨pre, post, rfl, fun x hx he => ?_⟩
    simp only [List.map_append, List.map_cons] at h
    have := (List.nodup_append.1 h).2.1
    rw [List.nodup_cons] at this
    exact this.1 (List.mem_map.2 ⟨x, hx, he⟩)

variable {span : I → Span}

theorem rangePairs_ok {items : List I} (hv : ∀ it ∈ items, (span it).Valid) :
    DisjointIndex.rangePairs span items = .ok (items.map fun it => ((span it).rng, it)) := by
  induction items with
  | nil => rfl
  | cons it items ih =>
    have h1 := Span.asRange_ok ((Span.valid_iff _).1 (hv it (by simp)))
    simp only [DisjointIndex.rangePairs, h1, ih fun x hx => hv x (by simp [hx]), bind, Except.bind, List.map_cons]

theorem Span.rng_inj {a b : Span} (h : a.rng = b.rng) : a = b := by
  cases a; cases b
  simp only [Range.mk.injEq, Cut.belowValue.injEq, Cut.aboveValue.injEq] at h
  simp only [Span.mk.injEq]; omega

theorem Span.rng_connected (a b : Span) : a.rng.isConnected b.rng = a.overlaps b := by
  rw [Bool.eq_iff_iff, Range.isConnected_iff, Span.overlaps_iff]
  simp only [Cut.belowValue_le_aboveValue]; omega

theorem Span.rng_encloses (a b : Span) : a.rng.encloses b.rng = a.containsSpan b := by
  rw [Bool.eq_iff_iff, Range.encloses_iff, Span.containsSpan_iff]
  simp only [Cut.belowValue_le_belowValue, Cut.aboveValue_le_aboveValue]; omega

theorem Span.rng_contains (a : Span) (i : Int) : a.rng.contains i = a.containsOffset i := by
  rw [Bool.eq_iff_iff, Range.contains_iff, Span.containsOffset_iff]
  simp only [Cut.belowValue_le_belowValue, Cut.aboveValue_le_aboveValue]; omega

/-- The dict of the index. -/
abbrev spanDict (span : I → Span) (items : List I) : List (Range Int × I) := dictOf (items.map fun it => ((span it).rng, it))

theorem spanDict_mem (items : List I) (r : Range Int) (it : I) :
    (r, it) ∈ spanDict span items ↔ LastWithSpan span items it ∧ r = (span it).rng := by
  unfold spanDict
  rw [mem_dictOf]
  constructor
  · rintro ⟨pre, post, h1, h2⟩
    obtain ⟨a, b, rfl, rfl, hb⟩ := List.map_eq_append_iff.1 h1
    obtain ⟨c, d, rfl, hc, rfl⟩ := List.map_eq_cons_iff.1 hb
    simp only [Prod.mk.injEq] at hc
    obtain ⟨rfl, rfl⟩ := hc
    refine ⟨⟨a, d, rfl, fun x hx he => ?_⟩, rfl⟩
    exact h2 _ (List.mem_map.2 ⟨x, hx, rfl⟩) (by simp only; rw [he])
  · rintro ⟨⟨pre, post, rfl, h2⟩, rfl⟩
    refine ⟨pre.map fun it => ((span it).rng, it), post.map fun it => ((span it).rng, it), by simp, ?_⟩
    intro e he
    obtain ⟨x, hx, rfl⟩ := List.mem_map.1 he
    exact fun h => h2 x hx (Span.rng_inj h)

theorem spanDict_key (items : List I) (r : Range Int) :
    r ∈ (spanDict span items).map (·.1) ↔ ∃ it ∈ items, r = (span it).rng := by
  unfold spanDict
  rw [keys_dictOf]
  simp only [List.map_map, List.mem_map, Function.comp]
  constructor
  · rintro ⟨it, h, rfl⟩; exact ⟨it, h, rfl⟩
  · rintro ⟨it, h, rfl⟩; exact ⟨it, h, rfl⟩

theorem spanDict_isMapping {items : List I} (hv : ∀ it ∈ items, (span it).Valid) : IsMapping (spanDict span items) := by
  refine ⟨nodup_dictOf _, ?_⟩
  intro k hk
  obtain ⟨it, hi, rfl⟩ := (spanDict_key _ _).1 hk
  exact Span.rng_valid ((Span.valid_iff _).1 (hv it hi))

theorem build_eq {items : List I} (hv : ∀ it ∈ items, (span it).Valid) :
    DisjointIndex.build span items = RangeMap.new (spanDict span items) := by
  simp only [DisjointIndex.build, rangePairs_ok hv, bind, Except.bind]

/-- `index_disjoint` raises `ValueError` iff two items have different spans that share an offset (spans that merely touch
are fine). -/
theorem C29_accepts (items : List I) (hv : ∀ it ∈ items, (span it).Valid) :
    ((∃ a ∈ items, ∃ b ∈ items, span a ≠ span b ∧ (span a).overlaps (span b) = true) →
      DisjointIndex.build span items = .error .valueError) ∧
    ((∀ a ∈ items, ∀ b ∈ items, span a ≠ span b → (span a).overlaps (span b) = false) →
      ∃ m, DisjointIndex.build span items = .ok m) := by
  rw [build_eq hv]
  obtain ⟨h1, h2⟩ := C21_accepts (spanDict span items) (spanDict_isMapping hv)
  constructor
  · rintro ⟨a, ha, b, hb, hne, ho⟩
    refine h1 (.inr ⟨(span a).rng, (spanDict_key _ _).2 ⟨a, ha, rfl⟩, (span b).rng, (spanDict_key _ _).2 ⟨b, hb, rfl⟩,
      fun h => hne (Span.rng_inj h), ?_⟩)
    rw [Span.rng_connected, ho]
  · intro hd
    obtain ⟨m, hm, -⟩ := h2 (fun k hk => by
        obtain ⟨it, hi, rfl⟩ := (spanDict_key _ _).1 hk
        have := (Span.valid_iff _).1 (hv it hi)
        rw [← Bool.not_eq_true, Range.isEmpty_iff]; simp)
      (fun k₁ hk₁ k₂ hk₂ hne => by
        obtain ⟨a, ha, rfl⟩ := (spanDict_key _ _).1 hk₁
        obtain ⟨b, hb, rfl⟩ := (spanDict_key _ _).1 hk₂
        rw [Span.rng_connected]
        exact hd a ha b hb fun h => hne (by rw [h]))
    exact ⟨m, hm⟩

/-- The queries of a disjoint index: exactly the (kept) items whose span is related to the query. -/
theorem C29_queries (items : List I) (hv : ∀ it ∈ items, (span it).Valid) (m : RangeMap Int I)
    (hm : DisjointIndex.build span items = .ok m) (q : Span) (hq : q.Valid) :
    (∃ o, DisjointIndex.getExactlyMatching m q = .ok o ∧ ∀ it, o = some it ↔ LastWithSpan span items it ∧ span it = q) ∧
    (∃ l, DisjointIndex.getOverlapping m q = .ok l ∧
      ∀ it, it ∈ l ↔ LastWithSpan span items it ∧ (span it).overlaps q = true) ∧
    (∃ l, DisjointIndex.getContained m q = .ok l ∧
      ∀ it, it ∈ l ↔ LastWithSpan span items it ∧ q.containsSpan (span it) = true) := by
  have hM := spanDict_isMapping hv
  rw [build_eq hv] at hm
  have hr := Span.asRange_ok ((Span.valid_iff _).1 hq)
  have hc := C23_get_enclosed_by _ hM _ hm q.rng
  obtain ⟨rs, rfl, hn, hp⟩ := RangeMap.new_ok hM hm
  refine ⟨?_, ?_, ?_⟩
  · refine ⟨(spanDict span items).lookup q.rng, ?_, fun it => ?_⟩
    · simp only [DisjointIndex.getExactlyMatching, hr, bind, Except.bind]
    · rw [lookup_iff_mem hM.distinct, spanDict_mem]
      constructor
      · rintro ⟨h1, h2⟩; exact ⟨h1, (Span.rng_inj h2).symm⟩
      · rintro ⟨h1, h2⟩; exact ⟨h1, by rw [h2]⟩
  · have ho := rangesOverlapping_toD hn (Span.rng_valid ((Span.valid_iff _).1 hq))
    obtain ⟨vs, h1, h2⟩ := RangeMap.lookupAll_ok (d := toD rs) hM (rs.filter fun m => m.isConnected q.rng)
      (fun r hr => hp.mem_iff.1 (List.mem_filter.1 hr).1)
    refine ⟨vs, ?_, ?_⟩
    · simp only [DisjointIndex.getOverlapping, hr, bind, Except.bind, ho]
      exact h1
    · intro it
      constructor
      · intro hi
        obtain ⟨r, hr', hri⟩ := forall₂_mem_right h2 hi
        obtain ⟨h3, rfl⟩ := (spanDict_mem _ _ _).1 hri
        have := (List.mem_filter.1 hr').2
        rw [Span.rng_connected] at this
        exact ⟨h3, this⟩
      · rintro ⟨hl, ho'⟩
        have hmem := (spanDict_mem items (span it).rng it).2 ⟨hl, rfl⟩
        have hf : (span it).rng ∈ rs.filter fun m => m.isConnected q.rng := by
          refine List.mem_filter.2 ⟨hp.mem_iff.2 (List.mem_map.2 ⟨_, hmem, rfl⟩), ?_⟩
          rw [Span.rng_connected, ho']
        obtain ⟨w, hw, hwm⟩ := forall₂_mem_left h2 hf
        rw [value_unique hM hmem hwm]; exact hw
  · obtain ⟨vs, h1, h2, -⟩ := hc
    refine ⟨vs, ?_, ?_⟩
    · simp only [DisjointIndex.getContained, hr, bind, Except.bind]
      exact h1
    · intro it
      rw [h2]
      constructor
      · rintro ⟨r, hri, hq'⟩
        obtain ⟨h3, rfl⟩ := (spanDict_mem _ _ _).1 hri
        rw [Span.rng_encloses] at hq'
        exact ⟨h3, hq'⟩
      · rintro ⟨h3, h4⟩
        refine ⟨_, (spanDict_mem _ _ _).2 ⟨h3, rfl⟩, ?_⟩
        rw [Span.rng_encloses]; exact h4

/-- `get_containing` returns the item whose span contains the query span, `None` iff there is none, provided the items' own
`==` is reflexive and never identifies items with different spans. -/
theorem C29_get_containing (items : List I) (hv : ∀ it ∈ items, (span it).Valid) (m : RangeMap Int I)
    (hm : DisjointIndex.build span items = .ok m) (q : Span) (hq : q.Valid) (eqv : I → I → Bool)
    (hrefl : ∀ a ∈ items, eqv a a = true) (hspan : ∀ a ∈ items, ∀ b ∈ items, eqv a b = true → span a = span b) :
    ∃ o, DisjointIndex.getContaining eqv m q = .ok o ∧
      ∀ it, o = some it ↔ LastWithSpan span items it ∧ (span it).containsSpan q = true := by
  have hM := spanDict_isMapping hv
  rw [build_eq hv] at hm
  have hq' := (Span.valid_iff _).1 hq
  have hr := Span.asRange_ok hq'
  have hlk : ∀ k, ∃ o, m.getItem k = .ok o ∧
      ∀ it, o = some it ↔ LastWithSpan span items it ∧ (span it).containsOffset k = true := by
    intro k
    obtain ⟨h1, h2, -⟩ := C22_lookup _ hM _ hm k
    have key : ∀ it, (∃ r, (r, it) ∈ spanDict span items ∧ r.contains k = true) ↔
        LastWithSpan span items it ∧ (span it).containsOffset k = true := by
      intro it
      constructor
      · rintro ⟨r, hri, hc⟩
        obtain ⟨h3, rfl⟩ := (spanDict_mem _ _ _).1 hri
        rw [Span.rng_contains] at hc
        exact ⟨h3, hc⟩
      · rintro ⟨h3, h4⟩
        exact ⟨_, (spanDict_mem _ _ _).2 ⟨h3, rfl⟩, by rw [Span.rng_contains]; exact h4⟩
    cases hg : m.getItem k with
    | error e =>
      exfalso
      by_cases hex : ∃ e ∈ spanDict span items, e.1.contains k = true
      · obtain ⟨e', he', hc⟩ := hex
        have := (h1 e'.2).2 ⟨e'.1, he', hc⟩
        rw [hg] at this; cases this
      · have := h2.2 fun e' he' => by
          by_contra hc
          exact hex ⟨e', he', by simpa using hc⟩
        rw [hg] at this; cases this
    | ok o =>
      refine ⟨o, rfl, fun it => ?_⟩
      rw [← key, ← h1 it, hg]
      simp
  obtain ⟨a, ha1, ha2⟩ := hlk q.start
  obtain ⟨b, hb1, hb2⟩ := hlk (q.stop - 1)
  have hmemOf : ∀ {it}, LastWithSpan span items it → it ∈ items := by
    rintro it ⟨pre, post, rfl, -⟩; simp
  have hcs : ∀ it, (span it).containsSpan q = true ↔
      (span it).containsOffset q.start = true ∧ (span it).containsOffset (q.stop - 1) = true := by
    intro it
    rw [Span.containsSpan_iff, Span.containsOffset_iff, Span.containsOffset_iff]; omega
  have huniq : ∀ {x y : I}, LastWithSpan span items x → LastWithSpan span items y → span x = span y → x = y := by
    intro x y hx hy h
    have h1 := (spanDict_mem items (span x).rng x).2 ⟨hx, rfl⟩
    have h2 := (spanDict_mem items (span x).rng y).2 ⟨hy, by rw [h]⟩
    exact value_unique hM h1 h2
  have heq : DisjointIndex.getContaining eqv m q =
      if DisjointIndex.optEq eqv a b then .ok a else .ok none := by
    simp only [DisjointIndex.getContaining, hr, bind, Except.bind, Range.lowerEndpoint, Range.upperEndpoint, Cut.endpoint,
      ha1, hb1]
  rw [heq]
  by_cases ho : DisjointIndex.optEq eqv a b = true
  · rw [if_pos ho]
    refine ⟨a, rfl, fun it => ?_⟩
    rw [ha2 it, hcs]
    constructor
    · rintro ⟨h1, h2⟩
      have hsa := (ha2 it).2 ⟨h1, h2⟩
      subst hsa
      cases b with
      | none => simp [DisjointIndex.optEq] at ho
      | some y =>
        obtain ⟨y1, y2⟩ := (hb2 y).1 rfl
        have hs := hspan it (hmemOf h1) y (hmemOf y1) ho
        rw [← hs] at y2
        exact ⟨h1, h2, y2⟩
    · rintro ⟨h1, h2, -⟩; exact ⟨h1, h2⟩
  · rw [if_neg ho]
    refine ⟨none, rfl, fun it => ?_⟩
    simp only [reduceCtorEq, false_iff]
    rintro ⟨h1, h2⟩
    obtain ⟨h3, h4⟩ := (hcs it).1 h2
    rw [(ha2 it).2 ⟨h1, h3⟩, (hb2 it).2 ⟨h1, h4⟩] at ho
    exact ho (hrefl it (hmemOf h1))

/-- Deviation: `get_containing` compares items, not spans, so items that are `==` but have different spans defeat it: the
query [2,6) is contained in neither [0,3) nor [5,8), yet the first item is returned. -/
theorem C29_equal_items_counterexample :
    ∃ m, DisjointIndex.build (fun i : ExItem => i.2) [(1, ⟨0, 3⟩), (1, ⟨5, 8⟩)] = .ok m ∧
      DisjointIndex.getContaining (fun a b => a.1 == b.1) m ⟨2, 6⟩ = .ok (some (1, ⟨0, 3⟩)) :=
  ⟨_, rfl, by decide +kernel⟩

/-- The hypotheses of C29 are met by items with touching spans. -/
example : (∀ it ∈ [(1, (⟨0, 5⟩ : Span)), (2, ⟨5, 9⟩)], it.2.Valid) ∧
    ∃ m, DisjointIndex.build (fun i : ExItem => i.2) [(1, ⟨0, 5⟩), (2, ⟨5, 9⟩)] = .ok m ∧
      DisjointIndex.getContaining (fun a b => decide (a = b)) m ⟨6, 9⟩ = .ok (some (2, ⟨5, 9⟩)) ∧
      DisjointIndex.getContaining (fun a b => decide (a = b)) m ⟨4, 9⟩ = .ok none ∧
      DisjointIndex.getOverlapping m ⟨4, 6⟩ = .ok [(1, ⟨0, 5⟩), (2, ⟨5, 9⟩)] := by
  refine ⟨?_, _, rfl, by decide +kernel, by decide +kernel, by decide +kernel⟩
  intro it h
  rw [Span.valid_iff]
  simp only [List.mem_cons, List.not_mem_nil, or_false] at h
  rcases h with rfl | rfl <;> decide

end Vista
