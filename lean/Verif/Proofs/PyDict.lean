import Verif.Proofs.Prelude
import Verif.Model.PyDict

/-! # Lemmas about `dictSet` and `dictOf` -/
namespace Vista
variable {K V : Type} [DecidableEq K]

theorem keys_dictSet (k : K) (v : V) (d : List (K × V)) (k' : K) :
    k' ∈ (dictSet k v d).map (·.1) ↔ k' = k ∨ k' ∈ d.map (·.1) := by
  induction d with
  | nil => simp [dictSet]
  | cons e d ih =>
    obtain ⟨a, b⟩ := e
    unfold dictSet
    by_cases h : a = k
    · subst h; simp
    · rw [if_neg h]
      simp only [List.map_cons, List.mem_cons] at ih ⊢
      rw [ih]; tauto

theorem nodup_dictSet (k : K) (v : V) {d : List (K × V)} (h : (d.map (·.1)).Nodup) :
    ((dictSet k v d).map (·.1)).Nodup := by
  induction d with
  | nil => simp [dictSet]
  | cons e d ih =>
    obtain ⟨a, b⟩ := e
    simp only [List.map_cons, List.nodup_cons] at h
    unfold dictSet
    by_cases hk : a = k
    · subst hk; simpa using h
    · rw [if_neg hk]
      simp only [List.map_cons, List.nodup_cons]
      refine ⟨?_, ih h.2⟩
      rw [keys_dictSet]
      rintro (e | e)
      · exact hk e
      · exact h.1 e

theorem lookup_dictSet (k : K) (v : V) (d : List (K × V)) (k' : K) :
    (dictSet k v d).lookup k' = if k' = k then some v else d.lookup k' := by
  induction d with
  | nil =>
    by_cases h : k' = k
    · subst h; simp [dictSet]
    · have : (k' == k) = false := by simpa using h
      simp [dictSet, List.lookup, h, this]
  | cons e d ih =>
    obtain ⟨a, b⟩ := e
    unfold dictSet
    by_cases hk : a = k
    · subst hk
      rw [if_pos rfl]
      by_cases h : k' = a
      · subst h; simp [List.lookup]
      · have : (k' == a) = false := by simpa using h
        simp [List.lookup, h, this]
    · rw [if_neg hk]
      by_cases h : k' = a
      · subst h; simp [List.lookup, hk]
      · have : (k' == a) = false := by simpa using h
        simp only [List.lookup, this]
        exact ih

theorem lookup_iff_mem {d : List (K × V)} (h : (d.map (·.1)).Nodup) (k : K) (v : V) :
    d.lookup k = some v ↔ (k, v) ∈ d := by
  induction d with
  | nil => simp
  | cons e d ih =>
    obtain ⟨a, b⟩ := e
    simp only [List.map_cons, List.nodup_cons] at h
    by_cases hk : k = a
    · subst hk
      simp only [List.lookup, beq_self_eq_true, Option.some.injEq, List.mem_cons, Prod.mk.injEq, true_and]
      constructor
      · rintro rfl; exact .inl rfl
      · rintro (e | e)
        · exact e.symm
        · exact absurd (List.mem_map.2 ⟨_, e, rfl⟩) h.1
    · have : (k == a) = false := by simpa using hk
      simp only [List.lookup, this, List.mem_cons, Prod.mk.injEq, hk, false_and, false_or]
      exact ih h.2

theorem lookup_none_iff (d : List (K × V)) (k : K) : d.lookup k = none ↔ k ∉ d.map (·.1) := by
  induction d with
  | nil => simp
  | cons e d ih =>
    obtain ⟨a, b⟩ := e
    by_cases hk : k = a
    · subst hk; simp [List.lookup]
    · have : (k == a) = false := by simpa using hk
      simp only [List.lookup, this, List.map_cons, List.mem_cons, hk, false_or]
      exact ih

theorem dictOf_concat (xs : List (K × V)) (e : K × V) : dictOf (xs ++ [e]) = dictSet e.1 e.2 (dictOf xs) := by
  simp [dictOf, List.foldl_append]

theorem nodup_dictOf (xs : List (K × V)) : ((dictOf xs).map (·.1)).Nodup := by
  induction h : xs.length generalizing xs with
  | zero => rw [List.length_eq_zero_iff.1 h]; simp [dictOf]
  | succ n ih =>
    rcases List.eq_nil_or_concat xs with rfl | ⟨ys, e, rfl⟩
    · simp at h
    · rw [List.concat_eq_append] at h ⊢
      rw [dictOf_concat]
      exact nodup_dictSet _ _ (ih ys (by simpa using h))

theorem keys_dictOf (xs : List (K × V)) (k : K) : k ∈ (dictOf xs).map (·.1) ↔ k ∈ xs.map (·.1) := by
  induction h : xs.length generalizing xs with
  | zero => rw [List.length_eq_zero_iff.1 h]; simp [dictOf]
  | succ n ih =>
    rcases List.eq_nil_or_concat xs with rfl | ⟨ys, e, rfl⟩
    · simp at h
    · rw [List.concat_eq_append] at h ⊢
      rw [dictOf_concat, keys_dictSet, ih ys (by simpa using h)]
      simp [or_comm]

/-- A dict built from pairs holds, for each key, the last value given for it. -/
theorem mem_dictOf (xs : List (K × V)) (k : K) (v : V) :
    (k, v) ∈ dictOf xs ↔ ∃ pre post, xs = pre ++ (k, v) :: post ∧ ∀ e ∈ post, e.1 ≠ k := by
  induction h : xs.length generalizing xs with
  | zero =>
    rw [List.length_eq_zero_iff.1 h]
    simp [dictOf]
  | succ n ih =>
    rcases List.eq_nil_or_concat xs with rfl | ⟨ys, e, rfl⟩
    · simp at h
    · rw [List.concat_eq_append] at h ⊢
      obtain ⟨a, b⟩ := e
      have hy := ih ys (by simpa using h)
      rw [dictOf_concat, ← lookup_iff_mem (nodup_dictSet _ _ (nodup_dictOf ys)), lookup_dictSet]
      by_cases hk : k = a
      · subst hk
        simp only [if_true, Option.some.injEq]
        constructor
        · rintro rfl
          exact ⟨ys, [], rfl, by simp⟩
        · rintro ⟨pre, post, h1, h2⟩
          rcases List.eq_nil_or_concat post with rfl | ⟨zs, c, rfl⟩
          · have := (List.append_inj' h1 rfl).2
            simpa using this
          · exfalso
            rw [List.concat_eq_append] at h1 h2
            have h1' : ys ++ [(k, b)] = (pre ++ (k, v) :: zs) ++ [c] := by simpa using h1
            have hc := (List.append_inj' h1' rfl).2
            simp only [List.cons.injEq, and_true] at hc
            exact h2 c (by simp) (by rw [← hc])
      · rw [if_neg hk, lookup_iff_mem (nodup_dictOf ys), hy]
        constructor
        · rintro ⟨pre, post, rfl, h2⟩
          refine ⟨pre, post ++ [(a, b)], by simp, ?_⟩
          intro e he
          rcases List.mem_append.1 he with he | he
          · exact h2 e he
          · simp only [List.mem_singleton] at he
            subst he; exact fun h => hk h.symm
        · rintro ⟨pre, post, h1, h2⟩
          rcases List.eq_nil_or_concat post with rfl | ⟨zs, c, rfl⟩
          · have := (List.append_inj' h1 rfl).2
            simp only [List.cons.injEq, Prod.mk.injEq, and_true] at this
            exact absurd this.1.symm hk
          · rw [List.concat_eq_append] at h1 h2
            have h1' : ys ++ [(a, b)] = (pre ++ (k, v) :: zs) ++ [c] := by simpa using h1
            have hc := (List.append_inj' h1' rfl).1
            exact ⟨pre, zs, hc, fun e he => h2 e (by simp [he])⟩

theorem dictOf_eq_self {xs : List (K × V)} (h : (xs.map (·.1)).Nodup) : dictOf xs = xs := by
  have hset : ∀ (d : List (K × V)) (k : K) (v : V), k ∉ d.map (·.1) → dictSet k v d = d ++ [(k, v)] := by
    intro d k v
    induction d with
    | nil => intro _; rfl
    | cons e d ih =>
      obtain ⟨a, b⟩ := e
      intro hk
      simp only [List.map_cons, List.mem_cons, not_or] at hk
      unfold dictSet
      rw [if_neg (fun h => hk.1 h.symm), ih hk.2]; rfl
  induction hl : xs.length generalizing xs with
  | zero => rw [List.length_eq_zero_iff.1 hl]; rfl
  | succ n ih =>
    rcases List.eq_nil_or_concat xs with rfl | ⟨ys, e, rfl⟩
    · simp at hl
    · rw [List.concat_eq_append] at hl h ⊢
      simp only [List.map_append, List.map_cons, List.map_nil] at h
      have hd := List.nodup_append.1 h
      rw [dictOf_concat, ih hd.1 (by simpa using hl), hset]
      intro hm
      exact hd.2.2 _ hm _ (by simp) rfl

theorem dictGet_iff {d : List (K × V)} (h : (d.map (·.1)).Nodup) (k : K) (v : V) : dictGet d k = some v ↔ (k, v) ∈ d :=
  lookup_iff_mem h k v

theorem dictGet_none_iff (d : List (K × V)) (k : K) : dictGet d k = none ↔ k ∉ d.map (·.1) := lookup_none_iff d k

theorem dictGet_dictSet (k : K) (v : V) (d : List (K × V)) (k' : K) :
    dictGet (dictSet k v d) k' = if k' = k then some v else dictGet d k' := lookup_dictSet k v d k'

theorem dictGet_cons (a : K) (b : V) (d : List (K × V)) (k : K) : dictGet ((a, b) :: d) k = if k = a then some b else dictGet d k := by
  unfold dictGet
  by_cases h : k = a
  · subst h; simp [List.lookup]
  · have : (k == a) = false := by simpa using h
    simp [List.lookup, this, h]

@[simp] theorem dictGet_nil (k : K) : dictGet ([] : List (K × V)) k = none := rfl

theorem dictGet_isSome_iff (d : List (K × V)) (k : K) : (∃ v, dictGet d k = some v) ↔ k ∈ d.map (·.1) := by
  rw [← not_iff_not, ← dictGet_none_iff]
  cases dictGet d k <;> simp

/-- A dict is determined by the order of its keys and by its values. -/
theorem dict_ext {d d' : List (K × V)} (hn : (d.map (·.1)).Nodup) (hk : d.map (·.1) = d'.map (·.1))
    (hg : ∀ k, dictGet d k = dictGet d' k) : d = d' := by
  induction d generalizing d' with
  | nil => cases d' with
    | nil => rfl
    | cons => simp at hk
  | cons e d ih =>
    cases d' with
    | nil => simp at hk
    | cons e' d' =>
      obtain ⟨a, b⟩ := e
      obtain ⟨a', b'⟩ := e'
      simp only [List.map_cons, List.cons.injEq] at hk
      obtain ⟨rfl, hk⟩ := hk
      simp only [List.map_cons, List.nodup_cons] at hn
      have h0 := hg a
      rw [dictGet_cons, dictGet_cons, if_pos rfl, if_pos rfl, Option.some.injEq] at h0
      subst h0
      rw [ih hn.2 hk]
      intro k
      have h1 := hg k
      rw [dictGet_cons, dictGet_cons] at h1
      by_cases h : k = a
      · subst h
        rw [(dictGet_none_iff _ _).2 hn.1, (dictGet_none_iff _ _).2 (hk ▸ hn.1)]
      · rwa [if_neg h, if_neg h] at h1

/-- Setting a key: an existing key keeps its place, a new one goes to the end. -/
theorem keys_dictSet_eq (k : K) (v : V) (d : List (K × V)) :
    (dictSet k v d).map (·.1) = if k ∈ d.map (·.1) then d.map (·.1) else d.map (·.1) ++ [k] := by
  induction d with
  | nil => simp [dictSet]
  | cons e d ih =>
    obtain ⟨a, b⟩ := e
    unfold dictSet
    by_cases h : a = k
    · subst h; simp
    · rw [if_neg h, List.map_cons, ih]
      simp only [List.map_cons, List.mem_cons, Ne.symm h, false_or]
      split <;> simp

end Vista
