import Verif.Proofs.Prelude
import Verif.Model.PyStr

/-! # `split` and `join` -/
namespace Vista

theorem splitOn_ne_nil (c : Char) (s : Str) : splitOn c s ≠ [] := by
  cases s with
  | nil => simp [splitOn]
  | cons x xs =>
    unfold splitOn
    split
    · simp
    · split <;> simp

theorem splitOn_cons_ne {c x : Char} (h : x ≠ c) (xs : Str) :
    ∃ w ws, splitOn c xs = w :: ws ∧ splitOn c (x :: xs) = (x :: w) :: ws := by
  cases hs : splitOn c xs with
  | nil => exact absurd hs (splitOn_ne_nil c xs)
  | cons w ws => exact ⟨w, ws, rfl, by simp [splitOn, h, hs]⟩

theorem splitOn_no_sep (c : Char) (s : Str) : ∀ w ∈ splitOn c s, c ∉ w := by
  induction s with
  | nil => simp [splitOn]
  | cons x xs ih =>
    by_cases h : x = c
    · subst h
      simp only [splitOn, if_true, List.mem_cons]
      rintro w (rfl | hw)
      · simp
      · exact ih w hw
    · obtain ⟨w, ws, e1, e2⟩ := splitOn_cons_ne h xs
      rw [e2]; rw [e1] at ih
      intro u hu
      rcases List.mem_cons.1 hu with rfl | hu
      · have := ih w (List.mem_cons_self ..)
        simp only [List.mem_cons, not_or]
        exact ⟨Ne.symm h, this⟩
      · exact ih u (List.mem_cons_of_mem _ hu)

theorem splitOn_append_sep (c : Char) (a b : Str) : splitOn c (a ++ c :: b) = splitOn c a ++ splitOn c b := by
  induction a with
  | nil => simp [splitOn]
  | cons x xs ih =>
    by_cases h : x = c
    · subst h; simp [splitOn, ih]
    · obtain ⟨w, ws, e1, e2⟩ := splitOn_cons_ne h xs
      obtain ⟨w', ws', e1', e2'⟩ := splitOn_cons_ne h (xs ++ c :: b)
      rw [List.cons_append, e2, e2']
      rw [ih, e1] at e1'
      simp only [List.cons_append, List.cons.injEq] at e1' ⊢
      exact ⟨⟨trivial, e1'.1.symm⟩, e1'.2.symm⟩

theorem splitOn_of_not_mem {c : Char} {s : Str} (h : c ∉ s) : splitOn c s = [s] := by
  induction s with
  | nil => rfl
  | cons x xs ih =>
    simp only [List.mem_cons, not_or] at h
    obtain ⟨w, ws, e1, e2⟩ := splitOn_cons_ne (Ne.symm h.1) xs
    rw [ih h.2] at e1
    simp only [List.cons.injEq] at e1
    rw [e2, ← e1.1, ← e1.2]

theorem joinWith_cons_ne {c : Char} {w : Str} {ws : List Str} (h : ws ≠ []) :
    joinWith c (w :: ws) = w ++ c :: joinWith c ws := by
  cases ws with
  | nil => exact absurd rfl h
  | cons => rfl

theorem splitOn_joinWith {c : Char} {ws : List Str} (hne : ws ≠ []) (h : ∀ w ∈ ws, c ∉ w) :
    splitOn c (joinWith c ws) = ws := by
  induction ws with
  | nil => exact absurd rfl hne
  | cons w ws ih =>
    cases ws with
    | nil => exact splitOn_of_not_mem (h w (List.mem_cons_self ..))
    | cons w' ws =>
      show splitOn c (w ++ c :: joinWith c (w' :: ws)) = _
      rw [splitOn_append_sep, ih (by simp) (fun u hu => h u (List.mem_cons_of_mem _ hu)),
        splitOn_of_not_mem (h w (List.mem_cons_self ..))]
      rfl

theorem joinWith_splitOn (c : Char) (s : Str) : joinWith c (splitOn c s) = s := by
  induction s with
  | nil => rfl
  | cons x xs ih =>
    by_cases h : x = c
    · subst h
      have : splitOn x (x :: xs) = [] :: splitOn x xs := by simp [splitOn]
      rw [this, joinWith_cons_ne (splitOn_ne_nil _ _), ih]; rfl
    · obtain ⟨w, ws, e1, e2⟩ := splitOn_cons_ne h xs
      rw [e1] at ih
      rw [e2]
      cases ws with
      | nil => simp only [joinWith] at ih ⊢; rw [ih]
      | cons w' ws => simp only [joinWith] at ih ⊢; rw [List.cons_append, ih]

theorem joinWith_append {c : Char} {a b : List Str} (ha : a ≠ []) (hb : b ≠ []) :
    joinWith c (a ++ b) = joinWith c a ++ c :: joinWith c b := by
  induction a with
  | nil => exact absurd rfl ha
  | cons w ws ih =>
    cases ws with
    | nil => rw [List.singleton_append, joinWith_cons_ne hb]; rfl
    | cons w' ws =>
      rw [List.cons_append, joinWith_cons_ne (by simp), ih (by simp), joinWith_cons_ne (w := w) (ws := w' :: ws) (by simp)]
      simp

end Vista
