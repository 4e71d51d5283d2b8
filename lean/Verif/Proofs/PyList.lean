import Verif.Proofs.Prelude
import Verif.Model.PyList

/-! # Lemmas about the Python list primitives -/
namespace Vista
variable {α β : Type}

theorem insertBy_perm (le : α → α → Bool) (x : α) (l : List α) : (insertBy le x l).Perm (x :: l) := by
  induction l with
  | nil => exact .refl _
  | cons y l ih =>
    unfold insertBy
    split
    · exact .refl _
    · exact (ih.cons y).trans (.swap x y l)

theorem stableSort_perm (le : α → α → Bool) (l : List α) : (stableSort le l).Perm l := by
  induction l with
  | nil => exact .refl _
  | cons x l ih => exact (insertBy_perm le x _).trans (ih.cons x)

theorem mem_stableSort {le : α → α → Bool} {l : List α} {x : α} : x ∈ stableSort le l ↔ x ∈ l := (stableSort_perm le l).mem_iff

/-- Stability and order together: whatever relation held between earlier and later input elements still holds between
earlier and later output elements with `le`-equivalent keys. -/
theorem stableSort_pairwise {le : α → α → Bool} (total : ∀ a b, le a b = true ∨ le b a = true)
    (trans : ∀ a b c, le a b = true → le b c = true → le a c = true) {R : α → α → Prop} {l : List α} (h : l.Pairwise R) :
    (stableSort le l).Pairwise fun a b => le a b = true ∧ (le b a = true → R a b) := by
  induction l with
  | nil => exact .nil
  | cons x l ih =>
    rw [List.pairwise_cons] at h
    have hs := ih h.2
    have hx : ∀ y ∈ stableSort le l, R x y := fun y hy => h.1 y (mem_stableSort.1 hy)
    show (insertBy le x (stableSort le l)).Pairwise _
    generalize stableSort le l = s at hs hx
    clear ih h
    induction s with
    | nil => exact List.pairwise_singleton _ _
    | cons y s ih =>
      rw [List.pairwise_cons] at hs
      unfold insertBy
      by_cases hle : le x y = true
      · rw [if_pos hle, List.pairwise_cons]
        refine ⟨?_, List.pairwise_cons.2 hs⟩
        intro z hz
        rcases List.mem_cons.1 hz with rfl | hz'
        · exact ⟨hle, fun _ => hx _ (by simp)⟩
        · exact ⟨trans _ _ _ hle (hs.1 z hz').1, fun _ => hx z hz⟩
      · rw [if_neg hle, List.pairwise_cons]
        refine ⟨?_, ih hs.2 fun z hz => hx z (by simp [hz])⟩
        intro z hz
        have := (insertBy_perm le x s).mem_iff.1 hz
        rcases List.mem_cons.1 this with rfl | hz'
        · refine ⟨(total y z).resolve_right hle, fun h => absurd h hle⟩
        · exact hs.1 z hz'

theorem stableSort_sorted {le : α → α → Bool} (total : ∀ a b, le a b = true ∨ le b a = true)
    (trans : ∀ a b c, le a b = true → le b c = true → le a c = true) (l : List α) :
    (stableSort le l).Pairwise fun a b => le a b = true :=
  (stableSort_pairwise (R := fun _ _ => True) total trans (List.pairwise_of_forall fun _ _ => trivial)).imp fun h => h.1

theorem pairLe_iff (a b : Int × Int) : pairLe a b = true ↔ a.1 < b.1 ∨ (a.1 = b.1 ∧ a.2 ≤ b.2) := by
  simp [pairLe]

theorem pairLe_total (a b : Int × Int) : pairLe a b = true ∨ pairLe b a = true := by
  simp [pairLe]; omega

theorem pairLe_trans (a b c : Int × Int) (h1 : pairLe a b = true) (h2 : pairLe b c = true) : pairLe a c = true := by
  simp [pairLe] at *; omega

theorem pySlice_nonneg (xs : List α) {a b : Int} (ha : 0 ≤ a) (hb : 0 ≤ b) :
    pySlice xs a b = (xs.take b.toNat).drop a.toNat := by
  unfold pySlice sliceBound
  rw [if_neg (by omega), if_neg (by omega)]
  rcases le_total b.toNat xs.length with h | h
  · rw [min_eq_left h]
    rcases le_total a.toNat xs.length with h' | h'
    · rw [min_eq_left h']
    · rw [min_eq_right h', List.drop_eq_nil_of_le (by simp), List.drop_eq_nil_of_le (by simp; omega)]
  · rw [min_eq_right h, List.take_of_length_le h, List.take_of_length_le (le_refl _)]
    rcases le_total a.toNat xs.length with h' | h'
    · rw [min_eq_left h']
    · rw [min_eq_right h', List.drop_eq_nil_of_le (by simp), List.drop_eq_nil_of_le h']

end Vista
