import Verif.Spec.ParamsText

/-!
# Proof steps about what can be written
-/
set_option linter.unusedSectionVars false
set_option linter.unusedSimpArgs false
namespace Vista
namespace Params
open PVal


/-- Induction that goes into lists as well. -/
theorem _root_.Vista.PVal.indList {P : PVal → Prop} (scalar : ∀ v, (∀ xs, v ≠ .list xs) → (∀ es, v ≠ .dict es) → P v)
    (list : ∀ xs, (∀ x ∈ xs, P x) → P (.list xs)) (dict : ∀ es : Entries, (∀ e ∈ es, P e.2) → P (.dict es)) (v : PVal) : P v := by
  refine PVal.rec (motive_1 := P) (motive_2 := fun xs => ∀ x ∈ xs, P x) (motive_3 := fun es => ∀ e ∈ es, P e.2)
    (motive_4 := fun e => P e.2) ?_ ?_ ?_ ?_ ?_ ?_ ?_ ?_ ?_ ?_ ?_ ?_ ?_ ?_ ?_ ?_ v
  · exact scalar _ (by simp) (by simp)
  · intro x; exact scalar _ (by simp) (by simp)
  · intro x; exact scalar _ (by simp) (by simp)
  · intro x; exact scalar _ (by simp) (by simp)
  · intro x; exact scalar _ (by simp) (by simp)
  · intro x; exact scalar _ (by simp) (by simp)
  · intro x; exact scalar _ (by simp) (by simp)
  · intro xs h; exact list xs h
  · intro x; exact scalar _ (by simp) (by simp)
  · intro es h; exact dict es h
  · intro a b _; exact scalar _ (by simp) (by simp)
  · simp
  · intro x xs h1 h2 y hy
    rcases List.mem_cons.1 hy with rfl | hy
    · exact h1
    · exact h2 y hy
  · simp
  · intro x xs h1 h2 y hy
    rcases List.mem_cons.1 hy with rfl | hy
    · exact h1
    · exact h2 y hy
  · intro k v h; exact h

theorem preprocess_spec (v : PVal) : ((∀ u, Occurs u v → Writable u) ∧ preprocess v = .ok (pathsAsText v)) ∨
    ((∃ u, Occurs u v ∧ ¬ Writable u) ∧ preprocess v = .error .runtimeError) := by
  induction v using PVal.indList with
  | scalar v hl hd =>
    have hocc : ∀ u, Occurs u v → u = v := by
      intro u hu
      cases hu with
      | here => rfl
      | list => exact absurd rfl (hl _)
      | dict => exact absurd rfl (hd _)
    cases v with
    | list xs => exact absurd rfl (hl xs)
    | dict es => exact absurd rfl (hd es)
    | none => right; exact ⟨⟨_, .here _, fun h => nomatch h⟩, rfl⟩
    | bytes s => right; exact ⟨⟨_, .here _, fun h => nomatch h⟩, rfl⟩
    | obj n => right; exact ⟨⟨_, .here _, fun h => nomatch h⟩, rfl⟩
    | params a b => right; exact ⟨⟨_, .here _, fun h => nomatch h⟩, rfl⟩
    | bool b => left; exact ⟨fun u hu => hocc u hu ▸ .bool b, rfl⟩
    | int b => left; exact ⟨fun u hu => hocc u hu ▸ .int b, rfl⟩
    | float b => left; exact ⟨fun u hu => hocc u hu ▸ .float b, rfl⟩
    | str b => left; exact ⟨fun u hu => hocc u hu ▸ .str b, rfl⟩
    | path b => left; exact ⟨fun u hu => hocc u hu ▸ .path b, rfl⟩
  | list xs ih =>
    have key : ((∀ x ∈ xs, ∀ u, Occurs u x → Writable u) ∧ preprocessList xs = .ok (pathsAsTextList xs)) ∨
        ((∃ x ∈ xs, ∃ u, Occurs u x ∧ ¬ Writable u) ∧ preprocessList xs = .error .runtimeError) := by
      induction xs with
      | nil => left; exact ⟨by simp, rfl⟩
      | cons x xs ihx =>
        rw [preprocessList, pathsAsTextList]
        rcases ih x (by simp) with ⟨h1, h2⟩ | ⟨⟨u, h1, h1'⟩, h2⟩
        · rcases ihx (fun y hy => ih y (by simp [hy])) with ⟨g1, g2⟩ | ⟨⟨y, hy, g1⟩, g2⟩
          · left
            refine ⟨?_, by simp only [h2, g2, bind, Except.bind]⟩
            intro y hy
            rcases List.mem_cons.1 hy with rfl | hy
            · exact h1
            · exact g1 y hy
          · right; exact ⟨⟨y, by simp [hy], g1⟩, by simp only [h2, g2, bind, Except.bind]⟩
        · right; exact ⟨⟨x, by simp, u, h1, h1'⟩, by simp only [h2, bind, Except.bind]⟩
    rw [preprocess, pathsAsText]
    rcases key with ⟨h1, h2⟩ | ⟨⟨x, hx, u, h1, h1'⟩, h2⟩
    · left
      refine ⟨?_, by simp only [h2, bind, Except.bind]⟩
      intro u hu
      cases hu with
      | here => exact .list xs
      | list hx hu => exact h1 _ hx u hu
    · right; exact ⟨⟨u, .list hx h1, h1'⟩, by simp only [h2, bind, Except.bind]⟩
  | dict xs ih =>
    have key : ((∀ x ∈ xs, ∀ u, Occurs u x.2 → Writable u) ∧ preprocessEntries xs = .ok (pathsAsTextEntries xs)) ∨
        ((∃ x ∈ xs, ∃ u, Occurs u x.2 ∧ ¬ Writable u) ∧ preprocessEntries xs = .error .runtimeError) := by
      induction xs with
      | nil => left; exact ⟨by simp, rfl⟩
      | cons x xs ihx =>
        obtain ⟨k, x⟩ := x
        rw [preprocessEntries, pathsAsTextEntries, preprocessEntry, pathsAsTextEntry]
        rcases ih (k, x) (by simp) with ⟨h1, h2⟩ | ⟨⟨u, h1, h1'⟩, h2⟩
        · simp only at h2
          rcases ihx (fun y hy => ih y (by simp [hy])) with ⟨g1, g2⟩ | ⟨⟨y, hy, g1⟩, g2⟩
          · left
            refine ⟨?_, by simp only [h2, g2, bind, Except.bind]⟩
            intro y hy
            rcases List.mem_cons.1 hy with rfl | hy
            · exact h1
            · exact g1 y hy
          · right; exact ⟨⟨y, by simp [hy], g1⟩, by simp only [h2, g2, bind, Except.bind]⟩
        · simp only at h2
          right; exact ⟨⟨(k, x), by simp, u, h1, h1'⟩, by simp only [h2, bind, Except.bind]⟩
    rw [preprocess, pathsAsText]
    rcases key with ⟨h1, h2⟩ | ⟨⟨x, hx, u, h1, h1'⟩, h2⟩
    · left
      refine ⟨?_, by simp only [h2, bind, Except.bind]⟩
      intro u hu
      cases hu with
      | here => exact .dict xs
      | dict hx hu => exact h1 _ hx u hu
    · right; exact ⟨⟨u, .dict hx h1, h1'⟩, by simp only [h2, bind, Except.bind]⟩


theorem raising_printable {e : Exc} {v : PVal} (h : ¬ Unprintable v) : raising e v = e := by
  cases v with
  | params pfx es =>
    unfold raising
    rcases preprocess_spec (.dict (asNestedDicts ⟨pfx, es⟩)) with ⟨-, h2⟩ | ⟨h1, h2⟩
    · simp only [h2]
    · exact absurd ⟨⟨pfx, es⟩, rfl, h1⟩ h
  | _ => rfl

theorem raising_unprintable {e : Exc} {v : PVal} (h : Unprintable v) : raising e v = .runtimeError := by
  obtain ⟨q, rfl, w, hw, hn⟩ := h
  unfold raising
  rcases preprocess_spec (.dict (asNestedDicts ⟨q.pfx, q.data⟩)) with ⟨h1, -⟩ | ⟨-, h2⟩
  · exact absurd (h1 w hw) hn
  · simp only [h2]

theorem raising_spec (e : Exc) (v : PVal) : RaisedWith e v (raising e v) := ⟨raising_unprintable, raising_printable⟩

theorem wrongType_printable {v : PVal} (h : ¬ Unprintable v) : wrongType v = .parameterError := raising_printable h

theorem wrongType_unprintable {v : PVal} (h : Unprintable v) : wrongType v = .runtimeError := raising_unprintable h

/-- Only namespaces can be unprintable. -/
theorem not_unprintable {v : PVal} (h : v.isParams = false) : ¬ Unprintable v := by
  rintro ⟨q, rfl, -⟩
  cases h

end Params
end Vista
