import Verif.Proofs.Prelude
import Verif.Model.Preconditions

/-!
# C70: preconditions

Statements are about objects for which the interpreter's operations do not raise; an exception they raise comes out
(`C70_raising`).
-/
set_option linter.unusedSectionVars false
set_option linter.unusedSimpArgs false
namespace Vista
namespace Pre
variable {V C : Type} (D : Dyn V C)

/-- `check_not_none` returns its argument unless it is `None`; then `ValueError`, whatever the message. -/
theorem C70_not_none (x : V) (msg : Option Str) :
    (D.isNone x = false → checkNotNone D x msg = .ok x) ∧ (D.isNone x = true → checkNotNone D x msg = .error .valueError) := by
  constructor <;> intro h <;> simp only [checkNotNone, h, if_true, if_false, Bool.false_eq_true]
  unfold raiseWith
  split <;> simp [bind, Except.bind]

/-- `check_arg` and `check_state` succeed iff the argument is true; otherwise `ValueError` and `AssertionError`, provided the message
can be formatted. -/
theorem C70_arg_state (x : V) (b : Bool) (h : D.truthy x = .ok b) (msg : Option Str) (format : Str → Res Str)
    (hf : ∀ m, msg = some m → ∃ s, format m = .ok s) :
    (b = true → checkArg D x msg format = .ok () ∧ checkState D x msg = .ok ()) ∧
    (b = false → checkArg D x msg format = .error .valueError ∧ checkState D x msg = .error .assertionError) := by
  constructor
  · rintro rfl; simp [checkArg, checkState, h, bind, Except.bind]
  · rintro rfl
    simp only [checkArg, checkState, h, bind, Except.bind, Bool.false_eq_true, if_false]
    unfold raiseWith
    constructor
    · split
      · rfl
      · rfl
      · rename_i m _
        obtain ⟨s, hs⟩ := hf _ rfl
        simp [bind, Except.bind, hs]
    · split <;> simp [bind, Except.bind]

/-- A message that cannot be formatted turns the failure into the exception of the formatting. -/
theorem C70_bad_message (x : V) (h : D.truthy x = .ok false) (c : Char) (m : Str) (format : Str → Res Str) (e : Exc)
    (hf : format (c :: m) = .error e) : checkArg D x (some (c :: m)) format = .error e := by
  simp [checkArg, h, raiseWith, hf, bind, Except.bind]

/-- `check_args_are_none` and `check_args_not_none` succeed iff all arguments are, or none is, `None`. -/
theorem C70_args_none (xs : List V) (msg : Option Str) (format : Str → Res Str) (hf : ∀ m, msg = some m → ∃ s, format m = .ok s) :
    ((∀ x ∈ xs, D.isNone x = true) → checkArgsAreNone D xs msg format = .ok ()) ∧
    ((∃ x ∈ xs, D.isNone x = false) → checkArgsAreNone D xs msg format = .error .valueError) ∧
    ((∀ x ∈ xs, D.isNone x = false) → checkArgsNotNone D xs msg format = .ok ()) ∧
    ((∃ x ∈ xs, D.isNone x = true) → checkArgsNotNone D xs msg format = .error .valueError) := by
  have hraise : (raiseWith .valueError format msg : Res Unit) = .error .valueError := by
    unfold raiseWith
    split
    · rfl
    · rfl
    · obtain ⟨s, hs⟩ := hf _ rfl
      simp [bind, Except.bind, hs]
  induction xs with
  | nil => simp [checkArgsAreNone, checkArgsNotNone]
  | cons x xs ih =>
    obtain ⟨i1, i2, i3, i4⟩ := ih
    refine ⟨fun h => ?_, fun h => ?_, fun h => ?_, fun h => ?_⟩
    · simp only [checkArgsAreNone, checkArgBool, h x (by simp), if_true, bind, Except.bind]
      exact i1 fun y hy => h y (by simp [hy])
    · simp only [checkArgsAreNone, checkArgBool, bind, Except.bind]
      cases hx : D.isNone x with
      | false => simp [hraise]
      | true =>
        simp only [if_true]
        obtain ⟨y, hy, hn⟩ := h
        rcases List.mem_cons.1 hy with rfl | hy
        · rw [hx] at hn; simp at hn
        · exact i2 ⟨y, hy, hn⟩
    · simp only [checkArgsNotNone, checkArgBool, h x (by simp), Bool.not_false, if_true, bind, Except.bind]
      exact i3 fun y hy => h y (by simp [hy])
    · simp only [checkArgsNotNone, checkArgBool, bind, Except.bind]
      cases hx : D.isNone x with
      | true => simp [hraise]
      | false =>
        simp only [Bool.not_false, if_true]
        obtain ⟨y, hy, hn⟩ := h
        rcases List.mem_cons.1 hy with rfl | hy
        · rw [hx] at hn; simp at hn
        · exact i4 ⟨y, hy, hn⟩

/-- `check_isinstance` and `check_issubclass` return the item iff it is an instance (a subclass); otherwise `TypeError`. -/
theorem C70_instance (x : V) (c : C) :
    (D.isInstance x c = .ok true → checkIsInstance D x c = .ok x) ∧
    (D.isInstance x c = .ok false → checkIsInstance D x c = .error .typeError) ∧
    (D.isSubclass x c = .ok true → checkIsSubclass D x c = .ok x) ∧
    (D.isSubclass x c = .ok false → checkIsSubclass D x c = .error .typeError) := by
  refine ⟨?_, ?_, ?_, ?_⟩ <;> intro h <;> simp [checkIsInstance, checkIsSubclass, h, bind, Except.bind]

/-- `check_all_isinstance` succeeds iff all items are instances; otherwise `TypeError`. -/
theorem C70_all_instance (xs : List V) (c : C) (hb : ∀ x ∈ xs, ∃ b, D.isInstance x c = .ok b) :
    ((∀ x ∈ xs, D.isInstance x c = .ok true) → checkAllIsInstance D xs c = .ok ()) ∧
    ((∃ x ∈ xs, D.isInstance x c = .ok false) → checkAllIsInstance D xs c = .error .typeError) := by
  induction xs with
  | nil => simp [checkAllIsInstance]
  | cons x xs ih =>
    obtain ⟨i1, i2⟩ := ih fun y hy => hb y (by simp [hy])
    obtain ⟨b, hx⟩ := hb x (by simp)
    constructor
    · intro h
      simp only [checkAllIsInstance, checkIsInstance, h x (by simp), bind, Except.bind, if_true]
      exact i1 fun y hy => h y (by simp [hy])
    · rintro ⟨y, hy, hn⟩
      simp only [checkAllIsInstance, checkIsInstance, hx, bind, Except.bind]
      cases b with
      | false => simp
      | true =>
        simp only [if_true]
        rcases List.mem_cons.1 hy with rfl | hy
        · rw [hx] at hn; simp at hn
        · exact i2 ⟨y, hy, hn⟩

/-- `check_opt_isinstance` returns the item iff it is an instance or false (`None` is false); otherwise `TypeError`. -/
theorem C70_opt_instance (x : V) (c : C) (t i : Bool) (ht : D.truthy x = .ok t) (hi : D.isInstance x c = .ok i) :
    (t = false ∨ i = true → checkOptIsInstance D x c = .ok x) ∧
    (t = true ∧ i = false → checkOptIsInstance D x c = .error .typeError) := by
  cases t <;> cases i <;> simp [checkOptIsInstance, ht, hi, bind, Except.bind]

/-- `check_in` succeeds iff the item is the same as one of the legal values; otherwise `ValueError`. -/
theorem C70_in (x : V) (legal : List V) (hb : ∀ y ∈ legal, ∃ b, D.same x y = .ok b) :
    ((∃ y ∈ legal, D.same x y = .ok true) → checkIn D x legal = .ok ()) ∧
    ((∀ y ∈ legal, D.same x y = .ok false) → checkIn D x legal = .error .valueError) := by
  have key : ∃ b, isIn D x legal = .ok b ∧ (b = true ↔ ∃ y ∈ legal, D.same x y = .ok true) := by
    induction legal with
    | nil => exact ⟨false, rfl, by simp⟩
    | cons y ys ih =>
      obtain ⟨b, i1, i2⟩ := ih fun z hz => hb z (by simp [hz])
      obtain ⟨b', hy⟩ := hb y (by simp)
      cases b' with
      | true => exact ⟨true, by simp [isIn, hy, bind, Except.bind], by simp [hy]⟩
      | false =>
        refine ⟨b, by simp [isIn, hy, bind, Except.bind, i1], ?_⟩
        rw [i2]
        simp [hy]
  obtain ⟨b, h1, h2⟩ := key
  constructor
  · intro h
    have : b = true := h2.2 h
    subst this
    simp [checkIn, h1, bind, Except.bind]
  · intro h
    have : b = false := by
      rw [Bool.eq_false_iff, ne_eq, h2]
      rintro ⟨y, hy, h'⟩
      rw [h y hy] at h'; simp at h'
    subst this
    simp [checkIn, h1, bind, Except.bind]

/-- An exception of the interpreter (for example in `bool(x)`) comes out of the check. -/
theorem C70_raising (x : V) (c : C) (e : Exc) :
    (D.truthy x = .error e → checkArg D x = .error e ∧ checkState D x = .error e ∧ checkOptIsInstance D x c = .error e) ∧
    (D.isInstance x c = .error e → checkIsInstance D x c = .error e) ∧
    (D.isSubclass x c = .error e → checkIsSubclass D x c = .error e) := by
  refine ⟨fun h => ⟨?_, ?_, ?_⟩, fun h => ?_, fun h => ?_⟩ <;>
    simp [checkArg, checkState, checkOptIsInstance, checkIsInstance, checkIsSubclass, h, bind, Except.bind]

/-- A `WithId` exists exactly for a non-empty string and an item that is not `None`; otherwise `ValueError`.  A `Scored` exists exactly
for a float score and an item that is not `None`; a score of another type is a `TypeError`, otherwise `ValueError`. -/
theorem C70_with_id_scored {F : Type} (item : V) :
    (∀ s : Str, s ≠ [] → D.isNone item = false → WithId.new D (.inl s) item = .ok ⟨s, item⟩) ∧
    (∀ id, (D.isNone item = true ∨ id = .inl [] ∨ ∃ v, id = .inr v) → WithId.new D id item = .error .valueError) ∧
    (∀ x : F, D.isNone item = false → scoredNew D item (.inl x) = .ok (item, x)) ∧
    (∀ x : F, D.isNone item = true → scoredNew D item (.inl x) = .error .valueError) ∧
    (∀ v : V, scoredNew D item (.inr v : F ⊕ V) = .error .typeError) := by
  refine ⟨fun s hs hn => ?_, fun id h => ?_, fun x hn => ?_, fun x hn => ?_, fun v => rfl⟩
  · simp [WithId.new, checkArgBool, hn, hs, bind, Except.bind]
  · cases hn : D.isNone item with
    | true => simp [WithId.new, checkArgBool, hn, raiseWith, bind, Except.bind]
    | false =>
      rcases h with h | rfl | ⟨v, rfl⟩
      · rw [hn] at h; simp at h
      · simp [WithId.new, checkArgBool, hn, raiseWith, bind, Except.bind]
      · simp [WithId.new, checkArgBool, hn, raiseWith, bind, Except.bind]
  · simp [scoredNew, checkArgBool, hn, bind, Except.bind]
  · simp [scoredNew, checkArgBool, hn, raiseWith, bind, Except.bind]

/-! ## Examples and counterexamples -/

/-- Some objects. -/
inductive Obj
  | none | int (n : Int) | str (s : Str)
  deriving DecidableEq

/-- Some classes. -/
inductive Cls
  | int | str
  deriving DecidableEq

/-- What Python knows of them. -/
def py : Dyn Obj Cls where
  isNone x := decide (x = .none)
  truthy x := .ok (match x with | .none => false | .int n => decide (n ≠ 0) | .str s => decide (s ≠ []))
  isInstance x c := .ok (match x, c with | .int _, .int => true | .str _, .str => true | _, _ => false)
  isSubclass _ _ := .error .typeError
  same x y := .ok (decide (x = y))

example : checkArg py (.int 1) = .ok () ∧ checkArg py (.int 0) = .error .valueError ∧ checkState py (.str []) = .error .assertionError := by decide +kernel
example : checkArgsNotNone py [.int 0, .str []] none .ok = .ok () ∧ checkArgsAreNone py [.none, .int 0] none .ok = .error .valueError := by decide +kernel
example : checkIsInstance py (.int 0) .int = .ok (.int 0) ∧ checkIsInstance py (.int 0) .str = .error .typeError := by decide +kernel
example : checkIn py (.int 1) [.int 0, .int 1] = .ok () ∧ checkIn py (.int 2) [.int 0, .int 1] = .error .valueError := by decide +kernel
example : checkAllIsInstance py [.int 0, .int 1] .int = .ok () ∧ checkAllIsInstance py [.int 0, .none] .int = .error .typeError := by decide +kernel
example : py.truthy (.int 0) = .ok false ∧ py.isInstance (.int 0) .str = .ok false := by decide +kernel

/-- `check_opt_isinstance` accepts a false object of the wrong type, although it documents a `TypeError`. -/
theorem C70_opt_instance_counterexample : py.isNone (.int 0) = false ∧ py.isInstance (.int 0) .str = .ok false ∧
    checkOptIsInstance py (.int 0) .str = .ok (.int 0) := by decide +kernel

/-- The validator `non_empty` accepts empty values. -/
theorem C70_non_empty_counterexample : nonEmptyValidator 0 = .ok () := rfl

end Pre
end Vista
