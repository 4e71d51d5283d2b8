import Verif.Model.Basic

/-!
# `vistautils/preconditions.py`, and the values of `vistautils/misc_utils.py` and `vistautils/attrutils.py` that use it

The functions accept every Python object; what they need to know of objects is the parameter `Dyn`.
-/
namespace Vista

/-- What the interpreter knows of objects: `None`, truth values (`bool(x)` can raise), `isinstance` and `issubclass` (which raise if the
second argument is not a class or tuple of classes), and whether `x in [y]` (identical or equal; a comparison can raise). -/
structure Dyn (V C : Type) where
  isNone : V → Bool
  truthy : V → Res Bool
  isInstance : V → C → Res Bool
  isSubclass : V → C → Res Bool
  same : V → V → Res Bool

namespace Pre
variable {V C : Type} (D : Dyn V C)

/-- The exception raised with an optional message: an empty message counts as none.  `format` is the formatting of the message with
its arguments, which can raise by itself (`preconditions.py:36`). -/
def raiseWith {α : Type} (e : Exc) (format : Str → Res Str) (msg : Option Str) : Res α :=
  match msg with
  | none | some [] => .error e
  | some m => do
    let _ ← format m
    .error e

/-- `check_not_none`, `preconditions.py:14-29`. -/
def checkNotNone (x : V) (msg : Option Str := none) : Res V :=
  if D.isNone x then raiseWith .valueError .ok msg else .ok x

/-- `check_arg`, `preconditions.py:32-37`. -/
def checkArg (x : V) (msg : Option Str := none) (format : Str → Res Str := .ok) : Res Unit := do
  if ← D.truthy x then .ok () else raiseWith .valueError format msg

/-- `check_state`, `preconditions.py:40-45`. -/
def checkState (x : V) (msg : Option Str := none) : Res Unit := do
  if ← D.truthy x then .ok () else raiseWith .assertionError .ok msg

/-- `check_arg` of a `bool`, as in `preconditions.py:50, 55`. -/
def checkArgBool (b : Bool) (msg : Option Str) (format : Str → Res Str := .ok) : Res Unit :=
  if b then .ok () else raiseWith .valueError format msg

/-- `check_args_are_none`, `preconditions.py:48-50`. -/
def checkArgsAreNone : List V → Option Str → (Str → Res Str) → Res Unit
  | [], _, _ => .ok ()
  | x :: xs, msg, format => do
    checkArgBool (D.isNone x) msg format
    checkArgsAreNone xs msg format

/-- `check_args_not_none`, `preconditions.py:53-55`. -/
def checkArgsNotNone : List V → Option Str → (Str → Res Str) → Res Unit
  | [], _, _ => .ok ()
  | x :: xs, msg, format => do
    checkArgBool (!D.isNone x) msg format
    checkArgsNotNone xs msg format

/-- `check_isinstance`, `preconditions.py:58-65`. -/
def checkIsInstance (x : V) (c : C) : Res V := do
  if ← D.isInstance x c then .ok x else .error .typeError

/-- `check_opt_isinstance`, `preconditions.py:68-80`. -/
def checkOptIsInstance (x : V) (c : C) : Res V := do
  if ← D.truthy x then
    if ← D.isInstance x c then .ok x else .error .typeError
  else .ok x

/-- `check_all_isinstance`, `preconditions.py:83-85`. -/
def checkAllIsInstance : List V → C → Res Unit
  | [], _ => .ok ()
  | x :: xs, c => do
    let _ ← checkIsInstance D x c
    checkAllIsInstance xs c

/-- `check_issubclass`, `preconditions.py:88-93`. -/
def checkIsSubclass (x : V) (c : C) : Res V := do
  if ← D.isSubclass x c then .ok x else .error .typeError

/-- `item in legal_values`: the items are compared one after the other until one is the same. -/
def isIn (x : V) : List V → Res Bool
  | [] => .ok false
  | y :: ys => do
    if ← D.same x y then .ok true else isIn x ys

/-- `check_in`, `preconditions.py:96-108`. -/
def checkIn (x : V) (legal : List V) : Res Unit := do
  if ← isIn D x legal then .ok () else .error .valueError

/-- `non_empty`, `attrutils.py:142-143`, as a validator of an attribute, given the length of the value: what it returns is ignored by
the attrs library, which looks only at exceptions. -/
def nonEmptyValidator (length : Nat) : Res Unit :=
  let _ := decide (length > 0)
  .ok ()

end Pre

/-- `WithId`, `misc_utils.py:117-133`.  `id` is a string or another object. -/
structure WithId (V : Type) where
  id : Str
  item : V

/-- `WithId.__attrs_post_init__`, `misc_utils.py:130-133`. -/
def WithId.new {V C : Type} (D : Dyn V C) (id : Str ⊕ V) (item : V) : Res (WithId V) := do
  Pre.checkArgBool (!D.isNone item) none
  match id with
  | .inl s => do
    Pre.checkArgBool true none
    Pre.checkArgBool (decide (s ≠ [])) none
    .ok ⟨s, item⟩
  | .inr _ => do
    Pre.checkArgBool false none
    .error .valueError

/-- `Scored`, `misc_utils.py:136-147`, made of an item and an object that is a `float` or not: the validator of the score runs first,
then `__attrs_post_init__`. -/
def scoredNew {V C F : Type} (D : Dyn V C) (item : V) (score : F ⊕ V) : Res (V × F) :=
  match score with
  | .inr _ => .error .typeError
  | .inl x => do
    Pre.checkArgBool (!D.isNone item) none
    .ok (item, x)

end Vista
