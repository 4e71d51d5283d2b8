import Verif.Model.NumRange
import Verif.Model.Params
import Mathlib.Order.WithBot
import Mathlib.Data.Rat.Defs
import Mathlib.Algebra.Order.Ring.Unbundled.Rat

/-!
# Number parameters with NaN and infinities, `vistautils/parameters.py`

The accessors of `Model/Params` once more, with ranges whose endpoints are any numbers (`Model/NumRange`).  A float object is `.float q` with
`q` only a name for it: `fl q` is the number it stands for, none for NaN.  Looking a parameter up does not look at numbers, so `get` and `in`
are those of `Model/Params`.
-/
namespace Vista
namespace NumParams
open PVal

/-- The numbers with the two infinities. -/
abbrev Ext := WithBot (WithTop Rat)

/-- A rational number as one of these. -/
def ofRat (q : Rat) : Ext := ((q : WithTop Rat) : WithBot (WithTop Rat))

variable (fl : Rat → Option Ext)

/-- The number a Python object stands for (`bool` is a subclass of `int`); other objects are not compared. -/
def numOf : PVal → Option Ext
  | .int i => some (ofRat i)
  | .bool b => some (ofRat (if b then 1 else 0))
  | .float q => fl q
  | _ => none

/-- `if default:`; a float is false iff it equals 0. -/
def truthy : PVal → Bool
  | .float q => decide (fl q ≠ some (ofRat 0))
  | v => v.truthy

/-- `Parameters.integer`, `parameters.py:539-554`; `valid = none` is `Range.all()`. -/
def integer (p : Params) (name : Str) (valid : Option (Range PVal) := Option.none) (dflt : PVal := .none) : Res PVal := do
  let ret ← p.get name .int dflt
  match valid with
  | some r => if Numeric.Range.contains (numOf fl) r ret then .ok ret else .error .parameterError
  | Option.none => .ok ret

/-- `Parameters.floating_point`, `parameters.py:621-642`. -/
def floatingPoint (p : Params) (name : Str) (valid : Option (Range PVal) := Option.none) (dflt : PVal := .none) : Res PVal := do
  let ret ← p.get name .float dflt
  match valid with
  | some r => if Numeric.Range.contains (numOf fl) r ret then .ok ret else .error .parameterError
  | Option.none => .ok ret

/-- `Parameters.optional_floating_point`, `parameters.py:656-684` (and, without a default, its deprecated name `optional_float`,
`691-694`). -/
def optionalFloatingPoint (p : Params) (name : Str) (valid : Option (Range PVal) := Option.none) (dflt : PVal := .none) : Res PVal :=
  if p.contains name then floatingPoint fl p name valid
  else if truthy fl dflt then
    match valid, dflt with
    | some r, .float q => if Numeric.Range.contains (numOf fl) r (.float q) then .ok dflt else .error .parameterError
    | _, _ => .ok dflt
  else .ok .none

end NumParams
end Vista
