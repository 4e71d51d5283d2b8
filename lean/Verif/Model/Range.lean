import Mathlib.Order.Defs.LinearOrder
import Verif.Model.Basic

/-!
# `vistautils/range.py`: cuts and ranges (lines 36-607)

Endpoints are drawn from any linearly ordered type `T` (the class docstring, lines 313-316, requires `<` consistent with
`==`).  `None` endpoints / probe values (rejected by `check_not_none`) do not exist in the model.
-/
namespace Vista

/-- `range.py:36-68` `BoundType` and its two singleton instances. -/
inductive BoundType
  | opened
  | closed
  deriving DecidableEq, Repr

/-- `range.py:53-54` `BoundType.flip`. -/
def BoundType.flip : BoundType → BoundType
  | .opened => .closed
  | .closed => .opened

/-- `range.py:84-304`: the four concrete subclasses of `_Cut`. -/
inductive Cut (T : Type)
  | belowAll
  | belowValue (v : T)
  | aboveValue (v : T)
  | aboveAll
  deriving DecidableEq, Repr

namespace Cut
variable {T : Type}

/-- `endpoint` property: `range.py:165-167`, `198-200`, `239-241`, `275-277`. -/
def endpoint : Cut T → Res T
  | belowAll => .error .valueError
  | aboveAll => .error .valueError
  | belowValue v => .ok v
  | aboveValue v => .ok v

/-- `describe_as_lower_bound`: `range.py:178`, `211`, `260`, `297`; `str` of an endpoint is a parameter. -/
def describeAsLowerBound (str : T → Str) : Cut T → Res Str
  | belowAll => .ok "(-∞".toList
  | aboveAll => .error .assertionError
  | belowValue v => .ok ("[".toList ++ str v)
  | aboveValue v => .ok ("(".toList ++ str v)

/-- `describe_as_upper_bound`: `range.py:181`, `214`, `263`, `300`. -/
def describeAsUpperBound (str : T → Str) : Cut T → Res Str
  | belowAll => .error .assertionError
  | aboveAll => .ok "+∞)".toList
  | belowValue v => .ok (str v ++ ")".toList)
  | aboveValue v => .ok (str v ++ "]".toList)

/-- `as_lower_bound`: `range.py:175`, `208`, `249`, `285`. -/
def asLowerBound : Cut T → Res BoundType
  | belowAll => .error .assertionError
  | aboveAll => .error .assertionError
  | belowValue _ => .ok .closed
  | aboveValue _ => .ok .opened

/-- `as_upper_bound`: `range.py:172`, `205`, `246`, `282`. -/
def asUpperBound : Cut T → Res BoundType
  | belowAll => .error .assertionError
  | aboveAll => .error .assertionError
  | belowValue _ => .ok .opened
  | aboveValue _ => .ok .closed

variable [LinearOrder T]

/-- `is_less_than`: `range.py:169`, `202`, `243`, `279`. -/
def isLessThan : Cut T → T → Bool
  | belowAll, _ => true
  | aboveAll, _ => false
  | belowValue v, other => decide (v < other) || decide (v = other)
  | aboveValue v, other => decide (v < other)

/-- Tail of `_Cut.compare_to`, `range.py:127-142`, once both endpoints are known. -/
def compareValues (selfAbove otherAbove : Bool) (x y : T) : Int :=
  if x < y then -1
  else if y < x then 1
  else if selfAbove then (if otherAbove then 0 else 1)
  else (if otherAbove then -1 else 0)

/-- `compare_to`: `range.py:121-142` and the overrides `184-188`, `217-221`. -/
def compareTo : Cut T → Cut T → Int
  | belowAll, other => match other with
    | belowAll => 0
    | _ => -1
  | aboveAll, other => match other with
    | aboveAll => 0
    | _ => 1
  | belowValue x, other => match other with
    | belowAll => 1
    | aboveAll => -1
    | belowValue y => compareValues false false x y
    | aboveValue y => compareValues false true x y
  | aboveValue x, other => match other with
    | belowAll => 1
    | aboveAll => -1
    | belowValue y => compareValues true false x y
    | aboveValue y => compareValues true true x y

/-- `__le__`, `range.py:149-150`. -/
instance : LE (Cut T) := ⟨fun a b => a.compareTo b ≤ 0⟩
/-- `__lt__`, `range.py:146-147`. -/
instance : LT (Cut T) := ⟨fun a b => a.compareTo b < 0⟩

instance : DecidableRel (α := Cut T) (· ≤ ·) := fun a b => inferInstanceAs (Decidable (a.compareTo b ≤ 0))
instance : DecidableRel (α := Cut T) (· < ·) := fun a b => inferInstanceAs (Decidable (a.compareTo b < 0))

/-- `__eq__`: `range.py:158-159` for the unbounded cuts (compare_to = 0), `255-258` and `292-295` for the others. -/
def pyEq : Cut T → Cut T → Bool
  | belowAll, other => decide (compareTo belowAll other = 0)
  | aboveAll, other => decide (compareTo aboveAll other = 0)
  | belowValue x, other => match other with
    | belowValue y => decide (x = y)
    | _ => false
  | aboveValue x, other => match other with
    | aboveValue y => decide (x = y)
    | _ => false

omit [LinearOrder T] in
/-- `__hash__`: `range.py:190-192`, `223-225`, `252-253`, `288-290`, over an arbitrary hash of the endpoint type. -/
def hash (h : T → Int) : Cut T → Int
  | belowAll => 233904909
  | aboveAll => 9989388
  | belowValue v => h v
  | aboveValue v => -(h v) - 1

end Cut

/-- `range.py:313-377` `Range`: a pair of cuts.  Whether the pair could be constructed is `Range.Valid`. -/
structure Range (T : Type) where
  lower : Cut T
  upper : Cut T
  deriving DecidableEq, Repr

namespace Range
variable {T : Type} [LinearOrder T]

/-- The constructor with the checks of `__attrs_post_init__`, `range.py:380-387`. -/
def new (lo hi : Cut T) : Res (Range T) := do
  checkArg (decide (lo ≤ hi))
  checkArg (decide (lo ≠ .aboveAll))
  checkArg (decide (hi ≠ .belowAll))
  .ok ⟨lo, hi⟩

/-- A range some constructor call returned. -/
def Valid (r : Range T) : Prop := ∃ lo hi, Range.new lo hi = .ok r

/-- `range.py:389-391`. -/
def «open» (lo hi : T) : Res (Range T) := new (.aboveValue lo) (.belowValue hi)
/-- `range.py:393-395`. -/
def closed (lo hi : T) : Res (Range T) := new (.belowValue lo) (.aboveValue hi)
/-- `range.py:397-399`. -/
def closedOpen (lo hi : T) : Res (Range T) := new (.belowValue lo) (.belowValue hi)
/-- `range.py:401-403`. -/
def openClosed (lo hi : T) : Res (Range T) := new (.aboveValue lo) (.aboveValue hi)
/-- `range.py:405-407`. -/
def lessThan (hi : T) : Res (Range T) := new .belowAll (.belowValue hi)
/-- `range.py:409-411`. -/
def atMost (hi : T) : Res (Range T) := new .belowAll (.aboveValue hi)
/-- `range.py:413-415`. -/
def greaterThan (lo : T) : Res (Range T) := new (.aboveValue lo) .aboveAll
/-- `range.py:417-419`. -/
def atLeast (lo : T) : Res (Range T) := new (.belowValue lo) .aboveAll
/-- `range.py:421-423` and `606` (`RANGE_ALL = Range(_BELOW_ALL, _ABOVE_ALL)`). -/
def all : Res (Range T) := new .belowAll .aboveAll

/-- Python's `min` over a non-empty iterable (first smallest element), as used at `range.py:430`. -/
def pyMin : Cut T → List (Cut T) → Cut T
  | m, [] => m
  | m, c :: cs => pyMin (if c < m then c else m) cs
/-- Python's `max` over a non-empty iterable (first greatest element), as used at `range.py:430`. -/
def pyMax : Cut T → List (Cut T) → Cut T
  | m, [] => m
  | m, c :: cs => pyMax (if m < c then c else m) cs

/-- `range.py:425-431`. -/
def createSpanning : List (Range T) → Res (Range T)
  | [] => .error .valueError
  | r :: rs => new (pyMin r.lower (rs.map (·.lower))) (pyMax r.upper (rs.map (·.upper)))

/-- `range.py:433-434`. -/
def hasLowerBound (r : Range T) : Bool := decide (r.lower ≠ .belowAll)
/-- `range.py:436-437`. -/
def hasUpperBound (r : Range T) : Bool := decide (r.upper ≠ .aboveAll)
omit [LinearOrder T] in
/-- `range.py:439-441`. -/
def lowerBoundType (r : Range T) : Res BoundType := r.lower.asLowerBound
omit [LinearOrder T] in
/-- `range.py:443-445`. -/
def upperBoundType (r : Range T) : Res BoundType := r.upper.asUpperBound
omit [LinearOrder T] in
/-- `range.py:447-449`. -/
def lowerEndpoint (r : Range T) : Res T := r.lower.endpoint
omit [LinearOrder T] in
/-- `range.py:451-453`. -/
def upperEndpoint (r : Range T) : Res T := r.upper.endpoint

/-- `range.py:455-466`. -/
def isEmpty (r : Range T) : Bool := r.lower.pyEq r.upper

/-- `range.py:469-473` `v in r`. -/
def contains (r : Range T) (v : T) : Bool := r.lower.isLessThan v && !(r.upper.isLessThan v)

/-- `range.py:475-480`. -/
def encloses (r s : Range T) : Bool :=
  decide (r.lower.compareTo s.lower ≤ 0) && decide (r.upper.compareTo s.upper ≥ 0)

/-- `range.py:482-506`. -/
def isConnected (r s : Range T) : Bool :=
  decide (r.lower ≤ s.upper) && decide (s.lower ≤ r.upper)

/-- `range.py:508-531`. -/
def span (r s : Range T) : Res (Range T) :=
  let lowerCmp := r.lower.compareTo s.lower
  let upperCmp := r.upper.compareTo s.upper
  if lowerCmp ≤ 0 ∧ upperCmp ≥ 0 then .ok r
  else if lowerCmp ≥ 0 ∧ upperCmp ≤ 0 then .ok s
  else new (if lowerCmp ≤ 0 then r.lower else s.lower) (if upperCmp ≥ 0 then r.upper else s.upper)

/-- `range.py:533-560`. -/
def intersection (r s : Range T) : Res (Range T) :=
  let lowerCmp := r.lower.compareTo s.lower
  let upperCmp := r.upper.compareTo s.upper
  if lowerCmp ≥ 0 ∧ 0 ≥ upperCmp then .ok r
  else if lowerCmp ≤ 0 ∧ 0 ≤ upperCmp then .ok s
  else new (if lowerCmp ≥ 0 then r.lower else s.lower) (if upperCmp ≤ 0 then r.upper else s.upper)

/-- `range.py:562-584`. -/
def intersects (r s : Range T) : Bool :=
  let lowerCmp := r.lower.compareTo s.lower
  let upperCmp := r.upper.compareTo s.upper
  if lowerCmp ≥ 0 ∧ 0 ≥ upperCmp then true
  else if lowerCmp ≤ 0 ∧ 0 ≤ upperCmp then true
  else
    decide ((if lowerCmp ≥ 0 then r.lower else s.lower) ≤ (if upperCmp ≤ 0 then r.upper else s.upper))

/-- `range.py:586-592` `__eq__` (between ranges). -/
def pyEq (r s : Range T) : Bool := r.lower.pyEq s.lower && r.upper.pyEq s.upper

omit [LinearOrder T] in
/-- `range.py:597-602` `__repr__`. -/
def repr (str : T → Str) (r : Range T) : Res Str := do
  let lo ← r.lower.describeAsLowerBound str
  let hi ← r.upper.describeAsUpperBound str
  .ok (lo ++ "..".toList ++ hi)

omit [LinearOrder T] in
/-- `range.py:594-595` `__hash__` (before CPython truncates it to a machine word). -/
def hash (h : T → Int) (r : Range T) : Int := r.lower.hash h + 31 * r.upper.hash h

end Range
end Vista
