import Verif.Model.RangeSet

/-!
# Ranges whose endpoints are numbers as Python has them, `vistautils/range.py`

Different objects can be equal (`1`, `1.0` and `True`; `0.0` and `-0.0`), and a number can be NaN, which is neither less than, nor equal to,
nor greater than anything, itself included.  A type of such numbers is a type with a function to the numbers they stand for (none: NaN).
-/
namespace Vista
namespace Numeric
variable {V T : Type} [LinearOrder T] (num : V → Option T)

/-- Python's `x < y`. -/
def less (x y : V) : Bool :=
  match num x, num y with
  | some a, some b => decide (a < b)
  | _, _ => false

/-- Python's `x == y`. -/
def equal (x y : V) : Bool :=
  match num x, num y with
  | some a, some b => decide (a = b)
  | _, _ => false

namespace Cut

/-- `is_less_than`: `range.py:169`, `202`, `243`, `279`. -/
def isLessThan : Vista.Cut V → V → Bool
  | .belowAll, _ => true
  | .aboveAll, _ => false
  | .belowValue v, other => less num v other || equal num v other
  | .aboveValue v, other => less num v other

/-- Tail of `_Cut.compare_to`, `range.py:127-142`, once both endpoints are known. -/
def compareValues (selfAbove otherAbove : Bool) (x y : V) : Int :=
  if less num x y then -1
  else if less num y x then 1
  else if selfAbove then (if otherAbove then 0 else 1)
  else (if otherAbove then -1 else 0)

/-- `compare_to`: `range.py:121-142` and the overrides `184-188`, `217-221`. -/
def compareTo : Vista.Cut V → Vista.Cut V → Int
  | .belowAll, other => match other with
    | .belowAll => 0
    | _ => -1
  | .aboveAll, other => match other with
    | .aboveAll => 0
    | _ => 1
  | .belowValue x, other => match other with
    | .belowAll => 1
    | .aboveAll => -1
    | .belowValue y => compareValues num false false x y
    | .aboveValue y => compareValues num false true x y
  | .aboveValue x, other => match other with
    | .belowAll => 1
    | .aboveAll => -1
    | .belowValue y => compareValues num true false x y
    | .aboveValue y => compareValues num true true x y

/-- `__lt__`, `range.py:146-147`. -/
def lt (a b : Vista.Cut V) : Bool := decide (compareTo num a b < 0)
/-- `__le__`, `range.py:149-150`. -/
def le (a b : Vista.Cut V) : Bool := decide (compareTo num a b ≤ 0)

/-- `__eq__`: `range.py:158-159` for the unbounded cuts, `255-258` and `292-295` for the others. -/
def pyEq : Vista.Cut V → Vista.Cut V → Bool
  | .belowAll, other => decide (compareTo num .belowAll other = 0)
  | .aboveAll, other => decide (compareTo num .aboveAll other = 0)
  | .belowValue x, other => match other with
    | .belowValue y => equal num x y
    | _ => false
  | .aboveValue x, other => match other with
    | .aboveValue y => equal num x y
    | _ => false

/-- `is _BELOW_ALL`. -/
def isBelowAll : Vista.Cut V → Bool
  | .belowAll => true
  | _ => false

/-- `is _ABOVE_ALL`. -/
def isAboveAll : Vista.Cut V → Bool
  | .aboveAll => true
  | _ => false

end Cut

namespace Range

/-- The constructor with the checks of `__attrs_post_init__`, `range.py:380-387`. -/
def new (lo hi : Vista.Cut V) : Res (Vista.Range V) := do
  checkArg (Cut.le num lo hi)
  checkArg (!Cut.isAboveAll lo)
  checkArg (!Cut.isBelowAll hi)
  .ok ⟨lo, hi⟩

/-- `range.py:389-391`. -/
def «open» (lo hi : V) : Res (Vista.Range V) := new num (.aboveValue lo) (.belowValue hi)
/-- `range.py:393-395`. -/
def closed (lo hi : V) : Res (Vista.Range V) := new num (.belowValue lo) (.aboveValue hi)
/-- `range.py:397-399`. -/
def closedOpen (lo hi : V) : Res (Vista.Range V) := new num (.belowValue lo) (.belowValue hi)
/-- `range.py:401-403`. -/
def openClosed (lo hi : V) : Res (Vista.Range V) := new num (.aboveValue lo) (.aboveValue hi)
/-- `range.py:405-407`. -/
def lessThan (hi : V) : Res (Vista.Range V) := new num .belowAll (.belowValue hi)
/-- `range.py:409-411`. -/
def atMost (hi : V) : Res (Vista.Range V) := new num .belowAll (.aboveValue hi)
/-- `range.py:413-415`. -/
def greaterThan (lo : V) : Res (Vista.Range V) := new num (.aboveValue lo) .aboveAll
/-- `range.py:417-419`. -/
def atLeast (lo : V) : Res (Vista.Range V) := new num (.belowValue lo) .aboveAll
/-- `range.py:421-423`, `606`. -/
def all : Res (Vista.Range V) := new num .belowAll .aboveAll

/-- `range.py:433-434`. -/
def hasLowerBound (r : Vista.Range V) : Bool := !Cut.isBelowAll r.lower
/-- `range.py:436-437`. -/
def hasUpperBound (r : Vista.Range V) : Bool := !Cut.isAboveAll r.upper

/-- `range.py:455-466`. -/
def isEmpty (r : Vista.Range V) : Bool := Cut.pyEq num r.lower r.upper

/-- `range.py:469-473` `v in r`. -/
def contains (r : Vista.Range V) (v : V) : Bool := Cut.isLessThan num r.lower v && !(Cut.isLessThan num r.upper v)

/-- `range.py:475-480`. -/
def encloses (r s : Vista.Range V) : Bool :=
  decide (Cut.compareTo num r.lower s.lower ≤ 0) && decide (Cut.compareTo num r.upper s.upper ≥ 0)

/-- `range.py:482-506`. -/
def isConnected (r s : Vista.Range V) : Bool := Cut.le num r.lower s.upper && Cut.le num s.lower r.upper

/-- `range.py:508-531`. -/
def span (r s : Vista.Range V) : Res (Vista.Range V) :=
  let lowerCmp := Cut.compareTo num r.lower s.lower
  let upperCmp := Cut.compareTo num r.upper s.upper
  if lowerCmp ≤ 0 ∧ upperCmp ≥ 0 then .ok r
  else if lowerCmp ≥ 0 ∧ upperCmp ≤ 0 then .ok s
  else new num (if lowerCmp ≤ 0 then r.lower else s.lower) (if upperCmp ≥ 0 then r.upper else s.upper)

/-- `range.py:533-560`. -/
def intersection (r s : Vista.Range V) : Res (Vista.Range V) :=
  let lowerCmp := Cut.compareTo num r.lower s.lower
  let upperCmp := Cut.compareTo num r.upper s.upper
  if lowerCmp ≥ 0 ∧ 0 ≥ upperCmp then .ok r
  else if lowerCmp ≤ 0 ∧ 0 ≤ upperCmp then .ok s
  else new num (if lowerCmp ≥ 0 then r.lower else s.lower) (if upperCmp ≤ 0 then r.upper else s.upper)

/-- `range.py:562-584`. -/
def intersects (r s : Vista.Range V) : Bool :=
  let lowerCmp := Cut.compareTo num r.lower s.lower
  let upperCmp := Cut.compareTo num r.upper s.upper
  if lowerCmp ≥ 0 ∧ 0 ≥ upperCmp then true
  else if lowerCmp ≤ 0 ∧ 0 ≤ upperCmp then true
  else Cut.le num (if lowerCmp ≥ 0 then r.lower else s.lower) (if upperCmp ≤ 0 then r.upper else s.upper)

/-- `range.py:586-592` `__eq__` (between ranges). -/
def pyEq (r s : Vista.Range V) : Bool := Cut.pyEq num r.lower s.lower && Cut.pyEq num r.upper s.upper

end Range

/-! ## The sorted dictionary

Keys are found by `==` (equal numbers have equal hashes).  The keys here are never NaN (`Range` objects with a NaN for lower endpoint are not
put into sets in this model: the standard dictionary would find such a key by identity, the sorted list would not find it at all). -/

/-- The dictionary of a range set. -/
abbrev Dict (V : Type) := List (Vista.Cut V × Vista.Range V)

/-- `bisect_left(k)`: number of keys `< k`.  (The code halves, which gives the same number if the keys `< k` come first.  That is so except
in `leftmost_containing_or_above` of NaN.) -/
def bisectLeft (d : Dict V) (k : Vista.Cut V) : Nat := d.countP fun e => Cut.lt num e.1 k

/-- `bisect(k)`: number of keys `<= k` (`not k < key`). -/
def bisect (d : Dict V) (k : Vista.Cut V) : Nat := d.countP fun e => !Cut.lt num k e.1

/-- `keys()[i]`. -/
def keyAt (d : Dict V) (i : Nat) : Res (Vista.Cut V) :=
  match d[i]? with
  | some e => .ok e.1
  | none => .error .indexError

/-- `values()[i]`. -/
def valueAt (d : Dict V) (i : Nat) : Res (Vista.Range V) :=
  match d[i]? with
  | some e => .ok e.2
  | none => .error .indexError

/-- `d[k]`. -/
def get (d : Dict V) (k : Vista.Cut V) : Res (Vista.Range V) :=
  match d.find? fun e => Cut.pyEq num k e.1 with
  | some e => .ok e.2
  | none => .error .keyError

/-- `index(k)`. -/
def index (d : Dict V) (k : Vista.Cut V) : Res Nat :=
  match d.findIdx? fun e => Cut.pyEq num e.1 k with
  | some i => .ok i
  | none => .error .valueError

/-- `list(irange(lo, hi, inclusive=(True, False)))`. -/
def irange (d : Dict V) (lo hi : Vista.Cut V) : List (Vista.Cut V) :=
  (d.filter fun e => !Cut.lt num e.1 lo && Cut.lt num e.1 hi).map (·.1)

/-- `del d[k]`. -/
def del (d : Dict V) (k : Vista.Cut V) : Res (Dict V) :=
  if d.any fun e => Cut.pyEq num e.1 k then .ok (d.filter fun e => !Cut.pyEq num e.1 k) else .error .keyError

/-- `d[k] = v`: an equal key stays the object it was. -/
def set : Dict V → Vista.Cut V → Vista.Range V → Dict V
  | [], k, v => [(k, v)]
  | e :: d, k, v => if Cut.lt num k e.1 then (k, v) :: e :: d else if Cut.pyEq num k e.1 then (e.1, v) :: d else e :: set d k v

/-- `range.py:1405-1418` `_value_below`. -/
def valueBelow (d : Dict V) (key : Vista.Cut V) : Res (Option (Vista.Range V)) :=
  let idx1 := bisectLeft num d key      -- Python: idx = idx1 - 1
  if idx1 ≥ 1 then do
    let idx := if idx1 - 1 ≥ d.length then d.length - 1 else idx1 - 1
    let lbKey ← keyAt d idx
    let v ← get num d lbKey
    .ok (some v)
  else .ok none

/-- `range.py:1421-1437` `_value_at_or_below`. -/
def valueAtOrBelow (d : Dict V) (key : Vista.Cut V) : Res (Option (Vista.Range V)) :=
  if d.isEmpty then .ok none
  else
    let idx := bisectLeft num d key
    if idx ≥ d.length then
      if idx > 0 then do
        let k ← keyAt d (idx - 1)
        let v ← get num d k
        .ok (some v)
      else .ok none
    else do
      let kIdx ← keyAt d idx
      if !Cut.pyEq num key kIdx then
        if idx > 0 then
          let k ← keyAt d (idx - 1)
          let v ← get num d k
          .ok (some v)
        else .ok none
      else
        let v ← get num d key
        .ok (some v)

/-- `range.py:1440-1447` `_value_at_or_above`. -/
def valueAtOrAbove (d : Dict V) (key : Vista.Cut V) : Res (Option (Vista.Range V)) :=
  if d.isEmpty then .ok none
  else
    let idx := bisectLeft num d key
    if idx ≥ d.length then .ok none
    else do
      let k ← keyAt d idx
      let v ← get num d k
      .ok (some v)

/-- The deletion loop of `_clear`. -/
def delAll (d : Dict V) : List (Vista.Cut V) → Res (Dict V)
  | [] => .ok d
  | k :: ks => do
    let d' ← del num d k
    delAll d' ks

/-- `range.py:1450-1459` `_clear`. -/
def clearRange (d : Dict V) (start stop : Vista.Cut V) : Res (Dict V) := delAll num d (irange num d start stop)

namespace RangeSet

/-- `range.py:1090-1092` `create`. -/
def create : Dict V := []

/-- `range.py:916-923`. -/
def rangeContaining (d : Dict V) (value : V) : Res (Option (Vista.Range V)) := do
  match ← valueAtOrBelow num d (.belowValue value) with
  | some r => if Range.contains num r value then .ok (some r) else .ok none
  | none => .ok none

/-- `range.py:925-935`. -/
def rangeEnclosingRange (d : Dict V) (rng : Vista.Range V) : Res (Option (Vista.Range V)) := do
  match ← valueAtOrBelow num d rng.lower with
  | some r => if Range.encloses num r rng then .ok (some r) else .ok none
  | none => .ok none

/-- The loop of `range.py:946-952`. -/
def enclosedLoop (q : Vista.Range V) : List (Vista.Range V) → List (Vista.Range V)
  | [] => []
  | r :: rs => if Range.encloses num q r then r :: enclosedLoop q rs else []

/-- `range.py:937-954`. -/
def rangesEnclosedBy (d : Dict V) (q : Vista.Range V) : Res (List (Vista.Range V)) := do
  match ← valueAtOrAbove num d q.lower with
  | some r => do
    let startIdx ← index num d r.lower
    .ok (enclosedLoop num q ((d.map (·.2)).drop startIdx))
  | none => .ok []

/-- `range.py:957-964` `value in rs`. -/
def contains (d : Dict V) (value : V) : Res Bool := do
  match ← valueAtOrBelow num d (.belowValue value) with
  | some r => .ok (Range.contains num r value)
  | none => .ok false

/-- `range.py:966-973`. -/
def encloses (d : Dict V) (rng : Vista.Range V) : Res Bool := do
  match ← valueAtOrBelow num d rng.lower with
  | some r => .ok (Range.encloses num r rng)
  | none => .ok false

/-- The condition repeated at `range.py:980-984` and `989-993`. -/
def nonEmptyOverlap (candidate : Option (Vista.Range V)) (rng : Vista.Range V) : Res Bool :=
  match candidate with
  | none => .ok false
  | some c =>
    if Range.isConnected num c rng then do
      let i ← Range.intersection num c rng
      .ok (!Range.isEmpty num i)
    else .ok false

/-- `range.py:975-994`. -/
def intersects (d : Dict V) (rng : Vista.Range V) : Res Bool := do
  let ceiling ← valueAtOrAbove num d rng.lower
  if ← nonEmptyOverlap num ceiling rng then .ok true
  else
    let lower ← valueBelow num d rng.lower
    nonEmptyOverlap num lower rng

/-- `rlb[rlb.keys()[index]]` -/
def entryAt (d : Dict V) (i : Nat) : Res (Vista.Range V) := do
  let k ← keyAt d i
  get num d k

/-- The list comprehension of `range.py:1018-1027`, for the indices `i, i+1, ..., i+n-1`. -/
def overlapLoop (d : Dict V) (rng : Vista.Range V) : Nat → Nat → Res (List (Vista.Range V))
  | _, 0 => .ok []
  | i, n + 1 => do
    let r ← entryAt num d i
    let rest ← overlapLoop d rng (i + 1) n
    .ok (if Range.intersects num r rng then r :: rest else rest)

/-- `range.py:996-1027`. -/
def rangesOverlapping (d : Dict V) (rng : Vista.Range V) : Res (List (Vista.Range V)) :=
  if d.isEmpty then .ok []
  else
    let fromIndex := bisect num d rng.lower
    if fromIndex = d.length then do
      let last ← entryAt num d (d.length - 1)
      .ok (if Range.intersects num last rng then [last] else [])
    else
      let toIndex := bisect num d rng.upper
      if toIndex = 0 then do
        let first ← entryAt num d 0
        .ok (if Range.intersects num first rng then [first] else [])
      else overlapLoop num d rng (fromIndex - 1) (toIndex - (fromIndex - 1))

/-- `range.py:1029-1030`. -/
def rightmostContainingOrBelow (d : Dict V) (limit : V) : Res (Option (Vista.Range V)) :=
  valueAtOrBelow num d (.belowValue limit)

/-- `range.py:1050-1055`: the final lookup of `leftmost_containing_or_above`. -/
def leftmostTail (d : Dict V) (idx : Nat) : Res (Option (Vista.Range V)) :=
  if idx < d.length then do
    let r ← entryAt num d idx
    .ok (some r)
  else .ok none

/-- `range.py:1032-1055`. -/
def leftmostContainingOrAbove (d : Dict V) (limit : V) : Res (Option (Vista.Range V)) :=
  let bound : Vista.Cut V := .aboveValue limit
  let idx := bisectLeft num d bound
  if idx ≥ 1 then do
    let latest ← entryAt num d (idx - 1)
    if Cut.le num bound latest.upper then .ok (some latest) else leftmostTail num d idx
  else leftmostTail num d idx

/-- `range.py:1057-1058` `as_ranges`. -/
def asRanges (d : Dict V) : List (Vista.Range V) := d.map (·.2)

/-- `range.py:1063-1070`. -/
def span (d : Dict V) : Res (Vista.Range V) :=
  if d.length = 0 then .error .valueError
  else do
    let first ← valueAt d 0
    let last ← valueAt d (d.length - 1)
    Range.new num first.lower last.upper

/-- `range.py:1150-1154` `_replace_range_with_same_lower_bound`. -/
def replaceRange (d : Dict V) (rng : Vista.Range V) : Res (Dict V) :=
  if Range.isEmpty num rng then del num d rng.lower else .ok (set num d rng.lower rng)

/-- `range.py:1121-1122`. -/
def extendUpper (belowUb : Option (Vista.Range V)) (ub : Vista.Cut V) : Vista.Cut V :=
  match belowUb with
  | some r => if Cut.lt num ub r.upper then r.upper else ub
  | none => ub

/-- `range.py:1117-1131`: the second half of `add`. -/
def addUpper (d : Dict V) (lb ub : Vista.Cut V) : Res (Dict V) := do
  let belowUb ← valueAtOrBelow num d ub
  let ub' := extendUpper num belowUb ub
  let d' ← clearRange num d lb ub'
  let rng ← Range.new num lb ub'
  replaceRange num d' rng

/-- `range.py:1094-1131` `add`. -/
def add (d : Dict V) (r : Vista.Range V) : Res (Dict V) :=
  if Range.isEmpty num r then .ok d
  else do
    let belowLb ← valueBelow num d r.lower
    match belowLb with
    | some b =>
      if Cut.le num r.lower b.upper then
        if Cut.lt num r.upper b.upper then .ok d
        else addUpper num d b.lower r.upper
      else addUpper num d r.lower r.upper
    | none => addUpper num d r.lower r.upper

/-- `range.py:1133-1140` `add_all`. -/
def addAll (d : Dict V) : List (Vista.Range V) → Res (Dict V)
  | [] => .ok d
  | r :: rs => do
    let d' ← add num d r
    addAll d' rs

/-- `range.py:1142-1143` `clear`. -/
def clear (d : Dict V) : Res (Dict V) := clearRange num d .belowAll .aboveAll

end RangeSet

/-- `range.py:1317-1395` `ImmutableRangeMap`. -/
structure RangeMap (V W : Type) where
  rngToVal : List (Vista.Range V × W)
  rangeSet : Dict V

namespace RangeMap
variable {W : Type}

/-- `range.py:1319-1329, 1378-1384`: build the range set from the keys, then compare the sizes. -/
def new (m : List (Vista.Range V × W)) : Res (RangeMap V W) := do
  let rs ← RangeSet.addAll num RangeSet.create (m.map (·.1))
  if m.length ≠ rs.length then .error .valueError else .ok ⟨m, rs⟩

/-- `self.rng_to_val[rng]`: by `==` of ranges. -/
def lookup (m : RangeMap V W) (r : Vista.Range V) : Res W :=
  match m.rngToVal.find? fun e => Range.pyEq num r e.1 with
  | some e => .ok e.2
  | none => .error .keyError

/-- `self.rng_to_val[rng] if rng else None` -/
def lookupOpt (m : RangeMap V W) : Option (Vista.Range V) → Res (Option W)
  | some r => do
    let v ← lookup num m r
    .ok (some v)
  | none => .ok none

/-- `range.py:1344-1345`. -/
def contains (m : RangeMap V W) (k : V) : Res Bool := RangeSet.contains num m.rangeSet k

/-- `range.py:1356-1358` `__getitem__`. -/
def getItem (m : RangeMap V W) (k : V) : Res (Option W) := do
  lookupOpt num m (← RangeSet.rangeContaining num m.rangeSet k)

/-- The loop of `range.py:1347-1351`. -/
def lookupAll (m : RangeMap V W) : List (Vista.Range V) → Res (List W)
  | [] => .ok []
  | r :: rs => do
    let v ← lookup num m r
    let vs ← lookupAll m rs
    .ok (v :: vs)

/-- `range.py:1347-1351` `get_enclosed_by`: the values added to the result set, in order. -/
def getEnclosedBy (m : RangeMap V W) (r : Vista.Range V) : Res (List W) := do
  lookupAll num m (← RangeSet.rangesEnclosedBy num m.rangeSet r)

/-- `range.py:1363-1365`. -/
def getRightmost (m : RangeMap V W) (k : V) : Res (Option W) := do
  lookupOpt num m (← RangeSet.rightmostContainingOrBelow num m.rangeSet k)

/-- `range.py:1367-1369`. -/
def getLeftmost (m : RangeMap V W) (k : V) : Res (Option W) := do
  lookupOpt num m (← RangeSet.leftmostContainingOrAbove num m.rangeSet k)

end RangeMap
end Numeric
end Vista
