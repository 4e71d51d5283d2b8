import Verif.Model.RangeSet

/-!
# `vistautils/range.py` with the identity of the two unbounded cuts

`Model/Range.lean` has one cut below and one above all values.  In the code these are two module constants, recognised by identity
(`is`), and nothing keeps other instances of the same classes from coming into being: unpickling and `copy.deepcopy` make them, because
`_BelowAll` and `_AboveAll` define no `__reduce__`.  Here the instance is part of the cut.

Comparing a cut at a value with an unbounded cut that is not the constant asks it for its `endpoint`, a `ValueError`; so comparisons,
and everything that searches a sorted dictionary, can raise.

Searches are modelled as going through the keys from the first one on.  `sortedcontainers` searches by halving; the two ask for the
same comparisons when there is at most one key, give the same result when no comparison raises, and both raise when every comparison
does.
-/
namespace Vista
namespace Pickled

/-- `_BelowAll`, `_AboveAll` (`range.py:162-225`), as instances: `0` is the module constant `_BELOW_ALL` or `_ABOVE_ALL` (`range.py:229-231`);
`_BelowValue`, `_AboveValue` (`range.py:234-306`). -/
inductive ICut (T : Type)
  | belowAll (instanceId : Nat)
  | aboveAll (instanceId : Nat)
  | belowValue (v : T)
  | aboveValue (v : T)
  deriving DecidableEq, Repr

namespace ICut
variable {T : Type}

/-- `endpoint`: `range.py:165-167`, `198-200`, `239-241`, `275-277`. -/
def endpoint : ICut T → Res T
  | belowAll _ => .error .valueError
  | aboveAll _ => .error .valueError
  | belowValue v => .ok v
  | aboveValue v => .ok v

/-- What `pickle.loads(pickle.dumps(x))` and `copy.deepcopy(x)` do to a cut in `x`: an unbounded cut comes back as another instance; all
references to one instance within `x` come back as references to one instance (the memo of the pickle). -/
def copy (new : Nat → Nat) : ICut T → ICut T
  | belowAll i => belowAll (new i)
  | aboveAll i => aboveAll (new i)
  | belowValue v => belowValue v
  | aboveValue v => aboveValue v

variable [LinearOrder T]

/-- `is_less_than`: `range.py:169`, `202`, `243`, `279`. -/
def isLessThan : ICut T → T → Bool
  | belowAll _, _ => true
  | aboveAll _, _ => false
  | belowValue v, other => decide (v < other) || decide (v = other)
  | aboveValue v, other => decide (v < other)

/-- `_Cut.compare_to`, `range.py:121-142`, of a cut at a value: `is` the constants, or else the endpoints. -/
def compareAt (selfAbove : Bool) (x : T) (other : ICut T) : Res Int :=
  if other = belowAll 0 then .ok 1
  else if other = aboveAll 0 then .ok (-1)
  else do
    let y ← other.endpoint
    let otherAbove := match other with
      | aboveValue _ => true
      | _ => false
    .ok (if x < y then -1
      else if y < x then 1
      else if selfAbove then (if otherAbove then 0 else 1)
      else (if otherAbove then -1 else 0))

/-- `compare_to`: `range.py:121-142` and the overrides `184-188` and `217-221` (`other is self`). -/
def compareTo : ICut T → ICut T → Res Int
  | belowAll i, other => .ok (if other = belowAll i then 0 else -1)
  | aboveAll i, other => .ok (if other = aboveAll i then 0 else 1)
  | belowValue x, other => compareAt false x other
  | aboveValue x, other => compareAt true x other

/-- `__lt__`, `range.py:146-147`. -/
def lt (a b : ICut T) : Res Bool := do
  let c ← a.compareTo b
  .ok (decide (c < 0))
/-- `__le__`, `range.py:149-150`. -/
def le (a b : ICut T) : Res Bool := do
  let c ← a.compareTo b
  .ok (decide (c ≤ 0))

/-- `__eq__`: `range.py:158-159` for the unbounded cuts (`compare_to` is 0: the same instance), `255-258` and `292-295` for the others. -/
def pyEq : ICut T → ICut T → Bool
  | belowAll i, other => match other with
    | belowAll j => decide (i = j)
    | _ => false
  | aboveAll i, other => match other with
    | aboveAll j => decide (i = j)
    | _ => false
  | belowValue x, other => match other with
    | belowValue y => decide (x = y)
    | _ => false
  | aboveValue x, other => match other with
    | aboveValue y => decide (x = y)
    | _ => false

end ICut

/-- `Range`, `range.py:313-377`. -/
structure IRange (T : Type) where
  lower : ICut T
  upper : ICut T
  deriving DecidableEq, Repr

namespace IRange
variable {T : Type}

/-- A range, pickled and unpickled (its constructor is not run again). -/
def copy (new : Nat → Nat) (r : IRange T) : IRange T := ⟨r.lower.copy new, r.upper.copy new⟩

/-- `range.py:451-453`. -/
def upperEndpoint (r : IRange T) : Res T := r.upper.endpoint
/-- `range.py:447-449`. -/
def lowerEndpoint (r : IRange T) : Res T := r.lower.endpoint

variable [LinearOrder T]

/-- The constructor with the checks of `__attrs_post_init__`, `range.py:380-387`. -/
def new (lo hi : ICut T) : Res (IRange T) := do
  checkArg (← lo.le hi)
  checkArg (decide (lo ≠ .aboveAll 0))
  checkArg (decide (hi ≠ .belowAll 0))
  .ok ⟨lo, hi⟩

/-- `range.py:433-434`. -/
def hasLowerBound (r : IRange T) : Bool := decide (r.lower ≠ .belowAll 0)
/-- `range.py:436-437`. -/
def hasUpperBound (r : IRange T) : Bool := decide (r.upper ≠ .aboveAll 0)
/-- `range.py:455-466`. -/
def isEmpty (r : IRange T) : Bool := r.lower.pyEq r.upper
/-- `range.py:469-473` `v in r`. -/
def contains (r : IRange T) (v : T) : Bool := r.lower.isLessThan v && !(r.upper.isLessThan v)
/-- `range.py:475-480`. -/
def encloses (r s : IRange T) : Res Bool := do
  let l ← r.lower.compareTo s.lower
  if l ≤ 0 then
    let u ← r.upper.compareTo s.upper
    .ok (decide (u ≥ 0))
  else .ok false
/-- `range.py:482-505`. -/
def isConnected (r s : IRange T) : Res Bool := do
  if ← r.lower.le s.upper then s.lower.le r.upper else .ok false
/-- `range.py:586-592` `__eq__`. -/
def pyEq (r s : IRange T) : Bool := r.lower.pyEq s.lower && r.upper.pyEq s.upper

end IRange

variable {T : Type} [LinearOrder T]

/-- `SortedDict` from lower bounds to ranges. -/
abbrev IDict (T : Type) := List (ICut T × IRange T)

/-- `bisect_left(k)`: how many keys come before the first one for which `key < k` is false. -/
def bisectLeft : IDict T → ICut T → Res Nat
  | [], _ => .ok 0
  | e :: d, k => do
    if ← e.1.lt k then
      let n ← bisectLeft d k
      .ok (n + 1)
    else .ok 0

/-- `keys()[i]`. -/
def keyAt (d : IDict T) (i : Nat) : Res (ICut T) :=
  match d[i]? with
  | some e => .ok e.1
  | none => .error .indexError

/-- `d[k]`: by `==`. -/
def get (d : IDict T) (k : ICut T) : Res (IRange T) :=
  match d.find? fun e => e.1.pyEq k with
  | some e => .ok e.2
  | none => .error .keyError

/-- `SortedList.add`, called for a new key: before the first key for which `k < key`. -/
def insert : IDict T → ICut T → IRange T → Res (IDict T)
  | [], k, r => .ok [(k, r)]
  | e :: d, k, r => do
    if ← k.lt e.1 then .ok ((k, r) :: e :: d)
    else
      let d' ← insert d k r
      .ok (e :: d')

/-- `d[k] = r`. -/
def set (d : IDict T) (k : ICut T) (r : IRange T) : Res (IDict T) :=
  if d.any fun e => e.1.pyEq k then .ok (d.map fun e => if e.1.pyEq k then (e.1, r) else e) else insert d k r

/-- `del d[k]` (the search for the position of the key is not modelled). -/
def del (d : IDict T) (k : ICut T) : Res (IDict T) :=
  if d.any fun e => e.1.pyEq k then .ok (d.filter fun e => !e.1.pyEq k) else .error .keyError

/-- `list(irange(lo, hi, inclusive=(True, False)))`: nothing more is compared once `lo` comes after every key. -/
def irange (d : IDict T) (lo hi : ICut T) : Res (List (ICut T)) := do
  let i ← bisectLeft d lo
  if i = d.length then .ok []
  else
    let j ← bisectLeft d hi
    .ok (((d.take j).drop i).map (·.1))

/-- `range.py:1405-1418` `_value_below`. -/
def valueBelow (d : IDict T) (key : ICut T) : Res (Option (IRange T)) := do
  let idx1 ← bisectLeft d key
  if idx1 ≥ 1 then do
    let idx := if idx1 - 1 ≥ d.length then d.length - 1 else idx1 - 1
    let lbKey ← keyAt d idx
    let v ← get d lbKey
    .ok (some v)
  else .ok none

/-- `range.py:1421-1437` `_value_at_or_below`. -/
def valueAtOrBelow (d : IDict T) (key : ICut T) : Res (Option (IRange T)) :=
  if d.isEmpty then .ok none
  else do
    let idx ← bisectLeft d key
    if idx ≥ d.length then
      if idx > 0 then do
        let k ← keyAt d (idx - 1)
        let v ← get d k
        .ok (some v)
      else .ok none
    else do
      let kIdx ← keyAt d idx
      if !key.pyEq kIdx then
        if idx > 0 then do
          let k ← keyAt d (idx - 1)
          let v ← get d k
          .ok (some v)
        else .ok none
      else do
        let v ← get d key
        .ok (some v)

/-- The deletion loop of `_clear`. -/
def delAll (d : IDict T) : List (ICut T) → Res (IDict T)
  | [] => .ok d
  | k :: ks => do
    let d' ← del d k
    delAll d' ks

/-- `range.py:1450-1459` `_clear`. -/
def clearRange (d : IDict T) (start stop : ICut T) : Res (IDict T) := do
  let ks ← irange d start stop
  delAll d ks

/-- `range.py:1150-1154` `_replace_range_with_same_lower_bound`. -/
def replaceRange (d : IDict T) (rng : IRange T) : Res (IDict T) :=
  if rng.isEmpty then del d rng.lower else set d rng.lower rng

/-- `range.py:1121-1122`. -/
def extendUpper (belowUb : Option (IRange T)) (ub : ICut T) : Res (ICut T) :=
  match belowUb with
  | some r => do
    if ← ub.lt r.upper then .ok r.upper else .ok ub
  | none => .ok ub

/-- `range.py:1117-1131`. -/
def addUpper (d : IDict T) (lb ub : ICut T) : Res (IDict T) := do
  let belowUb ← valueAtOrBelow d ub
  let ub' ← extendUpper belowUb ub
  let d' ← clearRange d lb ub'
  let rng ← IRange.new lb ub'
  replaceRange d' rng

/-- `range.py:1094-1131` `add`. -/
def add (d : IDict T) (r : IRange T) : Res (IDict T) :=
  if r.isEmpty then .ok d
  else do
    let belowLb ← valueBelow d r.lower
    match belowLb with
    | some b => do
      if ← r.lower.le b.upper then
        if ← r.upper.lt b.upper then .ok d
        else addUpper d b.lower r.upper
      else addUpper d r.lower r.upper
    | none => addUpper d r.lower r.upper

/-- `Builder.add_all`, `range.py:826-829`. -/
def addAll (d : IDict T) : List (IRange T) → Res (IDict T)
  | [] => .ok d
  | r :: rs => do
    let d' ← add d r
    addAll d' rs

/-- `as_ranges`, `range.py:1057-1058`. -/
def asRanges (d : IDict T) : List (IRange T) := d.map (·.2)

/-- `range.py:916-923` `range_containing`. -/
def rangeContaining (d : IDict T) (value : T) : Res (Option (IRange T)) := do
  match ← valueAtOrBelow d (.belowValue value) with
  | some r => if r.contains value then .ok (some r) else .ok none
  | none => .ok none

/-- `range.py:957-964` `value in rs`. -/
def contains (d : IDict T) (value : T) : Res Bool := do
  match ← valueAtOrBelow d (.belowValue value) with
  | some r => .ok (r.contains value)
  | none => .ok false

/-- `RangeSet.__eq__`, `range.py:773-777`: the same set of ranges. -/
def setEq (a b : IDict T) : Bool :=
  (asRanges a).all (fun r => (asRanges b).any fun s => r.pyEq s) && (asRanges b).all (fun r => (asRanges a).any fun s => r.pyEq s)

/-- Insertion of the next key into the keys sorted so far, greatest first: Python's `sorted` asks `next < previous` first. -/
def insertBack (e : ICut T × IRange T) : IDict T → Res (IDict T)
  | [] => .ok [e]
  | f :: d => do
    if ← e.1.lt f.1 then
      let d' ← insertBack e d
      .ok (f :: d')
    else .ok (e :: f :: d)

/-- `sorted` of the keys, greatest first. -/
def sortBack : IDict T → IDict T → Res (IDict T)
  | acc, [] => .ok acc
  | acc, e :: d => do
    let acc' ← insertBack e acc
    sortBack acc' d

/-- `__setstate__`, `range.py:1081-1084`: `SortedDict(pairs)` sorts the keys (they are distinct). -/
def setState (state : List (IRange T)) : Res (IDict T) := do
  let d ← sortBack [] (state.map fun r => (r.lower, r))
  .ok d.reverse

/-- `pickle.loads(pickle.dumps(rs))`, `copy.deepcopy(rs)`: `__getstate__` (`range.py:800-803`: its ranges), a copy of each, `__setstate__`. -/
def unpickleSet (new : Nat → Nat) (d : IDict T) : Res (IDict T) :=
  setState ((if d.length = 0 then [] else asRanges d).map (IRange.copy new))

/-- `ImmutableRangeMap`, `range.py:1317-1395`. -/
structure IMap (T V : Type) where
  rngToVal : List (IRange T × V)
  rangeSet : IDict T

variable {V : Type}

/-- `range.py:1319-1329, 1378-1384`. -/
def newMap (m : List (IRange T × V)) : Res (IMap T V) := do
  let rs ← addAll [] (m.map (·.1))
  if m.length ≠ rs.length then .error .valueError else .ok ⟨m, rs⟩

/-- `range.py:1356-1358` `__getitem__`. -/
def getItem (m : IMap T V) (k : T) : Res (Option V) := do
  match ← rangeContaining m.rangeSet k with
  | some r =>
    match m.rngToVal.find? fun e => e.1.pyEq r with
    | some e => .ok (some e.2)
    | none => .error .keyError
  | none => .ok none

/-- Equality of the mappings: the same keys with the same values (`range.py:1317`: attrs compares the fields, `rng_to_val` first). -/
def mapEq [DecidableEq V] (a b : IMap T V) : Bool :=
  decide (a.rngToVal.length = b.rngToVal.length) &&
    a.rngToVal.all (fun e => b.rngToVal.any fun f => e.1.pyEq f.1 && decide (e.2 = f.2)) && setEq a.rangeSet b.rangeSet

/-- `pickle.loads(pickle.dumps(m))`, `copy.deepcopy(m)`: `__reduce__`, `range.py:1371-1376`, runs the constructor on copies of the items. -/
def unpickleMap (new : Nat → Nat) (m : IMap T V) : Res (IMap T V) :=
  newMap ((if m.rangeSet.length = 0 then [] else m.rngToVal).map fun e => (e.1.copy new, e.2))

end Pickled
end Vista
