import Verif.Model.Range
import Verif.Model.SortedDict
import Verif.Proofs.Cut

/-!
# `vistautils/range.py`: range sets and range maps (lines 610-1462)

A range set is its `_ranges_by_lower_bound` dictionary.  `Optional[Range]` results are `Option`; a `Range` object is
always truthy in Python (it defines neither `__bool__` nor `__len__`), so `if rng` is `isSome`.
The order on cuts used by `SortedDict` is the one of `_Cut.__lt__` etc. (its linear-order laws are proved in
`Verif/Proofs/Cut.lean`).
-/
namespace Vista
variable {T : Type} [LinearOrder T]

abbrev RDict (T : Type) := SortedDict (Cut T) (Range T)

/-- `range.py:1405-1418` `_value_below`. -/
def valueBelow {K V : Type} [LinearOrder K] (d : SortedDict K V) (key : K) : Res (Option V) :=
  let idx1 := d.bisectLeft key      -- Python: idx = idx1 - 1
  if idx1 ≥ 1 then do
    let idx := if idx1 - 1 ≥ d.length then d.length - 1 else idx1 - 1
    let lbKey ← d.keyAt idx
    let v ← d.get lbKey
    .ok (some v)
  else .ok none

/-- `range.py:1421-1437` `_value_at_or_below`. -/
def valueAtOrBelow {K V : Type} [LinearOrder K] (d : SortedDict K V) (key : K) : Res (Option V) :=
  if d.isEmpty then .ok none
  else
    let idx := d.bisectLeft key
    if idx ≥ d.length then
      if idx > 0 then do
        let k ← d.keyAt (idx - 1)
        let v ← d.get k
        .ok (some v)
      else .ok none
    else do
      let kIdx ← d.keyAt idx
      if key ≠ kIdx then
        if idx > 0 then
          let k ← d.keyAt (idx - 1)
          let v ← d.get k
          .ok (some v)
        else .ok none
      else
        let v ← d.get key
        .ok (some v)

/-- `range.py:1440-1447` `_value_at_or_above`. -/
def valueAtOrAbove {K V : Type} [LinearOrder K] (d : SortedDict K V) (key : K) : Res (Option V) :=
  if d.isEmpty then .ok none
  else
    let idx := d.bisectLeft key
    if idx ≥ d.length then .ok none
    else do
      let k ← d.keyAt idx
      let v ← d.get k
      .ok (some v)

/-- The deletion loop of `_clear`. -/
def delAll {K V : Type} [LinearOrder K] (d : SortedDict K V) : List K → Res (SortedDict K V)
  | [] => .ok d
  | k :: ks => do
    let d' ← d.del k
    delAll d' ks

/-- `range.py:1450-1459` `_clear`. -/
def clearRange {K V : Type} [LinearOrder K] (d : SortedDict K V) (start stop : K) : Res (SortedDict K V) :=
  delAll d (d.irange start stop)

namespace RangeSet

/-- `range.py:1090-1092` `create`. -/
def create : RDict T := []

/-- `range.py:916-923`. -/
def rangeContaining (d : RDict T) (value : T) : Res (Option (Range T)) := do
  match ← valueAtOrBelow d (.belowValue value) with
  | some r => if r.contains value then .ok (some r) else .ok none
  | none => .ok none

/-- `range.py:925-935`. -/
def rangeEnclosingRange (d : RDict T) (rng : Range T) : Res (Option (Range T)) := do
  match ← valueAtOrBelow d rng.lower with
  | some r => if r.encloses rng then .ok (some r) else .ok none
  | none => .ok none

/-- The loop of `range.py:946-952`, over the values from `start_idx` on (`values()[idx]` for increasing `idx`). -/
def enclosedLoop (q : Range T) : List (Range T) → List (Range T)
  | [] => []
  | r :: rs => if q.encloses r then r :: enclosedLoop q rs else []

/-- `range.py:937-954`.  The `ImmutableSet` result is the list of its elements in insertion order
(the dictionary's values are pairwise distinct). -/
def rangesEnclosedBy (d : RDict T) (q : Range T) : Res (List (Range T)) := do
  match ← valueAtOrAbove d q.lower with
  | some r => do
    let startIdx ← d.index r.lower
    .ok (enclosedLoop q (d.values.drop startIdx))
  | none => .ok []

/-- `range.py:957-964` `value in rs`. -/
def contains (d : RDict T) (value : T) : Res Bool := do
  match ← valueAtOrBelow d (.belowValue value) with
  | some r => .ok (r.contains value)
  | none => .ok false

/-- `range.py:966-973`. -/
def encloses (d : RDict T) (rng : Range T) : Res Bool := do
  match ← valueAtOrBelow d rng.lower with
  | some r => .ok (r.encloses rng)
  | none => .ok false

/-- `range.py:654-663` `encloses_all` (the overload taking another range set passes its `as_ranges()`). -/
def enclosesAll (d : RDict T) : List (Range T) → Res Bool
  | [] => .ok true
  | r :: rs => do
    if !(← encloses d r) then .ok false else enclosesAll d rs

/-- The condition repeated at `range.py:980-984` and `989-993`. -/
def nonEmptyOverlap (candidate : Option (Range T)) (rng : Range T) : Res Bool :=
  match candidate with
  | none => .ok false
  | some c =>
    if c.isConnected rng then do
      let i ← c.intersection rng
      .ok (!i.isEmpty)
    else .ok false

/-- `range.py:975-994`. -/
def intersects (d : RDict T) (rng : Range T) : Res Bool := do
  let ceiling ← valueAtOrAbove d rng.lower
  if ← nonEmptyOverlap ceiling rng then .ok true
  else
    let lower ← valueBelow d rng.lower
    nonEmptyOverlap lower rng

/-- `rlb[rlb.keys()[index]]` -/
def entryAt (d : RDict T) (i : Nat) : Res (Range T) := do
  let k ← d.keyAt i
  d.get k

/-- The list comprehension of `range.py:1018-1027`, for the indices `i, i+1, ..., i+n-1`. -/
def overlapLoop (d : RDict T) (rng : Range T) : Nat → Nat → Res (List (Range T))
  | _, 0 => .ok []
  | i, n + 1 => do
    let r ← entryAt d i
    let rest ← overlapLoop d rng (i + 1) n
    .ok (if r.intersects rng then r :: rest else rest)

/-- `range.py:996-1027`. -/
def rangesOverlapping (d : RDict T) (rng : Range T) : Res (List (Range T)) :=
  if d.isEmpty then .ok []
  else
    let fromIndex := d.bisect rng.lower
    if fromIndex = d.length then do
      let last ← entryAt d (d.length - 1)
      .ok (if last.intersects rng then [last] else [])
    else
      let toIndex := d.bisect rng.upper
      if toIndex = 0 then do
        let first ← entryAt d 0
        .ok (if first.intersects rng then [first] else [])
      else overlapLoop d rng (fromIndex - 1) (toIndex - (fromIndex - 1))

/-- `range.py:1029-1030`. -/
def rightmostContainingOrBelow (d : RDict T) (limit : T) : Res (Option (Range T)) :=
  valueAtOrBelow d (.belowValue limit)

/-- `range.py:1050-1055`: the final lookup of `leftmost_containing_or_above`. -/
def leftmostTail (d : RDict T) (idx : Nat) : Res (Option (Range T)) :=
  if idx < d.length then do
    let r ← entryAt d idx
    .ok (some r)
  else .ok none

/-- `range.py:1032-1055`. -/
def leftmostContainingOrAbove (d : RDict T) (limit : T) : Res (Option (Range T)) :=
  let bound : Cut T := .aboveValue limit
  let idx := d.bisectLeft bound
  if idx ≥ 1 then do
    let latest ← entryAt d (idx - 1)
    if bound ≤ latest.upper then .ok (some latest) else leftmostTail d idx
  else leftmostTail d idx

/-- `range.py:1057-1058` `as_ranges`. -/
def asRanges (d : RDict T) : List (Range T) := d.values

/-- `range.py:1060-1061`. -/
def isEmpty (d : RDict T) : Bool := decide (d.length = 0)

/-- `range.py:1078-1079` `__len__`. -/
def len (d : RDict T) : Nat := d.length

/-- `range.py:1063-1070`. -/
def span (d : RDict T) : Res (Range T) :=
  if isEmpty d then .error .valueError
  else do
    let first ← d.valueAt 0
    let last ← d.valueAt (d.length - 1)
    Range.new first.lower last.upper

/-- `range.py:773-777` `__eq__` between range sets: equality of the `ImmutableSet`s of ranges (as sets). -/
def pyEq (a b : RDict T) : Bool :=
  (asRanges a).all (fun r => (asRanges b).any fun s => r.pyEq s) &&
  (asRanges b).all (fun r => (asRanges a).any fun s => r.pyEq s)

/-- `range.py:800-803` `__getstate__`. -/
def getState (d : RDict T) : List (Range T) := if isEmpty d then [] else asRanges d

/-- `range.py:1081-1084` `__setstate__`. -/
def setState (state : List (Range T)) : RDict T := SortedDict.ofList (state.map fun r => (r.lower, r))

/-- `range.py:1150-1154` `_replace_range_with_same_lower_bound`. -/
def replaceRange (d : RDict T) (rng : Range T) : Res (RDict T) :=
  if rng.isEmpty then d.del rng.lower else .ok (d.set rng.lower rng)

/-- `range.py:1121-1122`: extend the upper bound to that of the range found below it. -/
def extendUpper (belowUb : Option (Range T)) (ub : Cut T) : Cut T :=
  match belowUb with
  | some r => if ub < r.upper then r.upper else ub
  | none => ub

/-- `range.py:1117-1131`: the second half of `add`, once the lower bound to add is known. -/
def addUpper (d : RDict T) (lb ub : Cut T) : Res (RDict T) := do
  let belowUb ← valueAtOrBelow d ub
  let ub' := extendUpper belowUb ub
  let d' ← clearRange d lb ub'
  let rng ← Range.new lb ub'
  replaceRange d' rng

/-- `range.py:1094-1131` `add`. -/
def add (d : RDict T) (r : Range T) : Res (RDict T) :=
  if r.isEmpty then .ok d
  else do
    let belowLb ← valueBelow d r.lower
    match belowLb with
    | some b =>
      if r.lower ≤ b.upper then
        if r.upper < b.upper then .ok d
        else addUpper d b.lower r.upper
      else addUpper d r.lower r.upper
    | none => addUpper d r.lower r.upper

/-- `range.py:1133-1140` `add_all` (and `Builder.add_all`, `826-829`). -/
def addAll (d : RDict T) : List (Range T) → Res (RDict T)
  | [] => .ok d
  | r :: rs => do
    let d' ← add d r
    addAll d' rs

/-- `range.py:1142-1143` `clear`. -/
def clear (d : RDict T) : Res (RDict T) := clearRange d .belowAll .aboveAll

/-- `range.py:1145-1148` `remove`: not implemented by the code. -/
def remove (_d : RDict T) (_r : Range T) : Res (RDict T) := .error .notImplementedError

/-- `range.py:891-903` `remove_all`. -/
def removeAll (d : RDict T) : List (Range T) → Res (RDict T)
  | [] => .ok d
  | r :: rs => do
    let d' ← remove d r
    removeAll d' rs

end RangeSet

/-- `range.py:1317-1395` `ImmutableRangeMap`: the mapping (keys distinct, in insertion order: an `immutabledict`) and the
range set built from its keys. -/
structure RangeMap (T V : Type) where
  rngToVal : List (Range T × V)
  rangeSet : RDict T

namespace RangeMap
variable {V : Type}

/-- `range.py:1319-1329, 1378-1384` (and the builder, `1386-1395`, and `immutablerangemap`, `1398-1401`): build the range set from the keys, then compare the sizes. -/
def new (m : List (Range T × V)) : Res (RangeMap T V) := do
  let rs ← RangeSet.addAll RangeSet.create (m.map (·.1))
  if m.length ≠ RangeSet.len rs then .error .valueError else .ok ⟨m, rs⟩

/-- `self.rng_to_val[rng]`. -/
def lookup (m : RangeMap T V) (r : Range T) : Res V :=
  match m.rngToVal.lookup r with
  | some v => .ok v
  | none => .error .keyError

/-- `self.rng_to_val[rng] if rng else None` -/
def lookupOpt (m : RangeMap T V) : Option (Range T) → Res (Option V)
  | some r => do
    let v ← m.lookup r
    .ok (some v)
  | none => .ok none

/-- `range.py:1344-1345`. -/
def contains (m : RangeMap T V) (k : T) : Res Bool := RangeSet.contains m.rangeSet k

/-- `range.py:1356-1358` `__getitem__`. -/
def getItem (m : RangeMap T V) (k : T) : Res (Option V) := do
  m.lookupOpt (← RangeSet.rangeContaining m.rangeSet k)

/-- The loop of `range.py:1347-1351`. -/
def lookupAll (m : RangeMap T V) : List (Range T) → Res (List V)
  | [] => .ok []
  | r :: rs => do
    let v ← m.lookup r
    let vs ← lookupAll m rs
    .ok (v :: vs)

/-- `range.py:1347-1351` `get_enclosed_by`: the values added to the result set, in order. -/
def getEnclosedBy (m : RangeMap T V) (r : Range T) : Res (List V) := do
  m.lookupAll (← RangeSet.rangesEnclosedBy m.rangeSet r)

/-- `range.py:1363-1365`. -/
def getRightmost (m : RangeMap T V) (k : T) : Res (Option V) := do
  m.lookupOpt (← RangeSet.rightmostContainingOrBelow m.rangeSet k)

/-- `range.py:1367-1369`. -/
def getLeftmost (m : RangeMap T V) (k : T) : Res (Option V) := do
  m.lookupOpt (← RangeSet.leftmostContainingOrAbove m.rangeSet k)

/-- `range.py:1353-1354`. -/
def isEmpty (m : RangeMap T V) : Bool := RangeSet.isEmpty m.rangeSet

/-- `range.py:1371-1376` `__reduce__`: pickling re-runs the constructor on the items. -/
def reduce (m : RangeMap T V) : List (Range T × V) := if m.isEmpty then [] else m.rngToVal

end RangeMap
end Vista
