import Verif.Model.RangeSet

/-!
# `vistautils/range.py` with endpoints that cannot all be compared

Values of different kinds (an `int` and a `str`, say) can be tested for equality, but comparing them with `<` raises `TypeError`.
`kind v` is the kind of the value `v`; the order on `T` matters only between values of the same kind.  The functions of
`Model/Range.lean` and `Model/RangeSet.lean` are modelled again with every comparison in the order in which the code makes it, and methods
that change a range set return the set as it is afterwards, also if they raise.
-/
namespace Vista
namespace Mixed
variable {T κ : Type} [LinearOrder T] [DecidableEq κ] (kind : T → κ)

/-- `x < y` for two values. -/
def less (x y : T) : Res Bool := if kind x = kind y then .ok (decide (x < y)) else .error .typeError

namespace Cut

/-- `is_less_than`: `range.py:169`, `202`, `243`, `279`. -/
def isLessThan : Vista.Cut T → T → Res Bool
  | .belowAll, _ => .ok true
  | .aboveAll, _ => .ok false
  | .belowValue v, other => do
    if ← less kind v other then .ok true else .ok (decide (v = other))
  | .aboveValue v, other => less kind v other

/-- Tail of `_Cut.compare_to`, `range.py:127-142`. -/
def compareValues (selfAbove otherAbove : Bool) (x y : T) : Res Int := do
  if ← less kind x y then .ok (-1)
  else
    if ← less kind y x then .ok 1
    else if selfAbove then .ok (if otherAbove then 0 else 1)
    else .ok (if otherAbove then -1 else 0)

/-- `compare_to`: `range.py:121-142` and the overrides `184-188`, `217-221`. -/
def compareTo : Vista.Cut T → Vista.Cut T → Res Int
  | .belowAll, .belowAll => .ok 0
  | .belowAll, _ => .ok (-1)
  | .aboveAll, .aboveAll => .ok 0
  | .aboveAll, _ => .ok 1
  | .belowValue _, .belowAll => .ok 1
  | .belowValue _, .aboveAll => .ok (-1)
  | .belowValue x, .belowValue y => compareValues kind false false x y
  | .belowValue x, .aboveValue y => compareValues kind false true x y
  | .aboveValue _, .belowAll => .ok 1
  | .aboveValue _, .aboveAll => .ok (-1)
  | .aboveValue x, .belowValue y => compareValues kind true false x y
  | .aboveValue x, .aboveValue y => compareValues kind true true x y

/-- `__lt__`, `range.py:146-147`. -/
def lt (a b : Vista.Cut T) : Res Bool := do
  let c ← compareTo kind a b
  .ok (decide (c < 0))

/-- `__le__`, `range.py:149-150`. -/
def le (a b : Vista.Cut T) : Res Bool := do
  let c ← compareTo kind a b
  .ok (decide (c ≤ 0))

end Cut

namespace Range

/-- The constructor with the checks of `__attrs_post_init__`, `range.py:380-387`. -/
def new (lo hi : Vista.Cut T) : Res (Vista.Range T) := do
  checkArg (← Cut.le kind lo hi)
  checkArg (decide (lo ≠ .aboveAll))
  checkArg (decide (hi ≠ .belowAll))
  .ok ⟨lo, hi⟩

/-- `range.py:389-391`. -/
def «open» (lo hi : T) : Res (Vista.Range T) := new kind (.aboveValue lo) (.belowValue hi)
/-- `range.py:393-395`. -/
def closed (lo hi : T) : Res (Vista.Range T) := new kind (.belowValue lo) (.aboveValue hi)
/-- `range.py:397-399`. -/
def closedOpen (lo hi : T) : Res (Vista.Range T) := new kind (.belowValue lo) (.belowValue hi)
/-- `range.py:401-403`. -/
def openClosed (lo hi : T) : Res (Vista.Range T) := new kind (.aboveValue lo) (.aboveValue hi)
/-- `range.py:405-407`. -/
def lessThan (hi : T) : Res (Vista.Range T) := new kind .belowAll (.belowValue hi)
/-- `range.py:409-411`. -/
def atMost (hi : T) : Res (Vista.Range T) := new kind .belowAll (.aboveValue hi)
/-- `range.py:413-415`. -/
def greaterThan (lo : T) : Res (Vista.Range T) := new kind (.aboveValue lo) .aboveAll
/-- `range.py:417-419`. -/
def atLeast (lo : T) : Res (Vista.Range T) := new kind (.belowValue lo) .aboveAll
/-- `range.py:421-423`, `606`. -/
def all : Res (Vista.Range T) := new kind .belowAll .aboveAll

/-- `range.py:469-473` `v in r`. -/
def contains (r : Vista.Range T) (v : T) : Res Bool := do
  if ← Cut.isLessThan kind r.lower v then
    let b ← Cut.isLessThan kind r.upper v
    .ok (!b)
  else .ok false

/-- `range.py:475-480`. -/
def encloses (r s : Vista.Range T) : Res Bool := do
  let l ← Cut.compareTo kind r.lower s.lower
  if l ≤ 0 then
    let u ← Cut.compareTo kind r.upper s.upper
    .ok (decide (u ≥ 0))
  else .ok false

/-- `range.py:482-506`. -/
def isConnected (r s : Vista.Range T) : Res Bool := do
  if ← Cut.le kind r.lower s.upper then Cut.le kind s.lower r.upper else .ok false

/-- `range.py:508-531`. -/
def span (r s : Vista.Range T) : Res (Vista.Range T) := do
  let lowerCmp ← Cut.compareTo kind r.lower s.lower
  let upperCmp ← Cut.compareTo kind r.upper s.upper
  if lowerCmp ≤ 0 ∧ upperCmp ≥ 0 then .ok r
  else if lowerCmp ≥ 0 ∧ upperCmp ≤ 0 then .ok s
  else new kind (if lowerCmp ≤ 0 then r.lower else s.lower) (if upperCmp ≥ 0 then r.upper else s.upper)

/-- `range.py:533-560`. -/
def intersection (r s : Vista.Range T) : Res (Vista.Range T) := do
  let lowerCmp ← Cut.compareTo kind r.lower s.lower
  let upperCmp ← Cut.compareTo kind r.upper s.upper
  if lowerCmp ≥ 0 ∧ 0 ≥ upperCmp then .ok r
  else if lowerCmp ≤ 0 ∧ 0 ≤ upperCmp then .ok s
  else new kind (if lowerCmp ≥ 0 then r.lower else s.lower) (if upperCmp ≤ 0 then r.upper else s.upper)

/-- `range.py:562-584`. -/
def intersects (r s : Vista.Range T) : Res Bool := do
  let lowerCmp ← Cut.compareTo kind r.lower s.lower
  let upperCmp ← Cut.compareTo kind r.upper s.upper
  if lowerCmp ≥ 0 ∧ 0 ≥ upperCmp then .ok true
  else if lowerCmp ≤ 0 ∧ 0 ≤ upperCmp then .ok true
  else Cut.le kind (if lowerCmp ≥ 0 then r.lower else s.lower) (if upperCmp ≤ 0 then r.upper else s.upper)

end Range

/-! ## The sorted dictionary -/

/-- `bisect_left(k)`: how many keys come before the first one for which `key < k` is false.  (The code halves instead; in a dictionary whose
keys are all comparable either way compares `k` with a key it cannot be compared with as soon as there is one.) -/
def bisectLeft : RDict T → Vista.Cut T → Res Nat
  | [], _ => .ok 0
  | e :: d, k => do
    if ← Cut.lt kind e.1 k then
      let n ← bisectLeft d k
      .ok (n + 1)
    else .ok 0

/-- `del d[k]`, including the search for the position of the key. -/
def del (d : RDict T) (k : Vista.Cut T) : Res (RDict T) := do
  let _ ← bisectLeft kind d k
  SortedDict.del d k

/-- `SortedList.add`, called for a new key: before the first key for which `k < key`. -/
def insert : RDict T → Vista.Cut T → Vista.Range T → Res (RDict T)
  | [], k, r => .ok [(k, r)]
  | e :: d, k, r => do
    if ← Cut.lt kind k e.1 then .ok ((k, r) :: e :: d)
    else
      let d' ← insert d k r
      .ok (e :: d')

/-- `d[k] = r`. -/
def set (d : RDict T) (k : Vista.Cut T) (r : Vista.Range T) : Res (RDict T) :=
  if d.any fun e => decide (e.1 = k) then .ok (d.map fun e => if e.1 = k then (e.1, r) else e) else insert kind d k r

/-- `list(irange(lo, hi, inclusive=(True, False)))`: nothing more is compared once `lo` comes after every key. -/
def irange (d : RDict T) (lo hi : Vista.Cut T) : Res (List (Vista.Cut T)) := do
  let i ← bisectLeft kind d lo
  if i = d.length then .ok []
  else
    let j ← bisectLeft kind d hi
    .ok (((d.take j).drop i).map (·.1))

/-- `range.py:1405-1418` `_value_below`. -/
def valueBelow (d : RDict T) (key : Vista.Cut T) : Res (Option (Vista.Range T)) := do
  let idx1 ← bisectLeft kind d key      -- Python: idx = idx1 - 1
  if idx1 ≥ 1 then do
    let idx := if idx1 - 1 ≥ d.length then d.length - 1 else idx1 - 1
    let lbKey ← SortedDict.keyAt d idx
    let v ← SortedDict.get d lbKey
    .ok (some v)
  else .ok none

/-- `range.py:1421-1437` `_value_at_or_below`. -/
def valueAtOrBelow (d : RDict T) (key : Vista.Cut T) : Res (Option (Vista.Range T)) :=
  if d.isEmpty then .ok none
  else do
    let idx ← bisectLeft kind d key
    if idx ≥ d.length then
      if idx > 0 then do
        let k ← SortedDict.keyAt d (idx - 1)
        let v ← SortedDict.get d k
        .ok (some v)
      else .ok none
    else do
      let kIdx ← SortedDict.keyAt d idx
      if key ≠ kIdx then
        if idx > 0 then do
          let k ← SortedDict.keyAt d (idx - 1)
          let v ← SortedDict.get d k
          .ok (some v)
        else .ok none
      else do
        let v ← SortedDict.get d key
        .ok (some v)

/-- The deletion loop of `_clear`: the dictionary afterwards, also if it raises. -/
def delAll (d : RDict T) : List (Vista.Cut T) → RDict T × Res Unit
  | [] => (d, .ok ())
  | k :: ks =>
    match del kind d k with
    | .ok d' => delAll d' ks
    | .error e => (d, .error e)

/-- `range.py:1450-1459` `_clear`. -/
def clearRange (d : RDict T) (start stop : Vista.Cut T) : RDict T × Res Unit :=
  match irange kind d start stop with
  | .ok ks => delAll kind d ks
  | .error e => (d, .error e)

namespace RangeSet

/-- `range.py:1121-1122`. -/
def extendUpper (belowUb : Option (Vista.Range T)) (ub : Vista.Cut T) : Res (Vista.Cut T) :=
  match belowUb with
  | some r => do
    if ← Cut.lt kind ub r.upper then .ok r.upper else .ok ub
  | none => .ok ub

/-- `range.py:1150-1154` `_replace_range_with_same_lower_bound`. -/
def replaceRange (d : RDict T) (rng : Vista.Range T) : Res (RDict T) :=
  if rng.isEmpty then del kind d rng.lower else set kind d rng.lower rng

/-- `range.py:1128-1131`: once the dictionary has been cleared. -/
def finish (d : RDict T) (lb ub : Vista.Cut T) : RDict T × Res Unit :=
  match (do let rng ← Range.new kind lb ub
            replaceRange kind d rng) with
  | .ok d' => (d', .ok ())
  | .error e => (d, .error e)

/-- `range.py:1117-1131`: the second half of `add`. -/
def addUpper (d : RDict T) (lb ub : Vista.Cut T) : RDict T × Res Unit :=
  match (do let belowUb ← valueAtOrBelow kind d ub
            extendUpper kind belowUb ub) with
  | .error e => (d, .error e)
  | .ok ub' =>
    match clearRange kind d lb ub' with
    | (d', .ok _) => finish kind d' lb ub'
    | (d', .error e) => (d', .error e)

/-- `range.py:1100-1115`: `none` if there is nothing to do, else the lower bound to add. -/
def addLower (d : RDict T) (r : Vista.Range T) : Res (Option (Vista.Cut T)) := do
  let belowLb ← valueBelow kind d r.lower
  match belowLb with
  | some b =>
    if ← Cut.le kind r.lower b.upper then
      if ← Cut.lt kind r.upper b.upper then .ok none else .ok (some b.lower)
    else .ok (some r.lower)
  | none => .ok (some r.lower)

/-- `range.py:1094-1131` `add`: the set afterwards, also if it raises, and the outcome. -/
def add (d : RDict T) (r : Vista.Range T) : RDict T × Res Unit :=
  if r.isEmpty then (d, .ok ())
  else
    match addLower kind d r with
    | .error e => (d, .error e)
    | .ok none => (d, .ok ())
    | .ok (some lb) => addUpper kind d lb r.upper

/-- `range.py:1133-1140` `add_all`: stops at the first range for which `add` raises. -/
def addAll (d : RDict T) : List (Vista.Range T) → RDict T × Res Unit
  | [] => (d, .ok ())
  | r :: rs =>
    match add kind d r with
    | (d', .ok _) => addAll d' rs
    | (d', .error e) => (d', .error e)

/-- `range.py:1142-1143` `clear`. -/
def clear (d : RDict T) : RDict T × Res Unit := clearRange kind d .belowAll .aboveAll

/-- `range.py:957-964` `value in rs`. -/
def contains (d : RDict T) (value : T) : Res Bool := do
  match ← valueAtOrBelow kind d (.belowValue value) with
  | some r => Range.contains kind r value
  | none => .ok false

/-- `range.py:916-923`. -/
def rangeContaining (d : RDict T) (value : T) : Res (Option (Vista.Range T)) := do
  match ← valueAtOrBelow kind d (.belowValue value) with
  | some r => if ← Range.contains kind r value then .ok (some r) else .ok none
  | none => .ok none

/-- `range.py:966-973`. -/
def encloses (d : RDict T) (rng : Vista.Range T) : Res Bool := do
  match ← valueAtOrBelow kind d rng.lower with
  | some r => Range.encloses kind r rng
  | none => .ok false

/-- `range.py:1029-1030`. -/
def rightmostContainingOrBelow (d : RDict T) (limit : T) : Res (Option (Vista.Range T)) :=
  valueAtOrBelow kind d (.belowValue limit)

end RangeSet

/-- `range.py:1319-1329, 1378-1384`, the constructor of `ImmutableRangeMap`. -/
def RangeMap.new {V : Type} (m : List (Vista.Range T × V)) : Res (Vista.RangeMap T V) :=
  match RangeSet.addAll kind [] (m.map (·.1)) with
  | (_, .error e) => .error e
  | (rs, .ok _) => if m.length ≠ rs.length then .error .valueError else .ok ⟨m, rs⟩

/-- `range.py:1356-1358` `__getitem__`. -/
def RangeMap.getItem {V : Type} (m : Vista.RangeMap T V) (k : T) : Res (Option V) := do
  m.lookupOpt (← RangeSet.rangeContaining kind m.rangeSet k)

end Mixed
end Vista
