import Mathlib.Data.Int.Order.Basic
import Verif.Model.RangeSet
import Verif.Model.PyDict

/-!
# `vistautils/span.py`

Offsets are integers (the attrs validators, lines 29-30, reject everything but `int`; Python integers are unbounded, as `Int`
is).  `len(span)` is `end - start` without CPython's limit of `sys.maxsize` on the result of `len`.
-/
namespace Vista

/-- `span.py:18-30`: the two attributes.  Which pairs can exist is decided by `Span.new`. -/
structure Span where
  start : Int
  stop : Int
  deriving DecidableEq, Repr

namespace Span

/-- The constructor with `_validate_start`, `span.py:34-40` (also `from_inclusive_to_exclusive`, `42-49`). -/
def new (start stop : Int) : Res Span := do
  checkArg (decide (start < stop))
  .ok ⟨start, stop⟩

/-- A span some constructor call returned. -/
def Valid (s : Span) : Prop := ∃ a b, Span.new a b = .ok s

/-- `span.py:51-52`. -/
def containsOffset (s : Span) (i : Int) : Bool := decide (s.start ≤ i) && decide (i < s.stop)
/-- `span.py:54-55` (and `__contains__`, `98-99`). -/
def containsSpan (s o : Span) : Bool := decide (s.start ≤ o.start) && decide (o.stop ≤ s.stop)
/-- `span.py:57-63`. -/
def precedes (s o : Span) : Bool := decide (s.stop ≤ o.start)
/-- `span.py:65-71`. -/
def follows (s o : Span) : Bool := decide (s.start ≥ o.stop)
/-- `span.py:73-81`. -/
def overlaps (s o : Span) : Bool := !(s.precedes o || o.precedes s)
/-- `span.py:95-96`. -/
def asRange (s : Span) : Res (Range Int) := Range.closed s.start (s.stop - 1)
/-- `span.py:83-93`. -/
def intersection (s o : Span) : Res (Option Span) :=
  if s.overlaps o then do
    let a ← s.asRange
    let b ← o.asRange
    let r ← a.intersection b
    let lo ← r.lowerEndpoint
    let hi ← r.upperEndpoint
    let res ← Span.new lo (hi + 1)
    .ok (some res)
  else .ok none
/-- `span.py:101-102` `__len__`. -/
def len (s : Span) : Int := s.stop - s.start
/-- `span.py:104-115`. -/
def clipTo (s enclosing : Span) : Res (Option Span) :=
  if !enclosing.overlaps s then .ok none
  else if enclosing.containsSpan s then .ok (some s)
  else do
    let r ← Span.new (max s.start enclosing.start) (min s.stop enclosing.stop)
    .ok (some r)
/-- `span.py:117-123`. -/
def shift (s : Span) (d : Int) : Res Span := Span.new (s.start + d) (s.stop + d)

/-- Python's `min` of an iterable of ints: `ValueError` when it is empty. -/
def minInt : List Int → Res Int
  | [] => .error .valueError
  | x :: xs => .ok (xs.foldl (fun m y => if y < m then y else m) x)
/-- Python's `max` of an iterable of ints: `ValueError` when it is empty. -/
def maxInt : List Int → Res Int
  | [] => .error .valueError
  | x :: xs => .ok (xs.foldl (fun m y => if m < y then y else m) x)

/-- What an argument of declared type `Iterable` may be: a collection every `for` loop starts afresh, or a one-shot iterator
whose elements the first complete loop uses up. -/
inductive PyIterable (α : Type)
  | collection (xs : List α)
  | iterator (remaining : List α)

/-- The elements a complete `for` loop sees, and the object afterwards. -/
def PyIterable.consume {α : Type} : PyIterable α → List α × PyIterable α
  | .collection xs => (xs, .collection xs)
  | .iterator xs => (xs, .iterator [])

/-- `span.py:125-132`: two generator expressions over the same argument, `min` first. -/
def minimalEnclosingSpan (spans : PyIterable Span) : Res Span := do
  let (xs, rest) := spans.consume
  let lo ← minInt (xs.map (·.start))
  let (ys, _) := rest.consume
  let hi ← maxInt (ys.map (·.stop))
  Span.new lo hi

/-- `span.py:134-137`. -/
def earliestThenLongestFirstKey (x : Span) : Int × Int := (x.start, -(x.stop - x.start))

end Span

/-! ## Things with a span -/

namespace HasSpan
variable {I : Type} (span : I → Span)

/-- `HasSpan.start`, `span.py:147-149`; `span` is the attribute of the class. -/
def start (x : I) : Int := (span x).start
/-- `HasSpan.end`, `span.py:151-153`. -/
def stop (x : I) : Int := (span x).stop
/-- `HasSpan.contains_offset`, `span.py:155-156`. -/
def containsOffset (x : I) (i : Int) : Bool := (span x).containsOffset i
/-- `HasSpan.contains_span`, `span.py:158-159`. -/
def containsSpan (x : I) (other : Span) : Bool := (span x).containsSpan other

end HasSpan

section Index
variable {I : Type}

/-- `immutablesetmultidict(pairs)`: key → the set of its values; keys and values in order of first insertion. -/
def multiPut [DecidableEq I] (k : Span) (v : I) : List (Span × List I) → List (Span × List I)
  | [] => [(k, [v])]
  | (k', vs) :: d => if k' = k then (k', if v ∈ vs then vs else vs ++ [v]) :: d else (k', vs) :: multiPut k v d

/-- `span.py:251-259`: the state of `_OverLappingHasSpanIndex`; `span.py:170-178`: `HasSpanIndex.index`. -/
def spanIndex [DecidableEq I] (span : I → Span) (items : List I) : List (Span × List I) :=
  items.foldl (fun d it => multiPut (span it) it d) []

namespace OverlappingIndex

/-- Multi-dict lookup: the empty set for an absent key. -/
def get (d : List (Span × List I)) (k : Span) : List I := (d.lookup k).getD []

/-- `span.py:261-262`. -/
def getExactlyMatching (d : List (Span × List I)) (s : Span) : List I := get d s

/-- The common shape of `span.py:264-286`: for each key span, for each of its items, keep it when the test passes.
(`immutableset` then drops repeated items; the model lists the items added.) -/
def select (d : List (Span × List I)) (p : Span → Bool) : List I :=
  (d.map (·.1)).flatMap fun c => (get d c).filter fun _ => p c

/-- `span.py:264-270`. -/
def getOverlapping (d : List (Span × List I)) (s : Span) : List I := select d fun c => c.overlaps s
/-- `span.py:272-278`. -/
def getContained (d : List (Span × List I)) (s : Span) : List I := select d fun c => s.containsSpan c
/-- `span.py:280-286`. -/
def getContaining (d : List (Span × List I)) (s : Span) : List I := select d fun c => c.containsSpan s

end OverlappingIndex

namespace DisjointIndex

/-- `span.as_range()` for every item, in order (`span.py:216`). -/
def rangePairs (span : I → Span) : List I → Res (List (Range Int × I))
  | [] => .ok []
  | it :: items => do
    let r ← (span it).asRange
    let rest ← rangePairs span items
    .ok ((r, it) :: rest)

/-- `span.py:180-188`, `211-216`: `HasSpanIndex.index_disjoint`. -/
def build (span : I → Span) (items : List I) : Res (RangeMap Int I) := do
  let pairs ← rangePairs span items
  RangeMap.new (dictOf pairs)

/-- `span.py:227-228`. -/
def getExactlyMatching (m : RangeMap Int I) (s : Span) : Res (Option I) := do
  let r ← s.asRange
  .ok (m.rngToVal.lookup r)

/-- `span.py:230-236` (the items added to the resulting set, in order). -/
def getOverlapping (m : RangeMap Int I) (s : Span) : Res (List I) := do
  let r ← s.asRange
  let rs ← RangeSet.rangesOverlapping m.rangeSet r
  m.lookupAll rs

/-- `span.py:238-239`. -/
def getContained (m : RangeMap Int I) (s : Span) : Res (List I) := do
  let r ← s.asRange
  m.getEnclosedBy r

/-- `a == b` where either may be `None`; `eqv` is the items' own `__eq__`. -/
def optEq (eqv : I → I → Bool) : Option I → Option I → Bool
  | none, none => true
  | some a, some b => eqv a b
  | _, _ => false

/-- `span.py:241-248`: compares the *items* found at the two end points. -/
def getContaining (eqv : I → I → Bool) (m : RangeMap Int I) (s : Span) : Res (Option I) := do
  let r ← s.asRange
  let lo ← r.lowerEndpoint
  let hi ← r.upperEndpoint
  let a ← m.getItem lo
  let b ← m.getItem hi
  if optEq eqv a b then .ok a else .ok none

end DisjointIndex
end Index
end Vista
