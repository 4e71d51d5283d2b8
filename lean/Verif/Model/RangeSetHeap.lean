import Verif.Model.RangeSet

/-!
# Object identity of range sets and builders (`vistautils/range.py:1072-1076`, `1157-1174`)

A heap of `SortedDict` objects.  A builder / mutable range set refers to one; `build()` and `immutable_copy()` make a
new object (`self._ranges_by_lower_bound.copy()`).
-/
namespace Vista
variable {T : Type} [LinearOrder T]

/-- The dictionaries allocated so far, the address each mutable set/builder refers to, and the address each immutable set
handed out refers to. -/
structure RsHeap (T : Type) where
  cells : List (RDict T)
  builders : List Nat
  snapshots : List Nat

/-- Calls a client can make; `b` counts builders in order of creation. -/
inductive RsCall (T : Type)
  | newBuilder
  | add (b : Nat) (r : Range T)
  | clear (b : Nat)
  | build (b : Nat)

namespace RsHeap

/-- Before any call. -/
def empty : RsHeap T := ⟨[], [], []⟩

/-- Content of the `i`-th immutable set handed out. -/
def snapshot? (h : RsHeap T) (i : Nat) : Option (RDict T) := do
  let a ← h.snapshots[i]?
  h.cells[a]?

/-- Content of the `b`-th builder. -/
def builder? (h : RsHeap T) (b : Nat) : Option (RDict T) := do
  let a ← h.builders[b]?
  h.cells[a]?

/-- One call.  A call on a builder that does not exist, or one that raises, changes nothing. -/
def step (h : RsHeap T) : RsCall T → RsHeap T
  | .newBuilder =>      -- range.py:1166-1167
    { h with cells := h.cells ++ [RangeSet.create], builders := h.builders ++ [h.cells.length] }
  | .add b r =>         -- range.py:1169-1171: mutates the builder's dictionary in place
    match h.builders[b]?, h.builder? b with
    | some a, some d => match RangeSet.add d r with
      | .ok d' => { h with cells := h.cells.set a d' }
      | .error _ => h
    | _, _ => h
  | .clear b =>         -- range.py:1142-1143
    match h.builders[b]?, h.builder? b with
    | some a, some d => match RangeSet.clear d with
      | .ok d' => { h with cells := h.cells.set a d' }
      | .error _ => h
    | _, _ => h
  | .build b =>         -- range.py:1072-1073, 1173-1174: a copy
    match h.builder? b with
    | some d => { h with cells := h.cells ++ [d], snapshots := h.snapshots ++ [h.cells.length] }
    | none => h

/-- `as_ranges()` of the `b`-th builder or mutable set, `range.py:1057-1058`: the `values()` of its dictionary, a view. -/
def asRangesOfBuilder (h : RsHeap T) (b : Nat) : Option Nat := h.builders[b]?

/-- `as_ranges()` of the `i`-th immutable set handed out, `range.py:1057-1058`. -/
def asRangesOfSnapshot (h : RsHeap T) (i : Nat) : Option Nat := h.snapshots[i]?

/-- What is in a view when it is looked at. -/
def look (h : RsHeap T) (view : Nat) : Option (List (Range T)) := (h.cells[view]?).map RangeSet.asRanges

/-- A sequence of calls. -/
def run (h : RsHeap T) (cs : List (RsCall T)) : RsHeap T := cs.foldl step h

end RsHeap
end Vista
