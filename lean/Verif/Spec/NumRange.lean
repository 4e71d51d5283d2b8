import Verif.Model.NumRange
import Verif.Spec.RangeSet
import Mathlib.Data.List.Forall2

/-!
# What ranges of Python numbers should do
-/
namespace Vista
namespace Numeric
variable {V T : Type} [LinearOrder T] (num : V → Option T)

/-- One number is less than another (neither is NaN). -/
def Less (x y : V) : Prop := ∃ a b, num x = some a ∧ num y = some b ∧ a < b

/-- One number is less than, or equal to, another (neither is NaN). -/
def AtMost (x y : V) : Prop := ∃ a b, num x = some a ∧ num y = some b ∧ a ≤ b

/-- A bound stands for the bound at the number its endpoint stands for. -/
def CutMeans : Cut V → Cut T → Prop
  | .belowAll, .belowAll => True
  | .aboveAll, .aboveAll => True
  | .belowValue v, .belowValue t => num v = some t
  | .aboveValue v, .aboveValue t => num v = some t
  | _, _ => False

/-- A range (none of whose endpoints is NaN) stands for the range with the numbers its endpoints stand for. -/
structure Means (r : Range V) (R : Range T) : Prop where
  lower : CutMeans num r.lower R.lower
  upper : CutMeans num r.upper R.upper

/-- Two outcomes: the same exception, or related results. -/
def Same {α β : Type} (rel : α → β → Prop) : Res α → Res β → Prop
  | .ok a, .ok b => rel a b
  | .error e, .error e' => e = e'
  | _, _ => False

/-- Optional results. -/
def SameOption {α β : Type} (rel : α → β → Prop) : Option α → Option β → Prop
  | some a, some b => rel a b
  | none, none => True
  | _, _ => False

/-- Calls with ranges that stand for those of other calls. -/
def OpMeans : RsOp V → RsOp T → Prop
  | .add r, .add R => Means num r R
  | .addAll rs, .addAll Rs => List.Forall₂ (Means num) rs Rs
  | .clear, .clear => True
  | _, _ => False

/-- Execute one operation on the modelled range set. -/
def step (d : Dict V) : RsOp V → Res (Dict V)
  | .add r => RangeSet.add num d r
  | .addAll rs => RangeSet.addAll num d rs
  | .clear => RangeSet.clear num d

/-- Execute a history. -/
def run (d : Dict V) : List (RsOp V) → Res (Dict V)
  | [] => .ok d
  | op :: ops => do
    let d' ← step num d op
    run d' ops

/-- The ranges added since the last `clear`. -/
def live (ops : List (RsOp V)) : List (Range V) :=
  ops.foldl (fun acc op => match op with
    | .add r => acc ++ [r]
    | .addAll rs => acc ++ rs
    | .clear => []) []

/-- A history as considered here: the ranges were made by the constructor, and none of their endpoints is NaN. -/
def WithoutNaN (ops : List (RsOp V)) : Prop :=
  ∀ op ∈ ops, ∀ r, (op = .add r ∨ ∃ rs, op = .addAll rs ∧ r ∈ rs) →
    Range.new num r.lower r.upper = .ok r ∧ ∀ x, (r.lower = .belowValue x ∨ r.lower = .aboveValue x ∨ r.upper = .belowValue x ∨ r.upper = .aboveValue x) →
      num x ≠ none

/-- A range of numbers, made by the constructor, none of whose endpoints is NaN. -/
def NumberRange (r : Range V) : Prop :=
  Range.new num r.lower r.upper = .ok r ∧
    ∀ x, (r.lower = .belowValue x ∨ r.lower = .aboveValue x ∨ r.upper = .belowValue x ∨ r.upper = .aboveValue x) → num x ≠ none

/-- A dictionary whose keys are such ranges: no two keys are equal. -/
structure NumberMapping {W : Type} (m : List (Range V × W)) : Prop where
  keys : ∀ e ∈ m, NumberRange num e.1
  distinct : m.Pairwise fun e f => Range.pyEq num e.1 f.1 = false

/-- Entries of two dictionaries: the key stands for the key, and the value is the same. -/
structure KeyMeans {W : Type} (e : Range V × W) (E : Range T × W) : Prop where
  key : Means num e.1 E.1
  value : e.2 = E.2

end Numeric
end Vista
