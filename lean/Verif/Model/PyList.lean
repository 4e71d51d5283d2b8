/-!
# Python list and string primitives used by several modules
-/
namespace Vista

/-- Normalisation of a slice bound: negative counts from the end, then clamp to `[0, n]`. -/
def sliceBound (n : Nat) (i : Int) : Nat :=
  if i < 0 then (i + n).toNat else min i.toNat n

/-- Python `xs[a:b]` (step 1). -/
def pySlice {α : Type} (xs : List α) (a b : Int) : List α :=
  (xs.take (sliceBound xs.length b)).drop (sliceBound xs.length a)

/-- Insertion of `x` before the first element it is `le` to. -/
def insertBy {α : Type} (le : α → α → Bool) (x : α) : List α → List α
  | [] => [x]
  | y :: ys => if le x y then x :: y :: ys else y :: insertBy le x ys

/-- Python's `sorted`: the stable sort (elements with equal keys keep their order).  A stable sort is determined by its
input and `le`, so insertion sort stands for Timsort. -/
def stableSort {α : Type} (le : α → α → Bool) : List α → List α
  | [] => []
  | x :: xs => insertBy le x (stableSort le xs)

/-- `<=` on Python pairs of integers. -/
def pairLe (a b : Int × Int) : Bool := decide (a.1 < b.1) || (decide (a.1 = b.1) && decide (a.2 ≤ b.2))

end Vista
