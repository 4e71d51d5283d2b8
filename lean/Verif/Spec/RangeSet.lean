import Verif.Model.RangeSet

/-!
# Specification vocabulary for range sets

Written in terms of `Range` only (constructor, `encloses`, `is_connected`, `is_empty`), not of the dictionary.
-/
namespace Vista
variable {T : Type} [LinearOrder T]

/-- What a client can do to a mutable range set (`remove` raises, see `C08_remove_raises`). -/
inductive RsOp (T : Type)
  | add (r : Range T)
  | addAll (rs : List (Range T))
  | clear

/-- The ranges an operation mentions. -/
def RsOp.ranges : RsOp T → List (Range T)
  | .add r => [r]
  | .addAll rs => rs
  | .clear => []

/-- Every range passed to an operation was made by the `Range` constructor. -/
def ValidOps (ops : List (RsOp T)) : Prop := ∀ op ∈ ops, ∀ r ∈ op.ranges, r.Valid

/-- Execute one operation on the modelled range set. -/
def stepRs (d : RDict T) : RsOp T → Res (RDict T)
  | .add r => RangeSet.add d r
  | .addAll rs => RangeSet.addAll d rs
  | .clear => RangeSet.clear d

/-- Execute a history. -/
def runRs (d : RDict T) : List (RsOp T) → Res (RDict T)
  | [] => .ok d
  | op :: ops => do
    let d' ← stepRs d op
    runRs d' ops

/-- Specification: effect of one operation on the list of ranges added since the last `clear`. -/
def liveStep (acc : List (Range T)) : RsOp T → List (Range T)
  | .add r => acc ++ [r]
  | .addAll rs => acc ++ rs
  | .clear => []

/-- Specification: the ranges added since the last `clear`, in order. -/
def liveRanges (ops : List (RsOp T)) : List (Range T) := ops.foldl liveStep []

/-- A range set some client history produced. -/
def Reachable (d : RDict T) : Prop := ∃ ops, ValidOps ops ∧ runRs RangeSet.create ops = .ok d

/-- A family of ranges no two distinct members of which are connected. -/
def Disconnected (F : Range T → Prop) : Prop := ∀ a b, F a → F b → a.isConnected b = true → a = b

/-- Some member of the family encloses `r`. -/
def FamilyEncloses (F : Range T → Prop) (r : Range T) : Prop := ∃ f, F f ∧ f.encloses r = true

/-- `rs` is the least pairwise disconnected family of non-empty ranges that encloses every non-empty range of `A`. -/
structure IsLeastCover (rs : List (Range T)) (A : List (Range T)) : Prop where
  disconnected : Disconnected (· ∈ rs)
  nonempty : ∀ m ∈ rs, m.Valid ∧ m.isEmpty = false
  covers : ∀ a ∈ A, a.isEmpty = false → FamilyEncloses (· ∈ rs) a
  least : ∀ F : Range T → Prop, Disconnected F → (∀ a ∈ A, a.isEmpty = false → FamilyEncloses F a) →
    ∀ m ∈ rs, FamilyEncloses F m

/-- `m` has some part at or below `limit`: the range `(limit, +inf)` does not enclose it. -/
def NotAbove (m : Range T) (limit : T) : Prop := ∀ g, Range.greaterThan limit = .ok g → g.encloses m = false

/-- `m` has some part at or above `limit`: the range `(-inf, limit)` does not enclose it. -/
def NotBelow (m : Range T) (limit : T) : Prop := ∀ g, Range.lessThan limit = .ok g → g.encloses m = false

end Vista
