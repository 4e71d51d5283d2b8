import Verif.Spec.RangeSet
import Verif.Model.MixedRange

/-!
# Values of several kinds in ranges and range sets

Two values can be compared exactly if they are of the same kind.
-/
namespace Vista
namespace Mixed
variable {T κ : Type} [LinearOrder T] [DecidableEq κ] (kind : T → κ)

/-- `v` is the lower or the upper endpoint of the range. -/
def HasEndpoint (r : Vista.Range T) (v : T) : Prop := r.lowerEndpoint = .ok v ∨ r.upperEndpoint = .ok v

/-- Every endpoint of the one range is of the kind of every endpoint of the other. -/
def Comparable (r s : Vista.Range T) : Prop := ∀ v w, HasEndpoint r v → HasEndpoint s w → kind v = kind w

/-- Every endpoint of the range is of the kind of the value. -/
def ComparableTo (r : Vista.Range T) (w : T) : Prop := ∀ v, HasEndpoint r v → kind v = kind w

/-- A range some constructor call returned. -/
def Made (r : Vista.Range T) : Prop := ∃ lo hi, Range.new kind lo hi = .ok r

/-- Ranges all of which can be compared with each other. -/
def Uniform (rs : List (Vista.Range T)) : Prop := ∀ r ∈ rs, ∀ s ∈ rs, Comparable kind r s

/-- A range that a set with these ranges takes: it is empty, or can be compared with all of them. -/
def Acceptable (rs : List (Vista.Range T)) (r : Vista.Range T) : Prop := r.isEmpty = true ∨ ∀ m ∈ rs, Comparable kind m r

/-- A method is called on a set: the set afterwards, and the outcome. -/
def attempt (d : RDict T) : RsOp T → RDict T × Res Unit
  | .add r => RangeSet.add kind d r
  | .addAll rs => RangeSet.addAll kind d rs
  | .clear => RangeSet.clear kind d

/-- Methods are called one after the other; exceptions are caught. -/
def attempts (d : RDict T) : List (RsOp T) → RDict T × List (Res Unit)
  | [] => (d, [])
  | op :: ops => ((attempts (attempt kind d op).1 ops).1, (attempt kind d op).2 :: (attempts (attempt kind d op).1 ops).2)

/-- What is left of the calls, given their outcomes, if those that raised are left out; of an `add_all` that raised, the ranges before
some range. -/
inductive Kept : List (RsOp T) → List (Res Unit) → List (RsOp T) → Prop
  | nil : Kept [] [] []
  | added {ops outs calls} (r : Vista.Range T) (h : Kept ops outs calls) : Kept (.add r :: ops) (.ok () :: outs) (.add r :: calls)
  | refused {ops outs calls} (r : Vista.Range T) (h : Kept ops outs calls) : Kept (.add r :: ops) (.error .typeError :: outs) calls
  | addedAll {ops outs calls} (rs : List (Vista.Range T)) (h : Kept ops outs calls) :
      Kept (.addAll rs :: ops) (.ok () :: outs) (.addAll rs :: calls)
  | addedSome {ops outs calls} (pre : List (Vista.Range T)) (r : Vista.Range T) (rest : List (Vista.Range T)) (h : Kept ops outs calls) :
      Kept (.addAll (pre ++ r :: rest) :: ops) (.error .typeError :: outs) (.addAll pre :: calls)
  | cleared {ops outs calls} (h : Kept ops outs calls) : Kept (.clear :: ops) (.ok () :: outs) (.clear :: calls)

end Mixed
end Vista
