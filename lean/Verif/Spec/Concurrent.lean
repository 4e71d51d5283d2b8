import Verif.Model.Concurrent

/-!
# Specification of shared checkpoints (C94)
-/
namespace Vista
namespace Concurrent

/-- The name has certainly been set: it was set at the start, a `set` has returned, or someone has seen it. -/
def Certain (start : Str → Prop) (tr : List Event) (n : Str) : Prop :=
  start n ∨ (∃ j b, .returned j (.set n) b ∈ tr) ∨ ∃ j, .returned j (.has n) true ∈ tr

/-- The name may have been set: it was set at the start, or a `set` has at least begun. -/
def Possible (start : Str → Prop) (tr : List Event) (n : Str) : Prop := start n ∨ ∃ j, .begun j (.set n) ∈ tr

/-- What the processes see is what they would see if each call happened in one moment between its beginning and its return: an answer "yes"
is only given when the name may have been set, and an answer "no" only if the name had not certainly been set when the question began. -/
structure Consistent (start : Str → Prop) (tr : List Event) : Prop where
  yes : ∀ pre i n post, tr = pre ++ .returned i (.has n) true :: post → Possible start pre n
  no : ∀ pre1 pre2 i n post, tr = pre1 ++ .begun i (.has n) :: (pre2 ++ .returned i (.has n) false :: post) →
    (∀ op, .begun i op ∉ pre2) → ¬ Certain start pre1 n

end Concurrent
end Vista
