import Verif.Model.LazyIter

/-!
# What a program sees of `windowed` and `drop` on an iterator it also uses itself

Everything is said about the sequence of events: who called `next`, the answer, and which calls reached the underlying iterator.
-/
namespace Vista
namespace LazyIter
variable {α β : Type}

/-- The elements the underlying iterator gave in its calls number `a`, `a+1`, …, `b-1`. -/
def given (f : Source α) (a b : Nat) : List α := (List.range' a (b - a)).filterMap fun i =>
  match f i with
  | .value x => some x
  | .stop => none
  | .raise _ => none

/-- The elements taken by the derived iterator. -/
def taken (f : Source α) (tr : List (Event α β)) : List α := tr.flatMap fun
  | .derived _ a b => given f a b
  | .direct _ _ _ => []

/-- The values the derived iterator gave. -/
def results (tr : List (Event α β)) : List β := tr.filterMap fun
  | .derived (.value b) _ _ => some b
  | .derived .stop _ _ => none
  | .derived (.raise _) _ _ => none
  | .direct _ _ _ => none

/-- The derived iterator said that it has ended. -/
def Stopped (tr : List (Event α β)) : Prop := ∃ a b, Event.derived .stop a b ∈ tr

/-- The derived iterator raised. -/
def Raised (tr : List (Event α β)) (e : Exc) : Prop := ∃ a b, Event.derived (.raise e) a b ∈ tr

/-- The derived iterator was asked for `k` values. -/
def asked (tr : List (Event α β)) : Nat := (tr.filter fun | .derived _ _ _ => true | .direct _ _ _ => false).length

/-- Every call of the underlying iterator is made in exactly one event, in order: the calls of an event begin where those of the event
before ended. -/
def Contiguous : Nat → List (Event α β) → Prop
  | _, [] => True
  | p, .derived _ a b :: tr => a = p ∧ p ≤ b ∧ Contiguous b tr
  | p, .direct _ a b :: tr => a = p ∧ b = p + 1 ∧ Contiguous b tr

/-- An iterator that has ended stays ended (as the iterator protocol demands). -/
def Sticky (f : Source α) : Prop := ∀ i j, i ≤ j → f i = .stop → f j = .stop

end LazyIter
end Vista
