import Verif.Model.TarLifetime
import Verif.Spec.KeyValue

/-!
# What the histories of a tar source should look like
-/
namespace Vista
namespace TarLife

/-- The pairs generator `g` has given, in order. -/
def itemsOf {V : Type} (g : Nat) : List (Op × Event V) → List (Str × V)
  | [] => []
  | (.next g', .item k v) :: t => if g' = g then (k, v) :: itemsOf g t else itemsOf g t
  | _ :: t => itemsOf g t

/-- The generator has said that it is at its end. -/
def Stopped {V : Type} (g : Nat) (t : List (Op × Event V)) : Prop := (Op.next g, Event.stop) ∈ t

/-- Advancing the generator has raised an exception. -/
def Raised {V : Type} (g : Nat) (t : List (Op × Event V)) : Prop := ∃ e, (Op.next g, Event.raised e) ∈ t

/-- The source has been entered, and has not been left since. -/
def IsOpen {V : Type} (t : List (Op × Event V)) : Prop :=
  ∃ a b, t = a ++ (Op.enter, Event.returned) :: b ∧ (Op.exit, Event.returned) ∉ b

open Classical in
/-- The members the source offers for a key filter, in the order of the archive. -/
noncomputable def offered {V : Type} (s : Source V) (ms : List TarMember) (keep : Str → Bool) : List TarMember :=
  ms.filter fun m => decide (∃ key, Offered s.keyFunction s.nameFilter keep m key)

/-- The pair is the member's: a key it is offered under, and the interpretation of its content. -/
def PairOf {V : Type} (s : Source V) (keep : Str → Bool) (m : TarMember) (q : Str × V) : Prop :=
  Offered s.keyFunction s.nameFilter keep m q.1 ∧ ∃ b, m.extract = .ok (some b) ∧ s.f q.1 b = .ok q.2

/-- The member cannot be had: extracting it fails, or interpreting its content does. -/
def FailsWith {V : Type} (s : Source V) (keep : Str → Bool) (m : TarMember) (e : Exc) : Prop :=
  m.extract = .error e ∨ (m.extract = .ok none ∧ e = .ioError) ∨
    ∃ key b, Offered s.keyFunction s.nameFilter keep m key ∧ m.extract = .ok (some b) ∧ s.f key b = .error e

end TarLife
end Vista
