import Verif.Model.WriteFaults
import Verif.Spec.DirKeys

/-!
# Directory sinks when the operating system fails
-/
namespace Vista
namespace WriteFaults
open DirKeys (names)

/-- The call puts these bytes in the file of its key: all of the value, or, if the writing fails, the first of them. -/
inductive Leaves : Call → Bytes → Prop
  | all (k : Str) (b : Bytes) : Leaves ⟨k, b, .none⟩ b
  | part (k : Str) (b : Bytes) (n : Nat) : Leaves ⟨k, b, .write n⟩ (b.extract 0 n)

/-- What should come of a call. -/
inductive Outcome : Call → Res Unit → Prop
  | fine (c : Call) : c.fault = .none → Outcome c (.ok ())
  | fails (c : Call) : c.fault ≠ .none → Outcome c (.error .ioError)

/-- The files that should be served after these calls: those of the keys of calls that did not fail, each with what the last call that
put something in it left there. -/
structure Kept (calls : List Call) (M : Str → Option Bytes) : Prop where
  none : ∀ k, (∀ c ∈ calls, c.key = k → c.fault ≠ .none) → M k = none
  some : ∀ (k : Str) (good : Call) (before : List Call) (last : Call) (after : List Call) (x : Bytes), good ∈ calls → good.key = k →
    good.fault = .none → calls = before ++ last :: after → names last.key = names k → Leaves last x →
    (∀ c ∈ after, names c.key = names k → ∀ y, ¬ Leaves c y) → M k = .some x

/-- A source that serves these files, each read with `read`, which may raise. -/
structure ServesFiles {V : Type} (s : KVSource V) (read : Bytes → Res V) (M : Str → Option Bytes) : Prop where
  keys : ∃ ks, s.keys = .ok (some ks) ∧ ks.Nodup ∧ ∀ k, k ∈ ks ↔ (M k).isSome = true
  present : ∀ k b, M k = some b → s.getItem k = read b ∧ (∀ (D : Type) (d : D) v, read b = .ok v → s.get D k d = .ok (.inl v)) ∧
    ∀ (D : Type) (d : D) e, read b = .error e → s.get D k d = .error e
  absent : ∀ k, M k = none → s.getItem k = .error .keyError ∧ ∀ (D : Type) (d : D), s.get D k d = .ok (.inr d)

end WriteFaults
end Vista
