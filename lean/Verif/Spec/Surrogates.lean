import Verif.Model.Surrogates
import Verif.Spec.DirKeys

/-!
# Text that UTF-8 cannot encode
-/
namespace Vista
namespace Surrogates

/-- The text has no surrogates; it is this string. -/
def IsStr (t : UText) (s : Str) : Prop := t = s.map UChar.char

/-- The text has a surrogate. -/
def Lone (t : UText) : Prop := ∃ n, UChar.surrogate n ∈ t

/-- What a `put` of the text should raise. -/
inductive Outcome : UText → Res Unit → Prop
  | fine (s : Str) : Outcome (s.map UChar.char) (.ok ())
  | raises (t : UText) : Lone t → Outcome t (.error .valueError)

/-- What a `put` of the text leaves in the file of its key: the text, or nothing at all. -/
inductive Leaves : UText → Str → Prop
  | fine (s : Str) : Leaves (s.map UChar.char) s
  | raises (t : UText) : Lone t → Leaves t []

/-- What a directory should serve after these calls of `put`: the keys of those that did not raise; for each, what the last call for any
key with the same file left there, whether or not it raised. -/
structure Kept (calls : List (Str × UText)) (M : Str → Option Str) : Prop where
  none : ∀ k, (∀ t, (k, t) ∈ calls → Lone t) → M k = none
  some : ∀ (k : Str) (s : Str) (before : List (Str × UText)) (k' : Str) (t : UText) (after : List (Str × UText)), (k, s.map UChar.char) ∈ calls → calls = before ++ (k', t) :: after → DirKeys.names k' = DirKeys.names k →
    (∀ e ∈ after, DirKeys.names e.1 ≠ DirKeys.names k) → ∃ v, Leaves t v ∧ M k = .some v

end Surrogates
end Vista
