import Verif.Model.PathLists
import Verif.Spec.Text

/-!
# What the lines of a list of paths are
-/
namespace Vista

/-- These are the lines of the text, without their ends: a line ends at a line-break character, or at a carriage return with the line
feed after it; the last line may lack an end but is then not empty. -/
inductive BrokenAt : Str → List Str → Prop
  | none : BrokenAt [] []
  | unended {l : Str} : (∀ c ∈ l, isLineBreak c = false) → l ≠ [] → BrokenAt l [l]
  | crlf {l s : Str} {ls : List Str} : (∀ c ∈ l, isLineBreak c = false) → BrokenAt s ls → BrokenAt (l ++ '\r' :: '\n' :: s) (l :: ls)
  | line {l s : Str} {c : Char} {ls : List Str} : (∀ c ∈ l, isLineBreak c = false) → isLineBreak c = true →
      ¬ (c = '\r' ∧ s.head? = some '\n') → BrokenAt s ls → BrokenAt (l ++ c :: s) (l :: ls)

/-- The path a string names, relative to a directory if one is given: an absolute path stays as it is. -/
def PathNamed (rel : Option PyPath) (s : Str) (p : PyPath) : Prop :=
  (rel = none ∧ p = PyPath.parse s) ∨
  ∃ r, rel = some r ∧ (((PyPath.parse s).root ≠ [] ∧ p = PyPath.parse s) ∨
    ((PyPath.parse s).root = [] ∧ p = ⟨r.root, r.parts ++ (PyPath.parse s).parts⟩))

end Vista
