import Verif.Model.Crash
import Verif.Spec.SplitStores

/-!
# What killed scripts leave
-/
namespace Vista

/-- From `fs` to `s` only directories have been made, at places `dirs`, and files been written, at places `files`, with such contents. -/
structure Touches (files dirs : Loc → Prop) (content : Loc → Content → Prop) (fs s : FS) : Prop where
  tree : s.Tree
  places : ∀ q, s.node q = fs.node q ∨ (dirs q ∧ fs.node q = none ∧ s.node q = some .dir) ∨
    (files q ∧ fs.node q ≠ some .dir ∧ ∃ c, s.node q = some (.file c) ∧ content q c)

/-- The program has been started any number of times, one after the other, and was killed each time. -/
inductive KilledRuns {α : Type} (x : Killable α) (fs : FS) : FS → Prop
  | none : KilledRuns x fs fs
  | again {s s' : FS} : KilledRuns x fs s → x.killed s s' → KilledRuns x fs s'

end Vista
