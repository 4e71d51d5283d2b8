import Mathlib.Logic.Relation
import Verif.Spec.Params
import Verif.Model.Interpolate

/-!
# What interpolation should mean

`word` says which characters are word characters (`\w`); names between percent signs consist of word characters, `.` and `-`.
-/
namespace Vista
namespace Interp
open PVal

section
variable (word : Char → Bool)

/-- A parameter name as it may stand between percent signs. -/
def IsName (n : Str) : Prop := n ≠ [] ∧ ∀ c ∈ n, word c = true ∨ c = '.' ∨ c = '-'

/-- `s` is `%n%` followed by `rest`. -/
def Starts (s n rest : Str) : Prop := IsName word n ∧ s = '%' :: (n ++ '%' :: rest)

/-- `t` is `s` with every placeholder `%n%` replaced by a string `w` with `f n w`, reading from left to right. -/
inductive Expands (f : Str → Str → Prop) : Str → Str → Prop
  | done : Expands f [] []
  | placeholder {s n rest w t : Str} : Starts word s n rest → f n w → Expands f rest t → Expands f s (w ++ t)
  | char {c : Char} {s t : Str} : (¬ ∃ n rest, Starts word (c :: s) n rest) → Expands f s t → Expands f (c :: s) (c :: t)

/-- `%n%` is one of the placeholders of `s`, reading from left to right. -/
inductive Mentions : Str → Str → Prop
  | here {s n rest : Str} : Starts word s n rest → Mentions s n
  | later {s n rest m : Str} : Starts word s n rest → Mentions rest m → Mentions s m
  | char {c : Char} {s m : Str} : (¬ ∃ n rest, Starts word (c :: s) n rest) → Mentions s m → Mentions (c :: s) m

/-- The parameter `n` of the file is a string with the placeholder `%m%`, and the file itself has something at `m` that counts as
true: a namespace that is not empty, or a value other than `None`, `False`, `0`, `""` and `[]`. -/
def DependsOn (file : Params) (n m : Str) : Prop :=
  ∃ s v, file.toVal.Reaches (splitOn '.' n) (.str s) ∧ Mentions word s m ∧ file.toVal.Reaches (splitOn '.' m) v ∧
    ¬ v.Falsy ∧ ∀ pfx, v ≠ .params pfx []

/-- The placeholders form a cycle. -/
def Cyclic (file : Params) : Prop := ∃ n, Relation.TransGen (DependsOn word file) n n

/-- No placeholder of the file looks for a parameter *inside* a parameter of the file that is not a namespace. -/
def NoneThroughLeaf (file : Params) : Prop :=
  ∀ path s m, file.toVal.Reaches path (.str s) → Mentions word s m →
    ∀ a b v, splitOn '.' m = a ++ b → b ≠ [] → file.toVal.Reaches a v → v.isParams = true

end

/-- The name `m` cannot be looked up in the file, and this is raised: it goes on below a parameter of the file that is not a namespace. If it
goes on by one component, there is no attribute `get`; if by more, the next component is looked for in the value, and then used as an index. -/
def Stuck (file : Params) (m : Str) (e : Exc) : Prop :=
  ∃ a k v, file.toVal.Reaches a v ∧ Leaf v ∧
    ((splitOn '.' m = a ++ [k] ∧ e = .attributeError) ∨
     ((∃ k' ks, splitOn '.' m = a ++ k :: k' :: ks) ∧ e = .typeError ∧ (∀ s, v = .str s → k <:+: s) ∧ ∀ xs, v = .list xs → .str k ∈ xs))

/-- The result `R` provides the value `u` for the name `m`: there is a value, and it counts as true.  (A namespace of the file
counts as true iff it is not empty.) -/
def Provides (file R : Params) (m : Str) (u : PVal) : Prop :=
  R.toVal.Reaches (splitOn '.' m) u ∧
    ((u.isParams = false ∧ ¬ u.Falsy) ∨
     ∃ pfx es, u = .params pfx es ∧ (es ≠ [] ∨ ¬ ∃ pfx' es', file.toVal.Reaches (splitOn '.' m) (.params pfx' es')))

/-- The final value of the name `m`: what the result provides, otherwise what the context has. -/
def FinalValue (file ctx R : Params) (m : Str) (u : PVal) : Prop :=
  Provides file R m u ∨ (¬ ∃ u', Provides file R m u') ∧ ctx.toVal.Reaches (splitOn '.' m) u

/-- `w` is what a parameter with the text `s` should be: the final value of `m` if `s` is just `%m%` (any value; compared as
nested dicts, because a namespace stores its own position), otherwise `s` with every placeholder replaced by the final value of
its name, which must be a string. -/
def Replaced (word : Char → Bool) (file ctx R : Params) (s : Str) (w : PVal) : Prop :=
  (∃ m u, Starts word s m [] ∧ FinalValue file ctx R m u ∧ Params.dictify w = Params.dictify u) ∨
  ((¬ ∃ m, Starts word s m []) ∧ ∃ t, w = .str t ∧ Expands word (fun m x => FinalValue file ctx R m (.str x)) s t)

/-- `R` is a correct interpolation of `file` in the context `ctx`. -/
structure Interpolated (word : Char → Bool) (file ctx R : Params) : Prop where
  /-- Namespaces down to the leaves. -/
  tree : R.Tree
  pfx : R.pfx = []
  /-- The namespaces of the file are there, with the same keys in the same order. -/
  namespaces : ∀ path pfx es, file.toVal.Reaches path (.params pfx es) →
    ∃ pfx' es', R.toVal.Reaches path (.params pfx' es') ∧ es'.map (·.1) = es.map (·.1)
  /-- Parameters that are not strings are unchanged. -/
  others : ∀ path v, file.toVal.Reaches path v → Leaf v → (∀ s, v ≠ .str s) → R.toVal.Reaches path v
  /-- Every string is what it should be. -/
  strings : ∀ path s, file.toVal.Reaches path (.str s) → ∃ w, R.toVal.Reaches path w ∧ Replaced word file ctx R s w

end Interp
end Vista
