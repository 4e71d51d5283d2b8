import Verif.Spec.Objects
import Verif.Model.ClassUtils

/-!
# What a fully-qualified name should be, and how Python evaluates one
-/
namespace Vista
namespace ClassUtils

/-- The words, joined by dots. -/
inductive Dotted : List Str → Str → Prop
  | one (w : Str) : Dotted [w] w
  | more {w : Str} {ws : List Str} {s : Str} : Dotted ws s → Dotted (w :: ws) (w ++ '.' :: s)

/-- How names and attributes work in an interpreter. -/
structure Names where
  /-- Which words can be written as a name: an identifier which is no keyword. -/
  ident : Str → Prop
  /-- The attribute of an object, if it has it (once the modules that are imported have been imported). -/
  attr : PVal → Str → Option PVal
  /-- The built-in names. -/
  builtin : Str → Option PVal

/-- Following the attributes leads from one object to another. -/
inductive Names.Leads (N : Names) : PVal → List Str → PVal → Prop
  | here (v : PVal) : N.Leads v [] v
  | step {u w v : PVal} {x : Str} {xs : List Str} : N.attr u x = some w → N.Leads w xs v → N.Leads u (x :: xs) v

/-- What a name means in a context: what the context says, else the built-in name. -/
def Names.Means (N : Names) (env : Str → Option PVal) (x : Str) (w : PVal) : Prop :=
  env x = some w ∨ (env x = Option.none ∧ N.builtin x = some w)

/-- The interpreter follows the rules of Python for dotted names: identifiers have no dots; evaluating `x.y.z` looks up `x` and takes
the attributes; importing `a.b` imports `a`, whose attribute `b` is then that module. -/
structure Names.Python (N : Names) (py : Py) : Prop where
  noDot : ∀ x, N.ident x → '.' ∉ x
  eval : ∀ env x xs s v, (∀ w ∈ x :: xs, N.ident w) → Dotted (x :: xs) s →
    (py.eval (.str s) env = .ok v ↔ ∃ w, N.Means env x w ∧ N.Leads w xs v)
  package : ∀ k x m, N.ident x → py.importModule (k ++ '.' :: x) = .ok m → ∃ p, py.importModule k = .ok p ∧ N.attr p x = some m

/-- The class is found in the module of this name by following this (possibly nested) class name. -/
def Names.Located (N : Names) (py : Py) (module : Str) (path : List Str) (c : PVal) : Prop :=
  ∃ m, py.importModule module = .ok m ∧ N.Leads m path c

end ClassUtils
end Vista
