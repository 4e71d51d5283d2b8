import Verif.Spec.Params
import Verif.Model.Objects

/-!
# What evaluating parameters should mean
-/
namespace Vista
namespace Params
open PVal

/-- `k` is the module `s` or one of its parent packages. -/
def PackageOf (k s : Str) : Prop := k = s ∨ ∃ rest, s = k ++ '.' :: rest

/-- Evaluating `code` gives `v`, in the given context together with the needed modules it does not define, which can all be
imported. -/
def Evaluates (py : Py) (ctx : Entries) (need : Str → Prop) (code v : PVal) : Prop :=
  ∃ env : Str → Option PVal, (∀ k w, (k, w) ∈ ctx → env k = some w) ∧
    (∀ k, k ∉ ctx.map (·.1) → need k → ∃ m, py.importModule k = .ok m ∧ env k = some m) ∧
    (∀ k, k ∉ ctx.map (·.1) → ¬ need k → env k = Option.none) ∧ py.eval code env = .ok v

/-- The context to use: the one given unless it is absent or empty. -/
def ContextIs (given : Option Entries) (otherwise ctx : Entries) : Prop :=
  (given = some ctx ∧ ctx ≠ []) ∨ ((given = Option.none ∨ given = some []) ∧ ctx = otherwise)

/-- The expression for the text `s`: what the table of special values says, else the text. -/
def CodeIs (special : Entries) (s : Str) (code : PVal) : Prop :=
  (s, code) ∈ special ∨ (s ∉ special.map (·.1) ∧ code = .str s)

/-- The modules the namespace asks for under `import`. -/
def Imports (ns : Params) (mods : List PVal) : Prop :=
  ns.toVal.Reaches ["import".toList] (.list mods) ∨
    (mods = [] ∧ ¬ ∃ v, v ≠ .none ∧ ns.toVal.Reaches ["import".toList] v)

/-- Using `f` as a factory on the parameters gives `v`: the `from_parameters` of a class that has one, else the class without
arguments; any other callable is called with the parameters. -/
inductive Makes (py : Py) (f : PVal) (params : Params) : PVal → Prop
  | fromParameters {g v : PVal} : py.isClass f = true → py.fromParameters f = some g → py.call g [params.toVal] = .ok v → Makes py f params v
  | class {v : PVal} : py.isClass f = true → py.fromParameters f = Option.none → py.call f [] = .ok v → Makes py f params v
  | function {v : PVal} : py.isClass f = false → py.callable f = true → py.call f [params.toVal] = .ok v → Makes py f params v

end Params
end Vista
