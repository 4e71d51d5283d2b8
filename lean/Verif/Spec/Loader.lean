import Verif.Spec.Interpolate
import Verif.Model.Loader

/-!
# What loading parameter files should mean
-/
namespace Vista
namespace Loader
open PVal

/-- A YAML value as a parser returns it: the keys of a mapping are distinct, and a value that is not a mapping is a scalar or a
list. -/
inductive Yaml.OK : Yaml → Prop
  | value {v : PVal} : Leaf v → OK (.value v)
  | map {es : List (YKey × Yaml)} : (es.map (·.1)).Nodup → (∀ e ∈ es, OK e.2) → OK (.map es)

/-- All keys of all nested mappings are strings. -/
inductive StringKeys : Yaml → Prop
  | value (v : PVal) : StringKeys (.value v)
  | map {es : List (YKey × Yaml)} : (∀ e ∈ es, ∃ s, e.1 = .str s) → (∀ e ∈ es, StringKeys e.2) → StringKeys (.map es)

/-- What is assumed of the surroundings. -/
structure World.OK (W : World) : Prop where
  word : W.word '%' = false
  parse : ∀ s y, W.parse s = .ok y → y.OK
  env : (W.env.map (·.1)).Nodup

/-- The text of a parameter file, and the directory its relative includes refer to (none for a string). -/
structure Source where
  dir : Option Str
  content : Str

mutual
/-- The value is the Python value of the YAML value, all of whose keys are strings. -/
inductive Denotes : Yaml → PVal → Prop
  | value (v : PVal) : Denotes (.value v) v
  | map {es : List (YKey × Yaml)} {vs : Entries} : DenotesAll es vs → Denotes (.map es) (.dict vs)
/-- The same for the items of a mapping. -/
inductive DenotesAll : List (YKey × Yaml) → Entries → Prop
  | nil : DenotesAll [] []
  | cons {k : Str} {y : Yaml} {v : PVal} {es : List (YKey × Yaml)} {vs : Entries} :
      Denotes y v → DenotesAll es vs → DenotesAll ((.str k, y) :: es) ((k, v) :: vs)
end

/-- What a Python loop over the value sees: the items of a list, the characters of a string, the bytes of a byte string, the keys of
a mapping. -/
inductive LoopsOver : PVal → List PVal → Prop
  | list (xs : List PVal) : LoopsOver (.list xs) xs
  | str (s : Str) : LoopsOver (.str s) (s.map fun c => .str [c])
  | bytes (s : Str) : LoopsOver (.bytes s) (s.map fun c => .int c.toNat)
  | dict (es : Entries) : LoopsOver (.dict es) (es.map fun e => .str e.1)

/-- The text is a YAML mapping with string keys: `own` are its items other than `_includes`, `files` the items of `_includes` (none
if there is no such key). -/
def Reads (W : World) (x : Source) (own : Entries) (files : List PVal) : Prop :=
  ∃ ys es, W.parse x.content = .ok (.map ys) ∧ DenotesAll ys es ∧ own = es.filter (fun e => decide (e.1 ≠ "_includes".toList)) ∧
    ((files = [] ∧ "_includes".toList ∉ es.map (·.1)) ∨ ∃ v, ("_includes".toList, v) ∈ es ∧ LoopsOver v files)

/-- An item of `_includes` of the source `x` names the file with the text of `y`: the item is a string; an absolute path counts as
it is, a relative one is resolved in the directory of `x`. -/
def Names (W : World) (x : Source) (item : PVal) (y : Source) : Prop :=
  ∃ s path, item = .str s ∧ ((W.isAbs s = true ∧ path = s) ∨ (W.isAbs s = false ∧ ∃ d, x.dir = some d ∧ W.resolve d s = .ok path)) ∧
    W.read path = .ok y.content ∧ y.dir = some (W.parent path)

mutual
/-- The parameters of all the files involved in loading `x`, each by itself, in the order they are read: the included files one
after the other, each after the files it includes itself; the file `x` last. -/
inductive Listing (W : World) : Source → List Params → Prop
  | file {x : Source} {own : Entries} {items : List PVal} {fs : List Params} {f : Params} :
      Reads W x own items → ListingAll W x items fs → Params.fromMapping own = .ok f → Listing W x (fs ++ [f])
/-- The same for the included files of `x` named by the items. -/
inductive ListingAll (W : World) : Source → List PVal → List Params → Prop
  | nil {x : Source} : ListingAll W x [] []
  | cons {x y : Source} {item : PVal} {items : List PVal} {fs gs : List Params} :
      Names W x item y → Listing W y fs → ListingAll W x items gs → ListingAll W x (item :: items) (fs ++ gs)
end

/-- `x` includes `y`. -/
def Includes (W : World) (x y : Source) : Prop := ∃ own items, Reads W x own items ∧ ∃ item ∈ items, Names W x item y

/-- The parameters a placeholder can fall back on after `p` has been loaded: the parameters of `p` and, if wanted, the environment
variables whose name is not that of a parameter or namespace of `p`. -/
structure Context (W : World) (useEnv : Bool) (p c : Params) : Prop where
  tree : c.Tree
  pfx : c.pfx = []
  parameters : ∀ path v, Leaf v → (c.toVal.Reaches path v ↔
    p.toVal.Reaches path v ∨
    (useEnv = true ∧ ∃ k s, path = [k] ∧ v = .str s ∧ (k, s) ∈ W.env ∧ ¬ ∃ u, p.toVal.Reaches [k] u))
  namespaces : ∀ path, (∃ u, u.isParams = true ∧ c.toVal.Reaches path u) ↔ (∃ u, u.isParams = true ∧ p.toVal.Reaches path u)

/-- Something other than `None` at the path. -/
def HasValue (p : Params) (path : List Str) : Prop := ∃ u, u ≠ .none ∧ p.toVal.Reaches path u

/-- `r` is `p` overridden by `q` (as by `unify`, C45): where `q` has a parameter other than `None` it counts, elsewhere `p`. -/
structure Overrides (p q r : Params) : Prop where
  parameters : ∀ path v, Leaf v → (r.toVal.Reaches path v ↔
    (q.toVal.Reaches path v ∧ (v ≠ .none ∨ ¬ HasValue p path)) ∨ (p.toVal.Reaches path v ∧ ¬ HasValue q path))
  namespaces : ∀ path, (∃ u, u.isParams = true ∧ r.toVal.Reaches path u) ↔
    (∃ u, u.isParams = true ∧ p.toVal.Reaches path u) ∨ (∃ u, u.isParams = true ∧ q.toVal.Reaches path u)

/-- From `p`, the files `fs` are taken one after the other: each is interpolated with what came before (and the environment) as
context, giving the layers `qs`, and overrides what came before; `r` is what results.  (For a file with a placeholder that looks
inside a parameter that is not a namespace, nothing is said about the interpolated values.) -/
inductive Stacked (W : World) (useEnv : Bool) : Params → List Params → List Params → Params → Prop
  | nil (p : Params) : Stacked W useEnv p [] [] p
  | cons {p c f q p' r : Params} {fs qs : List Params} : Context W useEnv p c →
      (Interp.NoneThroughLeaf W.word f → Interp.Interpolated W.word f c q) → Overrides p q p' → Stacked W useEnv p' fs qs r →
      Stacked W useEnv p (f :: fs) (q :: qs) r

end Loader
end Vista
