import Verif.Model.Params

/-!
# Vocabulary for the properties of `Parameters`
-/
namespace Vista
namespace PVal

/-- Following the names of the path, one nested namespace at a time, leads from `v` to `w`. -/
inductive Reaches : PVal → List Str → PVal → Prop
  | here (v : PVal) : Reaches v [] v
  | step {pfx : List Str} {es : Entries} {k : Str} {ks : List Str} {v w : PVal} :
      (k, v) ∈ es → Reaches v ks w → Reaches (.params pfx es) (k :: ks) w

/-- The values Python counts as false: `None`, `False`, zero, and the empty string, bytes, list and dict.  Everything else, every
path, object and `Parameters` included, counts as true. -/
inductive Falsy : PVal → Prop
  | none : Falsy .none
  | false : Falsy (.bool Bool.false)
  | int : Falsy (.int 0)
  | float : Falsy (.float 0)
  | str : Falsy (.str [])
  | bytes : Falsy (.bytes [])
  | list : Falsy (.list [])
  | dict : Falsy (.dict [])

/-- A leaf: neither a namespace nor a mapping. -/
def Leaf (v : PVal) : Prop := v.isParams = false ∧ v.isMapping = false

/-- Every `Parameters` object and every mapping inside the value is as Python can build it: distinct keys, and no `.` in the
keys of a `Parameters`. -/
inductive WF : PVal → Prop
  | leaf {v : PVal} : Leaf v → WF v
  | dict {es : Entries} : (es.map (·.1)).Nodup → (∀ e ∈ es, WF e.2) → WF (.dict es)
  | params {pfx : List Str} {es : Entries} : (es.map (·.1)).Nodup → (∀ e ∈ es, '.' ∉ e.1) → (∀ e ∈ es, WF e.2) →
      WF (.params pfx es)

/-- A nested dictionary: dictionaries (with distinct keys) down to the leaves, no `Parameters` among them. -/
inductive Plain : PVal → Prop
  | leaf {v : PVal} : Leaf v → Plain v
  | dict {es : Entries} : (es.map (·.1)).Nodup → (∀ e ∈ es, Plain e.2) → Plain (.dict es)

/-- No key of the nested dictionary contains a `.`, at any depth. -/
inductive DotFree : PVal → Prop
  | leaf {v : PVal} : v.isMapping = false → DotFree v
  | dict {es : Entries} : (∀ e ∈ es, '.' ∉ e.1) → (∀ e ∈ es, DotFree e.2) → DotFree (.dict es)

/-- Namespaces (with distinct keys without `.`) down to the leaves, with no mappings left inside: what every loader builds. -/
inductive Tree : PVal → Prop
  | leaf {v : PVal} : Leaf v → Tree v
  | params {pfx : List Str} {es : Entries} : (es.map (·.1)).Nodup → (∀ e ∈ es, '.' ∉ e.1) → (∀ e ∈ es, Tree e.2) →
      Tree (.params pfx es)

end PVal

/-- A `Parameters` object Python can build. -/
def Params.WF (p : Params) : Prop := p.toVal.WF
/-- A `Parameters` object with no mappings left inside. -/
def Params.Tree (p : Params) : Prop := p.toVal.Tree
/-- The `Parameters` object made by `from_mapping` from some nested dictionary at the top level. -/
def Params.Loaded (p : Params) : Prop := ∃ es : Entries, (PVal.dict es).Plain ∧ Params.fromMapping es = .ok p

end Vista
