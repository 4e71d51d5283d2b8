import Verif.Spec.Objects
import Verif.Props.ParamsAccess
import Verif.Spec.ZipOut
import Verif.Model.FromParams

/-!
# What it means that parameters describe a source or sink
-/
namespace Vista
namespace FromParams

/-- The interpreter evaluates the names of the classes and functions of `key_value.py` to what they are bound to, and knows what they
are. -/
structure Understands (py : Py) : Prop where
  names : ∀ n ∈ ownGlobals.map (·.1), ∀ env v, env n = some v → py.eval (.str n) env = .ok v
  classes : ∀ k, k < 8 → py.isClass (.obj k) = true
  fromParameters : ∀ k, k < 8 → py.fromParameters (.obj k) = ownFromParameters k
  functions : ∀ k, k = 8 ∨ k = 9 → py.isClass (.obj k) = false ∧ py.callable (.obj k) = true

/-- The module has each of its names once; so does the context of the caller, which leaves the names of the module alone. -/
structure Sane (E : Env) (evalContext : Option Entries) : Prop where
  py : Understands E.py
  globals : ((ownGlobals ++ E.rest).map (·.1)).Nodup
  context : ∀ c, evalContext = some c → (c.map (·.1)).Nodup
  unshadowed : ∀ c, evalContext = some c → ∀ n ∈ ownGlobals.map (·.1), n ∉ c.map (·.1)

/-- The modules listed under `import`, if any, are named by strings. -/
def ImportsStrings (ns : Params) (mods : List Str) : Prop := Params.Imports ns (mods.map .str)

/-- The parameters have, at `name`, the namespace `ns`, of the type `s`; it asks for modules that can be imported. -/
structure Typed (E : Env) (evalContext : Option Entries) (p : Params) (name : Str) (ns : Params) (s : Str) (mods : List Str) : Prop where
  wf : p.WF
  found : p.toVal.Reaches (splitOn '.' name) ns.toVal
  type : ns.toVal.Reaches ["type".toList] (.str s)
  noValue : ¬ Params.Present ns "value".toList
  imports : ImportsStrings ns mods
  importable : ∀ k t, t ∈ mods → Params.PackageOf k t → k ∉ (ownGlobals ++ E.rest ++ evalContext.getD []).map (·.1) → ∃ m, E.py.importModule k = .ok m

/-- The six functions. -/
inductive Which
  | charSource | charLinearSource | byteSource | byteLinearSource | charSink | byteSink

/-- The function. -/
def Which.run : Which → Env → Params → Str → Option Entries → Prog KVObj
  | .charSource => fun E p name ec => FromParams.charSource E p name ec
  | .charLinearSource => fun E p name ec => FromParams.charLinearSource E p name ec
  | .byteSource => fun E p name ec => FromParams.byteSource E p name ec
  | .byteLinearSource => fun E p name ec => FromParams.byteLinearSource E p name ec
  | .charSink => fun E p name ec => FromParams.charSink E p name ec
  | .byteSink => fun E p name ec => FromParams.byteSink E p name ec

/-- The object is of the kind the function is to return: a source or a sink; the environment tells which other objects are. -/
def Which.Fits (w : Which) (E : Env) (o : KVObj) : Prop :=
  (∃ v, o = .value v ∧ E.isOther v = true) ∨
    match w with
    | .charSink | .byteSink => (∃ c l, o = .zipSink c l) ∨ ∃ c l, o = .dirSink c l
    | _ => (∃ c l, o = .zipSource c l) ∨ ∃ c m, o = .mapSource c m

/-- Using `f` as a factory on the namespace means the call of `g` with the arguments `xs`: the `from_parameters` of a class that has one,
else the class without arguments; any other callable with the namespace. -/
inductive Calls (py : Py) (f : PVal) (ns : Params) : PVal → List PVal → Prop
  | fromParameters {g : PVal} : py.isClass f = true → py.fromParameters f = some g → Calls py f ns g [ns.toVal]
  | class : py.isClass f = true → py.fromParameters f = none → Calls py f ns f []
  | function : py.isClass f = false → py.callable f = true → Calls py f ns f [ns.toVal]

/-- The file is a zip store of texts holding exactly the mapping `M`. -/
def StoresText (fs : FS) (l : Loc) (M : Str → Option Str) : Prop :=
  ∃ a, fs.node l = some (.file (.zip a)) ∧
    ∃ src, (Zip.Source.create (Zip.charConfig fun k => .ok k)).enter (some a) = .ok src ∧ Zip.Serves src.asSource PlainKey M

end FromParams
end Vista
