import Verif.Model.Params

/-!
# `vistautils/parameters.py`: `evaluate` and `object_from_parameters`

The Python interpreter is a parameter of the model (`Py`).  Simplifications: evaluating, importing and calling have no side effects
on the modelled state; the order of the names in an evaluation context cannot be observed; keys of contexts and of the special tables
are strings.
-/
namespace Vista

/-- The interpreter, as far as it is used. -/
structure Py where
  /-- `eval(code, context)`. -/
  eval : PVal → (Str → Option PVal) → Res PVal
  /-- `importlib.import_module`. -/
  importModule : Str → Res PVal
  /-- `inspect.isclass`. -/
  isClass : PVal → Bool
  /-- `getattr(x, "from_parameters")`, if there is one. -/
  fromParameters : PVal → Option PVal
  /-- `callable`. -/
  callable : PVal → Bool
  /-- A call with positional arguments. -/
  call : PVal → List PVal → Res PVal
  /-- `globals()` of `parameters.py`. -/
  globals : Entries
  /-- `locals()` in `evaluate`, `parameters.py:901` (its content is not modelled). -/
  locals : Params → Str → Entries

namespace Params

/-- `", ".join(parts[0 : i + 1]) for i in range(len(parts))`, dotted. -/
def dottedPrefixes (parts : List Str) : List Str := (List.range parts.length).map fun i => joinWith '.' (parts.take (i + 1))

/-- `_context_modules_from_prefix`, `parameters.py:826-836`. -/
def contextModulesFromPrefix (name : Str) : List Str := dottedPrefixes (splitOn '.' name).dropLast

/-- `misc_utils.py:68-71`: import one package, unless the name is in the context already. -/
def importPackage (py : Py) (context : Entries) (package : Str) : Res Entries :=
  if (dictGet context package).isSome then .ok context
  else do
    let m ← py.importModule package
    .ok (dictSet package m context)

/-- `misc_utils.py:65-71`: import one module and its parent packages.  A module name that is no string has no usable `split`. -/
def importOne (py : Py) (context : Entries) : PVal → Res Entries
  | .str s => (dottedPrefixes (splitOn '.' s)).foldlM (importPackage py) context
  | .bytes _ => .error .typeError
  | _ => .error .attributeError

/-- `eval_in_context_of_modules`, `misc_utils.py:43-81`. -/
def evalInContext (py : Py) (toEval : PVal) (context : Entries) (modules : List PVal) (expected : PVal → Bool) : Res PVal := do
  let env ← modules.foldlM (importOne py) context
  let ret ← py.eval toEval (dictGet env)
  if expected ret then .ok ret else .error (raising .typeError ret)

/-- `except Exception as e: raise ParameterError(...)`, `parameters.py:905-908`. -/
def asParameterError {α : Type} : Res α → Res α
  | .ok a => .ok a
  | .error _ => .error .parameterError

/-- The text of a value known to be a string (`self.string` checks it). -/
def text : PVal → Res Str
  | .str s => .ok s
  | _ => .error .typeError

/-- `namespace.optional_arbitrary_list("import") or []`. -/
def orEmptyList : PVal → List PVal
  | .list xs => xs
  | _ => []

/-- `context or ...`, `parameters.py:901` and 1052: an empty context counts as none. -/
def contextOr (context : Option Entries) (otherwise : Entries) : Entries :=
  match context with
  | some c => if c.isEmpty then otherwise else c
  | none => otherwise

/-- `parameters.py:884-903`: what is evaluated, and in the context of which modules. -/
def evaluateBody (py : Py) (p : Params) (name : Str) (expected : PVal → Bool) (context : Option Entries) (nsParam : Str)
    (special : Entries) (dflt : PVal) : Option Params → Res PVal
  | some ns => do
    let s ← text (← ns.string nsParam)
    let modules ← ns.optionalArbitraryList "import".toList
    evalInContext py ((dictGet special s).getD (.str s)) (contextOr context (py.locals p name)) (orEmptyList modules) expected
  | none =>
    if p.contains name then do
      let s ← text (← p.string name)
      evalInContext py ((dictGet special s).getD (.str s)) (contextOr context (py.locals p name))
        ((contextModulesFromPrefix s).map .str) expected
    else if !dflt.isNone then .ok dflt
    else .error .parameterError

/-- `Parameters.evaluate`, `parameters.py:839-909`. -/
def evaluate (py : Py) (p : Params) (name : Str) (expected : PVal → Bool) (context : Option Entries := none)
    (nsParam : Str := "value".toList) (special : Entries := []) (dflt : PVal := .none) : Res PVal := do
  let ns ← p.optionalNamespace name
  asParameterError (evaluateBody py p name expected context nsParam special dflt ns)

/-- `Parameters.optional_evaluate`, `parameters.py:803-824`. -/
def optionalEvaluate (py : Py) (p : Params) (name : Str) (expected : PVal → Bool) (nsParam : Str := "value".toList)
    (special : Entries := []) : Res PVal :=
  if p.contains name then p.evaluate py name expected none nsParam special else .ok .none

/-- `_extend_prefix`, `parameters.py:1366-1371`: as written, the tuple of the characters of the new element. -/
def extendPrefix (_pfx : List Str) (new : Str) : List Str := new.map fun c => [c]

/-- The keyword arguments of `object_from_parameters`; `None` is `PVal.none`. -/
structure ObjectArgs where
  context : Option Entries := none
  valueName : Str := "value".toList
  factoryName : Str := "factory".toList
  specialValues : Entries := []
  specialFactories : Entries := []
  defaultValue : PVal := .none
  defaultFactory : PVal := .none

/-- `validate`, `parameters.py:975-982`. -/
def validate (expected : PVal → Bool) (v : PVal) : Res PVal := if expected v then .ok v else .error (raising .parameterError v)

/-- `apply_factory`, `parameters.py:984-995`. -/
def applyFactory (py : Py) (factory : PVal) (params : Params) : Res PVal :=
  if py.isClass factory then
    match py.fromParameters factory with
    | some g => py.call g [params.toVal]
    | none => py.call factory []
  else if py.callable factory then py.call factory [params.toVal]
  else .error .parameterError

/-- `parameters.py:997-1034`: the parameter is a namespace. -/
def objectFromNamespace (py : Py) (p : Params) (name : Str) (expected : PVal → Bool) (a : ObjectArgs) : Res PVal := do
  let ns ← p.namespace name
  ns.assertExactlyOnePresent [a.valueName, a.factoryName]
  if ns.contains a.valueName then
    let v ← p.evaluate py name (fun _ => true) a.context a.valueName a.specialValues
    validate expected v
  else if ns.contains a.factoryName then
    let f ← p.evaluate py name (fun _ => true) a.context a.factoryName a.specialFactories
    let v ← applyFactory py f ns
    validate expected v
  else .error .runtimeError

/-- `parameters.py:1035-1059`: the parameter is a string. -/
def objectFromString (py : Py) (p : Params) (name : Str) (expected : PVal → Bool) (a : ObjectArgs) : Res PVal := do
  let s ← text (← p.string name)
  match dictGet a.specialValues s with
  | some v => validate expected v
  | none =>
    if (dictGet a.specialFactories s).isSome then
      let v ← applyFactory py a.defaultFactory (empty (extendPrefix p.pfx name))
      validate expected v
    else
      let v ← evalInContext py (.str s) (contextOr a.context py.globals) ((contextModulesFromPrefix s).map .str) expected
      validate expected v

/-- `Parameters.object_from_parameters`, `parameters.py:912-1085`. -/
def objectFromParameters (py : Py) (p : Params) (name : Str) (expected : PVal → Bool) (a : ObjectArgs := {}) : Res PVal :=
  if p.contains name then
    if p.hasNamespace name then objectFromNamespace py p name expected a
    else objectFromString py p name expected a
  else if !a.defaultValue.isNone then validate expected a.defaultValue
  else if !a.defaultFactory.isNone then do
    let v ← applyFactory py a.defaultFactory (empty (extendPrefix p.pfx name))
    validate expected v
  else .error .parameterError

end Params
end Vista
