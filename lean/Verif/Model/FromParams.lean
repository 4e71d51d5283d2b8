import Verif.Model.Objects
import Verif.Model.ParamsFiles
import Verif.Model.DirStore
import Verif.Model.ZipOut

/-!
# `vistautils/key_value.py`: sources and sinks from parameters (lines 835-1101)

The factories read and change the file system, so `object_from_parameters` is taken apart here: `planObject` finds the value, or what is
to be called (it equals `Params.objectFromParameters` up to the call, see `objectFromParameters_plan`); the call is a `Prog`.  Classes and
functions are opaque objects for the interpreter; those of `key_value.py` have the numbers below.
-/
namespace Vista
namespace Params

/-- The outcome of `object_from_parameters` before anything is called: a value, or a call. -/
inductive Plan
  | value (v : PVal)
  | call (f : PVal) (args : List PVal)

/-- `apply_factory` up to the call, `parameters.py:984-995`. -/
def planFactory (py : Py) (factory : PVal) (params : Params) : Res Plan :=
  if py.isClass factory then
    match py.fromParameters factory with
    | some g => .ok (.call g [params.toVal])
    | none => .ok (.call factory [])
  else if py.callable factory then .ok (.call factory [params.toVal])
  else .error .parameterError

/-- `parameters.py:997-1034` up to the call. -/
def planNamespace (py : Py) (p : Params) (name : Str) (a : ObjectArgs) : Res Plan := do
  let ns ← p.namespace name
  ns.assertExactlyOnePresent [a.valueName, a.factoryName]
  if ns.contains a.valueName then
    let v ← p.evaluate py name (fun _ => true) a.context a.valueName a.specialValues
    .ok (.value v)
  else if ns.contains a.factoryName then
    let f ← p.evaluate py name (fun _ => true) a.context a.factoryName a.specialFactories
    planFactory py f ns
  else .error .runtimeError

/-- `parameters.py:1035-1059` up to the call. -/
def planString (py : Py) (p : Params) (name : Str) (expected : PVal → Bool) (a : ObjectArgs) : Res Plan := do
  let s ← text (← p.string name)
  match dictGet a.specialValues s with
  | some v => .ok (.value v)
  | none =>
    if (dictGet a.specialFactories s).isSome then planFactory py a.defaultFactory (empty (extendPrefix p.pfx name))
    else
      let v ← evalInContext py (.str s) (contextOr a.context py.globals) ((contextModulesFromPrefix s).map .str) expected
      .ok (.value v)

/-- `Parameters.object_from_parameters`, `parameters.py:912-1085`, up to the call. -/
def planObject (py : Py) (p : Params) (name : Str) (expected : PVal → Bool) (a : ObjectArgs := {}) : Res Plan :=
  if p.contains name then
    if p.hasNamespace name then planNamespace py p name a
    else planString py p name expected a
  else if !a.defaultValue.isNone then .ok (.value a.defaultValue)
  else if !a.defaultFactory.isNone then planFactory py a.defaultFactory (empty (extendPrefix p.pfx name))
  else .error .parameterError

end Params

/-- The objects that sources and sinks are: those of `key_value.py`, for text or bytes, and anything else. -/
inductive KVObj
  /-- `_ZipCharFileKeyValuesSource`, `_ZipBytesFileKeyValuesSource`, with the default settings. -/
  | zipSource (chars : Bool) (path : Loc)
  /-- `_PathMappingCharKeyValueSource`, `_PathMappingBytesKeyValueSource`. -/
  | mapSource (chars : Bool) (idToPath : List (Str × Str))
  /-- `_ZipCharFileKeyValueSink`, `_ZipBytesFileKeyValueSink`, with the default settings. -/
  | zipSink (chars : Bool) (path : Loc)
  /-- `_DirectoryCharKeyValueSink`, `_DirectoryBytesKeyValueSink`. -/
  | dirSink (chars : Bool) (path : Loc)
  | value (v : PVal)

namespace KVObj

/-- `isinstance(o, KeyValueSource)`, `key_value.py:246, 541-694`; `others` tells it of other objects. -/
def isSource (others : PVal → Bool) : KVObj → Bool
  | .zipSource .. => true
  | .mapSource .. => true
  | .value v => others v
  | _ => false

/-- What `validate` raises for an object of the wrong type, `parameters.py:978-982`; its message has `str` of the object in it (which for the sources
and sinks of `key_value.py` does not raise). -/
def refusal : KVObj → Exc
  | .value v => Params.raising .parameterError v
  | _ => .parameterError

/-- `isinstance(o, KeyValueSink)`, `key_value.py:400-538`. -/
def isSink (others : PVal → Bool) : KVObj → Bool
  | .zipSink .. => true
  | .dirSink .. => true
  | .value v => others v
  | _ => false

end KVObj

namespace FromParams

/-- `_CHAR_KEY_VALUE_SOURCE_SPECIAL_VALUES` and `_BYTE_KEY_VALUE_SOURCE_SPECIAL_VALUES`, `key_value.py:836-844`. -/
def sourceTable (chars : Bool) : Entries :=
  if chars then [("zip".toList, .str "_ZipCharFileKeyValuesSource".toList), ("file-map".toList, .str "_PathMappingCharKeyValueSource".toList)]
  else [("zip".toList, .str "_ZipBytesFileKeyValuesSource".toList), ("file-map".toList, .str "_PathMappingBytesKeyValueSource".toList)]

/-- `_CHAR_KEY_VALUE_SINK_SPECIAL_VALUES` and `_BYTE_KEY_VALUE_SINK_SPECIAL_VALUES`, `key_value.py:1019-1027`. -/
def sinkTable (chars : Bool) : Entries :=
  if chars then [("zip".toList, .str "_ZipCharFileKeyValueSink".toList), ("file-map".toList, .str "_DirectoryCharKeyValueSink".toList)]
  else [("zip".toList, .str "_ZipBytesFileKeyValueSink".toList), ("file-map".toList, .str "_DirectoryBytesKeyValueSink".toList)]

/-- The part of `globals()` of `key_value.py` that matters: its classes and functions, as objects. -/
def ownGlobals : Entries :=
  [("_ZipCharFileKeyValuesSource".toList, .obj 0), ("_ZipBytesFileKeyValuesSource".toList, .obj 1),
   ("_PathMappingCharKeyValueSource".toList, .obj 2), ("_PathMappingBytesKeyValueSource".toList, .obj 3),
   ("_ZipCharFileKeyValueSink".toList, .obj 4), ("_ZipBytesFileKeyValueSink".toList, .obj 5),
   ("_DirectoryCharKeyValueSink".toList, .obj 6), ("_DirectoryBytesKeyValueSink".toList, .obj 7),
   ("_doc_id_source_from_params".toList, .obj 8), ("_doc_id_binary_source_from_params".toList, .obj 9)]

/-- `from_parameters` of these classes, as objects: the path mapping sources have none. -/
def ownFromParameters : Nat → Option PVal
  | 0 => some (.obj 10)
  | 1 => some (.obj 11)
  | 4 => some (.obj 14)
  | 5 => some (.obj 15)
  | 6 => some (.obj 16)
  | 7 => some (.obj 17)
  | _ => none

/-- Calling the classes and functions of `key_value.py` (other objects: `others`).  `key_value.py:419-424, 446-451, 515-523, 530-538,
653-664, 683-694, 847-852`; the path mapping classes, called without arguments, have the empty mapping as a default, 541-548. -/
def call (cwd : PyPath) (others : PVal → List PVal → Prog KVObj) : PVal → List PVal → Prog KVObj
  | .obj 10, [.params pfx es] => do Prog.pure (.zipSource true (← (Params.mk pfx es).existingFile cwd "path".toList))
  | .obj 11, [.params pfx es] => do Prog.pure (.zipSource false (← (Params.mk pfx es).existingFile cwd "path".toList))
  | .obj 2, [] => Prog.pure (.mapSource true [])
  | .obj 3, [] => Prog.pure (.mapSource false [])
  | .obj 14, [.params pfx es] => do Prog.pure (.zipSink true (← (Params.mk pfx es).creatableFile cwd "path".toList))
  | .obj 15, [.params pfx es] => do Prog.pure (.zipSink false (← (Params.mk pfx es).creatableFile cwd "path".toList))
  | .obj 16, [.params pfx es] => do Prog.pure (.dirSink true (← (Params.mk pfx es).existingDirectory cwd "path".toList))
  | .obj 17, [.params pfx es] => do Prog.pure (.dirSink false (← (Params.mk pfx es).existingDirectory cwd "path".toList))
  | .obj 8, [.params pfx es] => do
    let l ← (Params.mk pfx es).existingFile cwd "path".toList
    Prog.pure (.mapSource true (← docMapEntries cwd (Loc.toPath l)))
  | .obj 9, [.params pfx es] => do
    let l ← (Params.mk pfx es).existingFile cwd "path".toList
    Prog.pure (.mapSource false (← docMapEntries cwd (Loc.toPath l)))
  | f, args => others f args

/-- `effective_context = dict(globals()); effective_context.update(eval_context or {})`, `key_value.py:886-887`; the module has other
globals, `rest`, as well. -/
def effectiveContext (rest : Entries) (evalContext : Option Entries) : Entries :=
  dictOf (ownGlobals ++ rest ++ evalContext.getD [])

/-- What the interpreter does besides evaluating: the call of an object, the type test for other objects, the working directory, and the
other globals of the module. -/
structure Env where
  py : Py
  others : PVal → List PVal → Prog KVObj
  isOther : PVal → Bool
  cwd : PyPath
  rest : Entries

/-- The call of `object_from_parameters` in the six functions: `key_value.py:888-895` (and 931-938, 970-977, 1009-1016, 1057-1064,
1094-1101 in the others): `validate` raises `ParameterError` for an object of the wrong type. -/
def build (E : Env) (isA : (PVal → Bool) → KVObj → Bool) (table : Entries) (default : PVal) (p : Params) (name : Str)
    (evalContext : Option Entries) : Prog KVObj := do
  let plan ← Prog.ofRes (p.planObject E.py name (fun v => isA E.isOther (.value v))
    { context := some (effectiveContext E.rest evalContext), factoryName := "type".toList, specialFactories := table, defaultFactory := default })
  match plan with
  | .value v => if isA E.isOther (.value v) then Prog.pure (.value v) else Prog.raise (KVObj.refusal (.value v))
  | .call f args => do
    let o ← call E.cwd E.others f args
    if isA E.isOther o then Prog.pure o else Prog.raise o.refusal

/-- `char_key_value_linear_source_from_params`, `key_value.py:855-895` (`isOther` is about `KeyValueLinearSource`). -/
def charLinearSource (E : Env) (p : Params) (name : Str := "input".toList) (evalContext : Option Entries := none) : Prog KVObj :=
  build E KVObj.isSource (sourceTable true) (.obj 8) p name evalContext

/-- `byte_key_value_linear_source_from_params`, `key_value.py:898-938`. -/
def byteLinearSource (E : Env) (p : Params) (name : Str := "input".toList) (evalContext : Option Entries := none) : Prog KVObj :=
  build E KVObj.isSource (sourceTable false) (.obj 9) p name evalContext

/-- `char_key_value_source_from_params`, `key_value.py:941-977`. -/
def charSource (E : Env) (p : Params) (name : Str := "input".toList) (evalContext : Option Entries := none) : Prog KVObj :=
  build E KVObj.isSource (sourceTable true) (.obj 8) p name evalContext

/-- `byte_key_value_source_from_params`, `key_value.py:980-1016`: the default is the one for text. -/
def byteSource (E : Env) (p : Params) (name : Str := "input".toList) (evalContext : Option Entries := none) : Prog KVObj :=
  build E KVObj.isSource (sourceTable false) (.obj 8) p name evalContext

/-- `char_key_value_sink_from_params`, `key_value.py:1030-1064`. -/
def charSink (E : Env) (p : Params) (name : Str := "output".toList) (evalContext : Option Entries := none) : Prog KVObj :=
  build E KVObj.isSink (sinkTable true) (.obj 6) p name evalContext

/-- `byte_key_value_sink_from_params`, `key_value.py:1067-1101`. -/
def byteSink (E : Env) (p : Params) (name : Str := "output".toList) (evalContext : Option Entries := none) : Prog KVObj :=
  build E KVObj.isSink (sinkTable false) (.obj 7) p name evalContext

end FromParams

/-- `KeyValueSource.zip_character_source(path)` and its `__enter__`, `key_value.py:338-359, 628-632`. -/
def zipCharSource (l : Loc) : Prog (Zip.Source Str) := do
  match ← readFile l with
  | .zip a => Prog.ofRes ((Zip.Source.create (Zip.charConfig fun k => .ok k)).enter (some a))
  | .data _ => Prog.raise .other

end Vista
