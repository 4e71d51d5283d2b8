import Verif.Model.FromParams
import Verif.Model.IterUtils

/-!
# `vistautils/scripts/directory_to_key_value_store.py`
-/
namespace Vista
namespace DirToStore
open IterUtils (rfind)

/-- `PurePath.stem` (standard library, up to Python 3.13): `i = name.rfind("."); name[:i] if 0 < i < len(name) - 1 else name`. -/
def stem (name : Str) : Str :=
  if 0 < rfind '.' name ∧ rfind '.' name < (name.length : Int) - 1 then pySlice name 0 (rfind '.' name) else name

/-- `path.name` (standard library), for a place. -/
def fileName (l : Loc) : Str := l.getLast?.getD []

/-- The functions `identity_key_function` and `strip_one_extension_key_function`, `directory_to_key_value_store.py:61-66`. -/
inductive KeyFunction
  | identity
  | stripOneExtension
  deriving DecidableEq

/-- Calling them, `directory_to_key_value_store.py:61-66`. -/
def KeyFunction.apply : KeyFunction → Loc → Str
  | .identity, l => fileName l
  | .stripOneExtension, l => stem (fileName l)

/-- `key_function_from_params`, `directory_to_key_value_store.py:44-58`; `… or IDENTITY` replaces `None` and the empty string. -/
def keyFunction (p : Params) : Res KeyFunction := do
  match ← p.optionalString "key_function".toList (some ["identity".toList, "strip_one_extension".toList]) with
  | .str s =>
    if s = [] ∨ s = "identity".toList then .ok .identity
    else if s = "strip_one_extension".toList then .ok .stripOneExtension
    else .error .notImplementedError
  | _ => .ok .identity

/-- The loop, `directory_to_key_value_store.py:38-41`, for a zip sink: the sink afterwards, and the exception if one was raised; reading
changes nothing. -/
def copyZip (key : Loc → Str) (fs : FS) : List Loc → ZipOut → ZipOut × Option Exc
  | [], o => (o, none)
  | q :: qs, o =>
    if fs.isFile q then
      match (readData q fs).1 with
      | .error e => (o, some e)
      | .ok b =>
        match (o.put (key q) b).2 with
        | .ok _ => copyZip key fs qs (o.put (key q) b).1
        | .error e => ((o.put (key q) b).1, some e)
    else copyZip key fs qs o

/-- The loop, `directory_to_key_value_store.py:38-41`, for a directory sink.  Simplification: `rglob` lists the places before the first is
copied (Python lists them while copying, which differs only if the output is within the input). -/
def copyDirAt (cwd : PyPath) (key : Loc → Str) : List Loc → DirSink → FS → Res (DirSink × Option Exc) × FS
  | [], s, fs => (.ok (s, none), fs)
  | q :: qs, s, fs =>
    if fs.isFile q then
      match (readData q fs).1 with
      | .error e => (.ok (s, some e), fs)
      | .ok b =>
        match s.put cwd (key q) b fs with
        | (.ok s', fs') => copyDirAt cwd key qs s' fs'
        | (.error e, fs') => (.ok (s, some e), fs')
    else copyDirAt cwd key qs s fs

/-- See `copyDirAt`. -/
def copyDir (cwd : PyPath) (key : Loc → Str) (qs : List Loc) (s : DirSink) : Prog (DirSink × Option Exc) := fun fs => copyDirAt cwd key qs s fs

/-- `with sink:` and the loop, `directory_to_key_value_store.py:37-41`, by what the sink is; `scan` is `Path.rglob("*")` (standard
library).  Only the sinks for bytes of `key_value.py` are modelled; anything else raises here. -/
def copyInto (cwd : PyPath) (order : List Str → List Str) (scan : FS → Loc → List Loc) (key : Loc → Str) (d : Loc) : KVObj → Prog Unit
  | .zipSink false l => do
    let o ← ZipOut.enter order l
    let fs ← Prog.get
    (copyZip key fs (scan fs d) o).1.leave (copyZip key fs (scan fs d) o).2
  | .dirSink false l => do
    let s1 ← (DirSink.new l.toPath).enter cwd
    let fs ← Prog.get
    let (s2, e) ← copyDir cwd key (scan fs d) s1
    s2.exit cwd
    match e with
    | some e => Prog.raise e
    | none => Prog.pure ()
  | _ => Prog.raise .other

/-- `locals()` in `main`, `directory_to_key_value_store.py:37`, the context given for evaluations; the functions are objects for the
interpreter. -/
def locals (p : Params) (d : Loc) (key : KeyFunction) : Entries :=
  [("params".toList, p.toVal), ("input_directory".toList, .path d.toPath.render),
   ("key_function".toList, .obj (match key with | .identity => 20 | .stripOneExtension => 21))]

/-- `main`, `directory_to_key_value_store.py:33-41`. -/
def main (E : FromParams.Env) (order : List Str → List Str) (scan : FS → Loc → List Loc) (p : Params) : Prog Unit := do
  let d ← p.existingDirectory E.cwd "input_directory".toList
  let key ← Prog.ofRes (keyFunction p)
  let sink ← FromParams.byteSink E p "output".toList (some (locals p d key))
  copyInto E.cwd order scan key.apply d sink

end DirToStore
end Vista
