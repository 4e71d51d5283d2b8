import Verif.Model.FileSystem
import Verif.Model.Params

/-!
# `vistautils/parameters.py`: files and directories

The functions return resolved paths, given by their place in the file system.  `cwd` is the current working directory.
-/
namespace Vista
namespace Params

/-- `Path.resolve(Path(self.string(param)))`, e.g. `parameters.py:254`. -/
def pathParam (cwd : PyPath) (p : Params) (param : Str) : Res Loc := do
  match ← p.string param with
  | .str s => .ok (PyPath.resolve cwd (PyPath.parse s))
  | _ => .error .typeError

/-- `Parameters.creatable_directory`, `parameters.py:244-256`. -/
def creatableDirectory (cwd : PyPath) (p : Params) (param : Str) : Prog Loc := do
  let ret ← Prog.ofRes (p.pathParam cwd param)
  mkdirs ret
  Prog.pure ret

/-- `Parameters.optional_creatable_directory`, `parameters.py:258-273`, and the other `optional_` functions (`309-330`, `346-355`,
`385-396`, `426-437`): `None` if the parameter is absent. -/
def ifPresent {α : Type} (p : Params) (param : Str) (x : Prog α) : Prog (Option α) :=
  if p.contains param then do
    let r ← x
    Prog.pure (some r)
  else Prog.pure none

/-- `Parameters.creatable_empty_directory`, `parameters.py:275-307`. -/
def creatableEmptyDirectory (cwd : PyPath) (p : Params) (param : Str) (delete : Bool := false) : Prog Loc := do
  let ret ← Prog.ofRes (p.pathParam cwd param)
  let fs ← Prog.get
  if fs.isDir ret then do
    if !fs.isEmptyDirectory ret then do
      if delete then do
        rmtree ret
        mkdirs ret
        Prog.pure ret
      else Prog.raise .parameterError
    else Prog.pure ret
  else if fs.exists' ret then Prog.raise .parameterError
  else creatableDirectory cwd p param

/-- `Parameters.creatable_file`, `parameters.py:332-344`. -/
def creatableFile (cwd : PyPath) (p : Params) (param : Str) : Prog Loc := do
  let ret ← Prog.ofRes (p.pathParam cwd param)
  mkdirs ret.dropLast
  Prog.pure ret

/-- `Parameters.existing_file`, `parameters.py:357-383`. -/
def existingFile (cwd : PyPath) (p : Params) (param : Str) : Prog Loc := do
  let ret ← Prog.ofRes (p.pathParam cwd param)
  let fs ← Prog.get
  if fs.exists' ret then
    if fs.isFile ret then Prog.pure ret else Prog.raise .parameterError
  else Prog.raise .parameterError

/-- `Parameters.existing_directory`, `parameters.py:398-424`. -/
def existingDirectory (cwd : PyPath) (p : Params) (param : Str) : Prog Loc := do
  let ret ← Prog.ofRes (p.pathParam cwd param)
  let fs ← Prog.get
  if fs.exists' ret then
    if fs.isDir ret then Prog.pure ret else Prog.raise .parameterError
  else Prog.raise .parameterError

end Params
end Vista
