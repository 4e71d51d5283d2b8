import Verif.Model.FileSystem

/-!
# `vistautils/checkpoints.py`

A name that is not a string is `none` here.  Paths are resolved against `cwd` at every use (the current working directory does not
change).
-/
namespace Vista
namespace Checkpoints

/-- Removing everything below a directory, but not the directory, and then failing. -/
def emptied (l : Loc) : Prog Unit := fun fs => (.error .ioError, fs.filter fun e => !(l.isPrefixOf e.1 && decide (l ≠ e.1)))

/-- `shutil.rmtree(path)` (standard library): a path that ends in `.` or `..` is emptied, but then cannot be removed. -/
def rmtreePath (cwd : PyPath) (p : PyPath) : Prog Unit :=
  if p.parts = [] ∨ p.parts.getLast? = some ['.', '.'] then emptied (PyPath.resolve cwd p)
  else rmtree (PyPath.resolve cwd p)

/-- `Checkpoints.from_directory`, `checkpoints.py:28-39`; the object is its directory. -/
def fromDirectory (cwd directory : PyPath) : Prog PyPath := do
  mkdirs (PyPath.resolve cwd directory)
  Prog.pure directory

/-- `check_isinstance(name, str)`. -/
def checkStr (name : Option Str) : Res Str :=
  match name with
  | some s => .ok s
  | none => .error .typeError

/-- `_CheckPointDirectory.set`, `checkpoints.py:53-55`. -/
def set (cwd directory : PyPath) (name : Option Str) : Prog Unit := do
  let n ← Prog.ofRes (checkStr name)
  touch (PyPath.resolve cwd (directory.div (PyPath.parse n)))

/-- `_CheckPointDirectory.__contains__`, `checkpoints.py:57-59`. -/
def contains (cwd directory : PyPath) (name : Option Str) : Prog Bool := do
  let n ← Prog.ofRes (checkStr name)
  let fs ← Prog.get
  Prog.pure (fs.isFile (PyPath.resolve cwd (directory.div (PyPath.parse n))))

/-- `_CheckPointDirectory.reset_all`, `checkpoints.py:61-63`. -/
def resetAll (cwd directory : PyPath) : Prog Unit := do
  rmtreePath cwd directory
  mkdirs (PyPath.resolve cwd directory)

/-- What can be done with checkpoints. -/
inductive Op
  | set (name : Str)
  | reset
  deriving DecidableEq

/-- One operation. -/
def apply (cwd directory : PyPath) : Op → Prog Unit
  | .set n => set cwd directory (some n)
  | .reset => resetAll cwd directory

/-- A history of operations, up to the first that raises. -/
def run (cwd directory : PyPath) : List Op → Prog Unit
  | [] => Prog.pure ()
  | op :: ops => do
    apply cwd directory op
    run cwd directory ops

end Checkpoints
end Vista
