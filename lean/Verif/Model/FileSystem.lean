import Verif.Model.Path
import Verif.Model.PyDict
import Verif.Model.Zip

/-!
# The file system

A tree of directories and files, used by one process at a time; no symbolic links, permissions, name length limits, special files,
or running out of space.  Paths given to the operating system are taken by their resolved form (`PyPath.resolve`): for a path
with `..` the operating system would insist that the directories before `..` exist.
-/
namespace Vista

/-- The content of a file: bytes, or a zip archive (whose bytes are not modelled). -/
inductive Content
  | data (b : Bytes)
  | zip (a : Zip.Archive)

/-- What there is at a place. -/
inductive Node
  | dir
  | file (c : Content)

/-- The file system: what there is at which place.  The root directory is not listed. -/
abbrev FS := List (Loc × Node)

namespace FS

/-- What there is at a place. -/
def node (fs : FS) (p : Loc) : Option Node := if p = [] then some .dir else dictGet fs p

/-- `Path.is_dir()` (standard library). -/
def isDir (fs : FS) (p : Loc) : Bool := match fs.node p with | some .dir => true | _ => false

/-- `Path.is_file()` (standard library). -/
def isFile (fs : FS) (p : Loc) : Bool := match fs.node p with | some (.file _) => true | _ => false

/-- `Path.exists()` (standard library). -/
def exists' (fs : FS) (p : Loc) : Bool := (fs.node p).isSome

/-- Puts something at a place. -/
def set (fs : FS) (p : Loc) (n : Node) : FS := dictSet p n fs

/-- Removes a place and everything below. -/
def eraseTree (fs : FS) (p : Loc) : FS := fs.filter fun e => !p.isPrefixOf e.1

/-- `is_empty_directory`, `io_utils.py:35-40`. -/
def isEmptyDirectory (fs : FS) (p : Loc) : Bool :=
  fs.isDir p && !(fs.any fun e => decide (e.1 ≠ []) && decide (e.1.dropLast = p))

end FS

/-- The errors of the operating system that `pathlib` tells apart; all are `OSError`s. -/
inductive Errno
  | noent | exist | notdir | isdir | notempty | busy
  deriving DecidableEq

/-- The operating system following a path: every directory on the way must exist and be a directory. -/
def FS.walk (fs : FS) : Loc → List Str → Except Errno Unit
  | _, [] => .ok ()
  | before, n :: rest =>
    match fs.node (before ++ [n]) with
    | none => .error .noent
    | some (.file _) => .error .notdir
    | some .dir => fs.walk (before ++ [n]) rest

/-- The system call `mkdir`. -/
def FS.mkdir (fs : FS) (p : Loc) : Except Errno FS :=
  if p = [] then .error .exist
  else
    match fs.walk [] p.dropLast with
    | .error e => .error e
    | .ok _ =>
      match fs.node p with
      | some _ => .error .exist
      | none => .ok (fs.set p .dir)

/-- A program with the file system as its state: the state is kept when an exception is raised. -/
def Prog (α : Type) : Type := FS → Res α × FS

namespace Prog

/-- Returning a value. -/
def pure {α : Type} (a : α) : Prog α := fun fs => (.ok a, fs)

/-- One after the other, unless the first raises. -/
def bind {α β : Type} (x : Prog α) (f : α → Prog β) : Prog β := fun fs =>
  match x fs with
  | (.ok a, fs') => f a fs'
  | (.error e, fs') => (.error e, fs')

instance : Monad Prog where
  pure := Prog.pure
  bind := Prog.bind

/-- A computation that does not touch the file system. -/
def ofRes {α : Type} (r : Res α) : Prog α := fun fs => (r, fs)

/-- Reading the state. -/
def get : Prog FS := fun fs => (.ok fs, fs)

/-- `raise`. -/
def raise {α : Type} (e : Exc) : Prog α := fun fs => (.error e, fs)

/-- A system call that may change the file system. -/
def call (f : FS → Except Errno FS) : Prog Unit := fun fs =>
  match f fs with
  | .ok fs' => (.ok (), fs')
  | .error _ => (.error .ioError, fs)

end Prog

/-- `Path.mkdir(parents=True, exist_ok=True)` (standard library). -/
def mkdirsAt (p : Loc) (fs : FS) : Res Unit × FS :=
  match fs.mkdir p with
  | .ok fs' => (.ok (), fs')
  | .error .noent =>
    if h : p = [] then (.error .ioError, fs)
    else
      have : p.dropLast.length < p.length := by
        cases p with
        | nil => exact absurd rfl h
        | cons a l => simp
      match mkdirsAt p.dropLast fs with
      | (.error e, fs') => (.error e, fs')
      | (.ok _, fs') =>
        match fs'.mkdir p with
        | .ok fs'' => (.ok (), fs'')
        | .error _ => if fs'.isDir p then (.ok (), fs') else (.error .ioError, fs')
  | .error _ => if fs.isDir p then (.ok (), fs) else (.error .ioError, fs)
termination_by p.length

/-- See `mkdirsAt`. -/
def mkdirs (p : Loc) : Prog Unit := fun fs => mkdirsAt p fs

/-- `shutil.rmtree(path)` (standard library); the root directory itself cannot be removed. -/
def rmtree (p : Loc) : Prog Unit := fun fs =>
  if fs.isDir p then
    if p = [] then (.error .ioError, []) else (.ok (), fs.eraseTree p)
  else (.error .ioError, fs)

/-- `Path.rmdir()` (standard library). -/
def rmdir (p : Loc) : Prog Unit := Prog.call fun fs =>
  if p = [] then .error .busy
  else
    match fs.node p with
    | none => .error .noent
    | some (.file _) => .error .notdir
    | some .dir => if fs.isEmptyDirectory p then .ok (fs.eraseTree p) else .error .notempty

/-- Opening a file for writing (an existing one is replaced), writing the content, and closing it. -/
def writeFile (p : Loc) (c : Content) : Prog Unit := Prog.call fun fs =>
  if p = [] then .error .isdir
  else
    match fs.walk [] p.dropLast with
    | .error e => .error e
    | .ok _ =>
      match fs.node p with
      | some .dir => .error .isdir
      | _ => .ok (fs.set p (.file c))

/-- Opening a file for reading, and its content. -/
def readFile (p : Loc) : Prog Content := fun fs =>
  match fs.node p with
  | some (.file c) => (.ok c, fs)
  | _ => (.error .ioError, fs)

/-- Reading a file as bytes.  (The bytes of a zip archive are not modelled.) -/
def readData (p : Loc) : Prog Bytes := do
  match ← readFile p with
  | .data b => Prog.pure b
  | .zip _ => Prog.raise .other

/-- `Path.touch(exist_ok=True)` (standard library). -/
def touch (p : Loc) : Prog Unit := Prog.call fun fs =>
  match fs.node p with
  | some _ => .ok fs
  | none =>
    match fs.walk [] p.dropLast with
    | .error e => .error e
    | .ok _ => .ok (fs.set p (.file (.data (encodeUtf8 []))))

end Vista
