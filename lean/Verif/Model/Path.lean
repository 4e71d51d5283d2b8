import Verif.Model.PyStr

/-!
# `pathlib.Path` (standard library), on POSIX

Paths with NUL characters are not modelled (the operating system rejects them).
-/
namespace Vista

/-- A `Path`: its root (empty, `/` or `//`) and its parts. -/
structure PyPath where
  root : Str
  parts : List Str
  deriving DecidableEq, Repr

namespace PyPath

/-- The root of a path given as a string: exactly two leading slashes are kept, otherwise one or many are the same. -/
def rootOf : Str → Str
  | '/' :: '/' :: '/' :: _ => ['/']
  | '/' :: '/' :: _ => ['/', '/']
  | '/' :: _ => ['/']
  | _ => []

/-- `Path(s)` (standard library): empty parts and `.` are dropped, `..` is kept. -/
def parse (s : Str) : PyPath := ⟨rootOf s, (splitOn '/' s).filter fun w => decide (w ≠ [] ∧ w ≠ ['.'])⟩

/-- `str(path)` (standard library). -/
def render (p : PyPath) : Str :=
  if p.root = [] ∧ p.parts = [] then ['.'] else p.root ++ joinWith '/' p.parts

/-- `path / other` and `Path(path, other)` for another path (standard library): an absolute path on the right replaces the left. -/
def div (p q : PyPath) : PyPath := if q.root ≠ [] then q else ⟨p.root, p.parts ++ q.parts⟩

/-- `path.absolute()` (standard library); `cwd` is the current working directory. -/
def absolute (cwd p : PyPath) : PyPath := if p.root ≠ [] then p else ⟨cwd.root, cwd.parts ++ p.parts⟩

/-- `path.parent` (standard library). -/
def parent (p : PyPath) : PyPath := ⟨p.root, p.parts.dropLast⟩

end PyPath

/-- A place in the file system: the names on the way from the root directory, without `.` and `..`. -/
abbrev Loc := List Str

/-- One step of resolving `..`: back to the parent (of the root: the root). -/
def resolveStep (acc : Loc) (w : Str) : Loc := if w = ['.', '.'] then acc.dropLast else acc ++ [w]

/-- `Path.resolve(path)` (standard library), if there are no symbolic links: absolute, without `..`. -/
def PyPath.resolve (cwd p : PyPath) : Loc := (absolute cwd p).parts.foldl resolveStep []

/-- The `Path` of a place. -/
def Loc.toPath (l : Loc) : PyPath := ⟨['/'], l⟩

end Vista
