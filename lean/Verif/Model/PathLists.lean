import Verif.Model.ParamsFiles
import Verif.Model.Text

/-!
# `vistautils/parameters.py`: lists and maps of paths kept in files
-/
namespace Vista

/-- The characters at which `str.splitlines` breaks a string (standard library). -/
def isLineBreak (c : Char) : Bool :=
  let n := c.toNat
  (decide (10 ≤ n) && decide (n ≤ 13)) || (decide (28 ≤ n) && decide (n ≤ 30)) || n == 0x85 || n == 0x2028 || n == 0x2029

/-- `s.splitlines()` (standard library): a carriage return and the line feed after it are one break. -/
def splitlines : Str → List Str
  | [] => []
  | '\r' :: '\n' :: rest => [] :: splitlines rest
  | c :: rest =>
    if isLineBreak c then [] :: splitlines rest
    else
      match splitlines rest with
      | [] => [[c]]
      | l :: ls => (c :: l) :: ls

namespace Params

/-- `resolve_relative_to / s if resolve_relative_to else Path(s)`, `parameters.py:1205-1207, 1246-1250` (a `Path` is always true). -/
def relPath (rel : Option PyPath) (s : Str) : PyPath :=
  match rel with
  | some r => r.div (PyPath.parse s)
  | none => PyPath.parse s

/-- The lines of a path list that count, stripped: `parameters.py:1195-1199`. -/
def pathLines (text : Str) : List Str :=
  ((splitlines text).map strip).filter fun t => decide (t ≠ [] ∧ t.head? ≠ some '#')

/-- An element of a list given as the parameter itself, `parameters.py:1204-1209`: only a string can be stripped and made a path (`bytes`
can be stripped, but not made a path). -/
def pathElement (rel : Option PyPath) : PVal → Res PyPath
  | .str s => .ok (relPath rel (strip s))
  | .bytes _ => .error .typeError
  | _ => .error .attributeError

/-- The generator in `parameters.py:1204-1209`. -/
def pathElements (rel : Option PyPath) : List PVal → Res (List PyPath)
  | [] => .ok []
  | v :: vs => do
    let p ← pathElement rel v
    let ps ← pathElements rel vs
    .ok (p :: ps)

/-- `Parameters.path_list_from_file`, `parameters.py:1174-1216`. -/
def pathListFromFile (cwd : PyPath) (p : Params) (param : Str) (rel : Option PyPath := Option.none) : Prog (List PyPath) := do
  match ← Prog.ofRes (p.privateGet param false .none) with
  | .str _ => do
    let l ← p.existingFile cwd param
    let text ← fileSource l
    Prog.pure ((pathLines text).map fun s => relPath rel (strip s))
  | _ => do
    match ← Prog.ofRes (p.arbitraryList param) with
    | .list vs => Prog.ofRes (pathElements rel vs)
    | _ => Prog.raise .typeError

/-- The loop of `path_map_from_file`, `parameters.py:1236-1257`: any exception in a line becomes an `IOError`. -/
def pathMapItems (rel : Option PyPath) : List Str → Res (List (Str × PyPath))
  | [] => .ok []
  | line :: rest =>
    match splitOn '\t' line with
    | [a, b] => do
      let items ← pathMapItems rel rest
      .ok ((strip a, relPath rel (strip b)) :: items)
    | _ => .error .ioError

/-- `Parameters.path_map_from_file`, `parameters.py:1218-1262`. -/
def pathMapFromFile (cwd : PyPath) (p : Params) (param : Str) (rel : Option PyPath := Option.none) : Prog (List (Str × PyPath)) := do
  let l ← p.existingFile cwd param
  let s ← fileSource l
  let items ← Prog.ofRes (pathMapItems rel (textLines s))
  Prog.pure (dictOf items)

/-- `Parameters.pickled_object_from_file`, `parameters.py:1264-1270`; `unpickle` is the standard library's `pickle.load`. -/
def pickledObjectFromFile {α : Type} (unpickle : Bytes → Res α) (cwd : PyPath) (p : Params) (param : Str) : Prog α := do
  let l ← p.existingFile cwd param
  let b ← readData l
  Prog.ofRes (unpickle b)

end Params
end Vista
