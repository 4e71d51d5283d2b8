import Verif.Model.Text

/-!
# `vistautils/key_value.py`: sinks that write to a directory, and sources that read from a document map
-/
namespace Vista

/-- A `_DirectoryCharKeyValueSink` or `_DirectoryBytesKeyValueSink`: `key_value.py:400-403, 427-430`. -/
structure DirSink where
  path : PyPath
  idToFile : List (Str × PyPath)

namespace DirSink

/-- `__init__`, `key_value.py:401-403, 428-430`. -/
def new (path : PyPath) : DirSink := ⟨path, []⟩

/-- `path.rmdir()` (standard library): the operating system refuses a path that ends in `.` or `..`. -/
def rmdirPath (cwd : PyPath) (p : PyPath) : Prog Unit :=
  if p.parts = [] ∨ p.parts.getLast? = some ['.', '.'] then Prog.raise .ioError else rmdir (PyPath.resolve cwd p)

/-- `__enter__`, `key_value.py:410-414, 437-441`. -/
def enter (cwd : PyPath) (s : DirSink) : Prog DirSink := do
  rmdirPath cwd s.path
  mkdirs (PyPath.resolve cwd s.path)
  Prog.pure { s with idToFile := [] }

/-- `put`, `key_value.py:405-408, 432-435`; `b` are the bytes of the value (for text, its UTF-8 encoding). -/
def put (cwd : PyPath) (s : DirSink) (key : Str) (b : Bytes) : Prog DirSink := do
  let outFile := s.path.div (PyPath.parse key)
  writeBytesTo cwd outFile b
  Prog.pure { s with idToFile := dictSet key outFile s.idToFile }

/-- `__exit__`, `key_value.py:416-417, 443-444`. -/
def exit (cwd : PyPath) (s : DirSink) : Prog Unit :=
  writeTextTo cwd (s.path.div (PyPath.parse "_index".toList)) (docMapText cwd s.idToFile)

/-- See `puts`. -/
def putsAt (cwd : PyPath) (s : DirSink) (calls : List (Str × Bytes)) (fs : FS) : Res (DirSink × Option Exc) × FS :=
  match calls with
  | [] => (.ok (s, none), fs)
  | (k, b) :: rest =>
    match s.put cwd k b fs with
    | (.ok s', fs') => putsAt cwd s' rest fs'
    | (.error e, fs') => (.ok (s, some e), fs')

/-- Several calls of `put`, up to the first that raises; the sink afterwards and the exception. -/
def puts (cwd : PyPath) (s : DirSink) (calls : List (Str × Bytes)) : Prog (DirSink × Option Exc) := fun fs => putsAt cwd s calls fs

/-- `with sink: sink.put(...); ...`: the sink is left also if a `put` raises, and then the exception comes out. -/
def session (cwd : PyPath) (s : DirSink) (calls : List (Str × Bytes)) : Prog Unit := do
  let s1 ← s.enter cwd
  let (s2, e) ← puts cwd s1 calls
  s2.exit cwd
  match e with
  | some e => Prog.raise e
  | none => Prog.pure ()

end DirSink

/-- The files of the file system, by their paths. -/
def filesOf (cwd : PyPath) (fs : FS) : Files := fun s => (readData (PyPath.resolve cwd (PyPath.parse s)) fs).1

/-- `KeyValueSource.from_doc_id_to_file_map` and `binary_from_doc_id_to_file_map`, `key_value.py:319-336`, for the path of a map file:
the mapping read from it. -/
def docMapEntries (cwd : PyPath) (mapFile : PyPath) : Prog (List (Str × Str)) := do
  let m ← readDocMap (fileSource (PyPath.resolve cwd mapFile))
  Prog.pure (m.map fun e => (e.1, e.2.render))

/-- The source made of the mapping, `key_value.py:319-336`; `fs` is the file system at the time of a lookup. -/
def docMapSource {V : Type} (read : Files → Str → Res V) (cwd : PyPath) (m : List (Str × Str)) (fs : FS) : KVSource V :=
  pathMapping (read (filesOf cwd fs)) m

end Vista
