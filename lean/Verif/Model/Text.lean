import Verif.Model.FileSystem
import Verif.Model.KeyValue
import Verif.Model.PyList

/-!
# `vistautils/io_utils.py`: text, sources and sinks
-/
namespace Vista

/-! ## Python string functions -/

/-- `c.isspace()` (standard library). -/
def isSpace (c : Char) : Bool :=
  let n := c.toNat
  (decide (9 ≤ n) && decide (n ≤ 13)) || (decide (28 ≤ n) && decide (n ≤ 32)) || n == 0x85 || n == 0xA0 || n == 0x1680 ||
  (decide (0x2000 ≤ n) && decide (n ≤ 0x200A)) || n == 0x2028 || n == 0x2029 || n == 0x202F || n == 0x205F || n == 0x3000

/-- `s.strip()` (standard library). -/
def strip (s : Str) : Str := ((s.dropWhile isSpace).reverse.dropWhile isSpace).reverse

/-- `s.rstrip("\n")` (standard library). -/
def rstripNewline (s : Str) : Str := (s.reverse.dropWhile (· == '\n')).reverse

/-- The lines a text file yields when it is iterated over (standard library; after the translation of line ends, if any): each ends
with its line feed, except perhaps the last. -/
def textLines : Str → List Str
  | [] => []
  | c :: rest =>
    if c = '\n' then ['\n'] :: textLines rest
    else
      match textLines rest with
      | [] => [[c]]
      | l :: ls => (c :: l) :: ls

/-- `a <= b` for strings: by code points. -/
def strLe : Str → Str → Bool
  | [], _ => true
  | _ :: _, [] => false
  | a :: as, b :: bs => if a = b then strLe as bs else decide (a.toNat < b.toNat)

/-! ## Sources

A `CharSource` or `ByteSource` is modelled by what reading it gives. -/

/-- What `CharSource.open` gives: the text (after any translation of line ends), or the exception. -/
abbrev TextSource := Prog Str

/-- `CharSource.from_string(s)`, `io_utils.py:98-103, 166-174`: no translation of line ends. -/
def stringSource (s : Str) : TextSource := Prog.pure s

/-- `_StringCharSource.__repr__`, `io_utils.py:176-181`. -/
def stringSourceRepr (s : Str) : Str :=
  let shown := if s.length > 100 then s.take 100 ++ "...".toList else s
  "_StringCharSource(".toList ++ shown ++ [')']

/-- `CharSource.from_nowhere()`, `io_utils.py:91-96`. -/
def nowhereSource : TextSource := stringSource []

/-- Text read from bytes with translation of line ends: `open(..., "r", encoding="utf-8")`, `io.TextIOWrapper`, `gzip.open(..., "rt")`.
(The whole text is decoded at once.) -/
def translatedText (b : Bytes) : Res Str := do
  let s ← decodeUtf8 b
  .ok (universalNewlines s)

/-- `CharSource.from_file(path)`, `io_utils.py:116-123, 184-192`. -/
def fileSource (l : Loc) : TextSource := do
  let b ← readData l
  Prog.ofRes (translatedText b)

/-- `CharSource.from_byte_source(source)`, `io_utils.py:105-114, 195-201`. -/
def wrappingSource (bytes : Prog Bytes) : TextSource := do
  let b ← bytes
  Prog.ofRes (translatedText b)

/-- `CharSource.read_all`, `io_utils.py:68-73`. -/
def readAll (src : TextSource) : Prog Str := src

/-- `CharSource.readlines`, `io_utils.py:75-82`. -/
def readlines (src : TextSource) : Prog (List Str) := do
  let s ← src
  Prog.pure ((textLines s).map rstripNewline)

/-- `CharSource.is_empty`, `io_utils.py:84-89`; `_StringCharSource` has its own (`173-174`), which says the same. -/
def isEmptySource (src : TextSource) : Prog Bool := do
  let s ← src
  Prog.pure (s.take 1 == [])

/-- `_FileCharSource.is_empty`, `io_utils.py:191-192`; and that of `ByteSource.from_file(path)`, `338-343, 369-370`, whose content is
`readData`. -/
def isEmptyFile (l : Loc) : Prog Bool := do
  let b ← readData l
  Prog.pure (b.size == 0)

/-- `ByteSource.from_file_in_zip(path, name)`, `io_utils.py:345-359, 373-392`: `KeyError` if there is no such entry. -/
def zipEntrySource (l : Loc) (name : Str) : Prog Bytes := do
  match ← readFile l with
  | .zip a => Prog.ofRes (Zip.readEntry a name)
  | .data _ => Prog.raise .other

/-- `CharSource.from_gzipped_file(path)`, `io_utils.py:125-134, 204-210`; `gunzip` is the standard library's decompression. -/
def gzipSource (gunzip : Bytes → Res Bytes) (l : Loc) : TextSource := do
  let b ← readData l
  let d ← Prog.ofRes (gunzip b)
  Prog.ofRes (translatedText d)

/-- `CharSource.from_file_in_tgz(path, name)`, `io_utils.py:136-146, 218-248`; `extract` is what the standard library extracts from the
archive (`None` for a member that is not a file).  No translation of line ends. -/
def tgzSource (extract : Prog (Option Bytes)) : TextSource := do
  match ← extract with
  | some b => Prog.ofRes (decodeUtf8 b)
  | none => Prog.raise .ioError

/-- `_GZipFileSource.is_empty`, `io_utils.py:212-215`; `gunzipFirst` is the standard library's decompression of at most one byte. -/
def isEmptyGzip (gunzipFirst : Bytes → Res Bytes) (l : Loc) : Prog Bool := do
  let b ← readData l
  let d ← Prog.ofRes (gunzipFirst b)
  Prog.pure (d.size == 0)

/-- `_FileWithinTgzCharSource.is_empty`, `io_utils.py:246-248`; `size` is the size the archive states for the member. -/
def isEmptyTgz (size : Prog Nat) : Prog Bool := do
  let n ← size
  Prog.pure (n == 0)

/-- `CharSource.from_file_in_zip(path, name)`, `io_utils.py:148-163`. -/
def zipTextSource (l : Loc) (name : Str) : TextSource := wrappingSource (zipEntrySource l name)

/-- `ByteSource.from_file_in_zip(zip_file, name)` for a `ZipFile` opened for reading, `io_utils.py:345-359, 395-402`: its entries are
those it had when it was opened.  Reading a closed archive is a `ValueError`. -/
def openZipSource (archive : Zip.Archive) (isOpen : Bool) (name : Str) : Prog Bytes :=
  if isOpen then Prog.ofRes (Zip.readEntry archive name) else Prog.raise .valueError

/-- `file_lines_to_set`, `io_utils.py:645-655`. -/
def fileLinesToSet (l : Loc) : Prog (List Str) := do
  let s ← fileSource l
  Prog.pure (distinct ((splitOn '\n' s).filter fun line => decide (line ≠ [])))

/-! ## Sinks -/

/-- `CharSink.to_file(path).write(data)`, `io_utils.py:280-291, 302-310, 586-591`; and `ByteSink.to_file(path).write(data)`, `437-445,
447-455, 594-599`, for the bytes themselves. -/
def writeBytesTo (cwd : PyPath) (p : PyPath) (b : Bytes) : Prog Unit := do
  mkdirs (PyPath.resolve cwd p.parent)
  writeFile (PyPath.resolve cwd p) (.data b)

/-- See `writeBytesTo`. -/
def writeTextTo (cwd : PyPath) (p : PyPath) (s : Str) : Prog Unit := writeBytesTo cwd p (encodeUtf8 s)

/-- `ByteSink.file_in_zip(path, name).write(data)`, `io_utils.py:422-427, 447-455, 602-621`: the archive is created if need be, and the
entry added. -/
def writeZipEntry (l : Loc) (name : Str) (b : Bytes) : Prog Unit := do
  let fs ← Prog.get
  match fs.node l with
  | some (.file (.zip a)) => writeFile l (.zip (Zip.writestr a name b))
  | some (.file (.data _)) => Prog.raise .other
  | _ => writeFile l (.zip (Zip.writestr [] name b))

/-- A buffer opened on a `StringCharSink` or `BufferByteSink`: what has been written to it so far, and whether it is still open. -/
structure Buffer (β : Type) where
  content : β
  isOpen : Bool

/-- A `StringCharSink` (`io_utils.py:565-583`) or `BufferByteSink` (`429-436, 624-642`): `last_..._written`, and the buffers that have been
opened on it, in order. -/
structure MemSink (β : Type) where
  last : Option β
  buffers : List (Buffer β)

/-- What can be done with such a sink: open a buffer, write to the `i`-th buffer, leave its `with` block, or close it without one. -/
inductive MemOp (β : Type)
  | openBuffer
  | write (i : Nat) (x : β)
  | leave (i : Nat)
  | close (i : Nat)

/-- `__init__`, `io_utils.py:572-573, 631-632`. -/
def MemSink.new {β : Type} : MemSink β := ⟨none, []⟩

/-- One operation: `io_utils.py:565-583, 634-642`.  Using a closed buffer is a `ValueError`. -/
def MemSink.step {β : Type} [Append β] (empty : β) (s : MemSink β) : MemOp β → MemSink β × Res Unit
  | .openBuffer => ({ s with buffers := s.buffers ++ [⟨empty, true⟩] }, .ok ())
  | .write i x =>
    match s.buffers[i]? with
    | some b =>
      if b.isOpen then ({ s with buffers := s.buffers.set i { b with content := b.content ++ x } }, .ok ())
      else (s, .error .valueError)
    | none => (s, .error .indexError)
  | .leave i =>
    match s.buffers[i]? with
    | some b =>
      if b.isOpen then ({ last := some b.content, buffers := s.buffers.set i { b with isOpen := false } }, .ok ())
      else (s, .error .valueError)
    | none => (s, .error .indexError)
  | .close i =>
    match s.buffers[i]? with
    | some b => ({ s with buffers := s.buffers.set i { b with isOpen := false } }, .ok ())
    | none => (s, .error .indexError)

/-- A history of operations. -/
def MemSink.run {β : Type} [Append β] (empty : β) (s : MemSink β) (ops : List (MemOp β)) : MemSink β :=
  ops.foldl (fun s op => (s.step empty op).1) s

/-! ## Maps from document ids to files -/

/-- The line written for an id, `io_utils.py:666-668`. -/
def docMapLine (cwd : PyPath) (m : List (Str × PyPath)) (id : Str) : Str :=
  match dictGet m id with
  | some p => id ++ '\t' :: (PyPath.absolute cwd p).render ++ ['\n']
  | none => []

/-- `write_doc_id_to_file_map`, `io_utils.py:658-668`: the text it writes.  The mapping's keys are strings. -/
def docMapText (cwd : PyPath) (m : List (Str × PyPath)) : Str := ((stableSort strLe (m.map (·.1))).map (docMapLine cwd m)).flatten

/-- `read_doc_id_to_file_map`, `io_utils.py:676-686`: the loop over the lines. -/
def docMapItems : List Str → Res (List (Str × PyPath))
  | [] => .ok []
  | line :: rest =>
    if line ≠ [] then
      match splitOn '\t' line with
      | [a, b] => do
        let items ← docMapItems rest
        .ok ((strip a, PyPath.parse (strip b)) :: items)
      | _ => .error .ioError
    else docMapItems rest

/-- `read_doc_id_to_file_map`, `io_utils.py:671-686`. -/
def readDocMap (src : TextSource) : Prog (List (Str × PyPath)) := do
  let s ← src
  let items ← Prog.ofRes (docMapItems (textLines s))
  Prog.pure (dictOf items)

end Vista
