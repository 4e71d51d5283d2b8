import Verif.Model.DirStore
import Verif.Model.ZipLife

/-!
# Writing text that UTF-8 cannot encode

A Python string may have lone surrogates, `U+D800` to `U+DFFF` (as in the names of files that are not UTF-8); then `encode("utf-8")`
raises `UnicodeEncodeError`, a `ValueError`.  Elsewhere in the model strings have no surrogates (`Model/Bytes`).
-/
namespace Vista
namespace Surrogates

/-- A character of a Python string: one that Unicode has, or a surrogate. -/
inductive UChar
  | char (c : Char)
  | surrogate (n : Fin 2048)
  deriving DecidableEq

/-- A Python string. -/
abbrev UText := List UChar

/-- The string, if it has no surrogates. -/
def toStr : UText → Option Str
  | [] => some []
  | .char c :: rest => (toStr rest).map (c :: ·)
  | .surrogate _ :: _ => none

/-- `s.encode("utf-8")`. -/
def encode (t : UText) : Res Bytes :=
  match toStr t with
  | some s => .ok (encodeUtf8 s)
  | none => .error .valueError

/-- `out.write(text)` for several texts on an open text file (`_FileCharSink.open`, `io_utils.py:586-591`), up to the first that raises:
the characters in the file when it is closed, and the outcome.  `write` encodes its argument first (standard library), and adds nothing
if that raises. -/
def written : List UText → Str × Res Unit
  | [] => ([], .ok ())
  | t :: rest =>
    match toStr t with
    | some s => (s ++ (written rest).1, (written rest).2)
    | none => ([], .error .valueError)

/-- `with CharSink.to_file(path).open() as out: out.write(text); ...`, `io_utils.py:280-291, 586-591`.  Opening empties the file; here
that and the writing are one step, as in `writeBytesTo`. -/
def writeTexts (cwd : PyPath) (p : PyPath) (texts : List UText) : Prog Unit := do
  writeBytesTo cwd p (encodeUtf8 (written texts).1)
  Prog.ofRes (written texts).2

/-- `CharSink.to_file(path).write(data)`, `io_utils.py:302-310`. -/
def writeText (cwd : PyPath) (p : PyPath) (data : UText) : Prog Unit := writeTexts cwd p [data]

/-- `StringCharSink`, `io_utils.py:571-583`: a buffer takes any string. -/
def stringSink (texts : List UText) : UText := texts.flatten

/-- `_DirectoryCharKeyValueSink.put`, `key_value.py:405-408`: the sink afterwards, also if it raises, and the outcome. -/
def putText (cwd : PyPath) (s : DirSink) (key : Str) (value : UText) (fs : FS) : (DirSink × Res Unit) × FS :=
  let outFile := s.path.div (PyPath.parse key)
  match writeText cwd outFile value fs with
  | (.ok (), fs') => (({ s with idToFile := dictSet key outFile s.idToFile }, .ok ()), fs')
  | (.error e, fs') => ((s, .error e), fs')

/-- Calls of `put`, each in a `try` block: the outcomes. -/
def putTexts (cwd : PyPath) (s : DirSink) (calls : List (Str × UText)) (fs : FS) : (DirSink × List (Res Unit)) × FS :=
  match calls with
  | [] => ((s, []), fs)
  | (k, t) :: rest =>
    let r := putText cwd s k t fs
    let r' := putTexts cwd r.1.1 rest r.2
    ((r'.1.1, r.1.2 :: r'.1.2), r'.2)

/-- `with sink: try: sink.put(...) except ...: ...`, `key_value.py:410-417`: the outcomes of the calls of `put`. -/
def session (cwd : PyPath) (s : DirSink) (calls : List (Str × UText)) : Prog (List (Res Unit)) := fun fs =>
  match s.enter cwd fs with
  | (.error e, fs1) => (.error e, fs1)
  | (.ok s1, fs1) =>
    match putTexts cwd s1 calls fs1 with
    | ((s2, outcomes), fs2) =>
      match s2.exit cwd fs2 with
      | (.ok (), fs3) => (.ok outcomes, fs3)
      | (.error e, fs3) => (.error e, fs3)

/-- Calls of `put` up to the first that raises: the sink, and the outcome. -/
def putUntil (cwd : PyPath) (s : DirSink) (calls : List (Str × UText)) (fs : FS) : (DirSink × Res Unit) × FS :=
  match calls with
  | [] => ((s, .ok ()), fs)
  | (k, t) :: rest =>
    match putText cwd s k t fs with
    | ((s', .ok ()), fs') => putUntil cwd s' rest fs'
    | ((s', .error e), fs') => ((s', .error e), fs')

/-- `with sink: sink.put(...); ...`, `key_value.py:410-417`: an exception comes out of the block, after `__exit__`. -/
def sessionUntil (cwd : PyPath) (s : DirSink) (calls : List (Str × UText)) : Prog Unit := fun fs =>
  match s.enter cwd fs with
  | (.error e, fs1) => (.error e, fs1)
  | (.ok s1, fs1) =>
    match putUntil cwd s1 calls fs1 with
    | ((s2, outcome), fs2) =>
      match s2.exit cwd fs2 with
      | (.ok (), fs3) => (outcome, fs3)
      | (.error e, fs3) => (.error e, fs3)

/-- A string as the value of a zip sink's `put`, `key_value.py:477-489`: `writestr` encodes it first (standard library), so that with a
surrogate it is at that place the same as a value that is neither a string nor bytes: `ValueError`, and the archive does not change. -/
def zipValue (t : UText) : Zip.Value :=
  match toStr t with
  | some s => .str s
  | none => .other

/-- Methods of a zip sink called one after the other, each in a `try` block, `key_value.py:477-508`. -/
def callAll (disk : Zip.Disk) (s : Zip.Sink) : List Zip.Op → (Zip.Disk × Zip.Sink) × List (Res Unit)
  | [] => ((disk, s), [])
  | op :: ops =>
    let r := s.call disk op
    let r' := callAll r.1.1 r.1.2 ops
    (r'.1, r.2 :: r'.2)

/-- `with sink: try: sink.put(...) except ...: ...` -/
def zipSession (disk : Zip.Disk) (s : Zip.Sink) (calls : List (Str × UText)) : (Zip.Disk × Zip.Sink) × List (Res Unit) :=
  callAll disk s (.enter :: calls.map (fun e => .put e.1 (zipValue e.2)) ++ [.exit])

end Surrogates
end Vista
