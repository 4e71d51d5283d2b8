import Verif.Model.DirStore

/-!
# Directory sinks when the operating system fails

The disk is full, say: `mkdir`, `open` or `write` raises `OSError`, and what was done before stays.
-/
namespace Vista
namespace WriteFaults

/-- What fails during the writing of a file: nothing; the making of the directories above it, after those of the first `n` names of the
path; the opening of the file; or the writing, when the first `n` bytes are in the file. -/
inductive Fault
  | none
  | mkdir (n : Nat)
  | open
  | write (n : Nat)

/-- `CharSink.to_file(path).write(data)` and `ByteSink.to_file(path).write(data)`, `io_utils.py:280-310, 437-455, 586-599`, with a fault
(see `writeBytesTo`). -/
def writeFaulty (cwd : PyPath) (p : PyPath) (b : Bytes) : Fault → Prog Unit
  | .none => writeBytesTo cwd p b
  | .mkdir n => do
    mkdirs ((PyPath.resolve cwd p.parent).take n)
    Prog.raise .ioError
  | .open => do
    mkdirs (PyPath.resolve cwd p.parent)
    Prog.raise .ioError
  | .write n => do
    writeBytesTo cwd p (b.extract 0 n)
    Prog.raise .ioError

/-- A call `sink.put(key, value)`; `value` are the bytes of the value. -/
structure Call where
  key : Str
  value : Bytes
  fault : Fault

/-- `put`, `key_value.py:405-408, 432-435`: the sink afterwards, also if it raises, and the outcome. -/
def put (cwd : PyPath) (s : DirSink) (c : Call) (fs : FS) : (DirSink × Res Unit) × FS :=
  let outFile := s.path.div (PyPath.parse c.key)
  match writeFaulty cwd outFile c.value c.fault fs with
  | (.ok (), fs') => (({ s with idToFile := dictSet c.key outFile s.idToFile }, .ok ()), fs')
  | (.error e, fs') => ((s, .error e), fs')

/-- Calls of `put`, each in a `try` block: the outcomes. -/
def puts (cwd : PyPath) (s : DirSink) (calls : List Call) (fs : FS) : (DirSink × List (Res Unit)) × FS :=
  match calls with
  | [] => ((s, []), fs)
  | c :: rest =>
    let r := put cwd s c fs
    let r' := puts cwd r.1.1 rest r.2
    ((r'.1.1, r.1.2 :: r'.1.2), r'.2)

/-- `with sink: try: sink.put(...) except ...: ...`, `key_value.py:410-417, 437-444`: the outcomes of the calls of `put`.  (Nothing fails
when the sink is entered and left.) -/
def session (cwd : PyPath) (s : DirSink) (calls : List Call) : Prog (List (Res Unit)) := fun fs =>
  match s.enter cwd fs with
  | (.error e, fs1) => (.error e, fs1)
  | (.ok s1, fs1) =>
    match puts cwd s1 calls fs1 with
    | ((s2, outcomes), fs2) =>
      match s2.exit cwd fs2 with
      | (.ok (), fs3) => (.ok outcomes, fs3)
      | (.error e, fs3) => (.error e, fs3)

/-- Calls of `put` up to the first that raises: the sink, and the outcome. -/
def putsUntil (cwd : PyPath) (s : DirSink) (calls : List Call) (fs : FS) : (DirSink × Res Unit) × FS :=
  match calls with
  | [] => ((s, .ok ()), fs)
  | c :: rest =>
    match put cwd s c fs with
    | ((s', .ok ()), fs') => putsUntil cwd s' rest fs'
    | ((s', .error e), fs') => ((s', .error e), fs')

/-- `with sink: sink.put(...); ...`, `key_value.py:410-417, 437-444`: an exception comes out of the block, after `__exit__`. -/
def sessionUntil (cwd : PyPath) (s : DirSink) (calls : List Call) : Prog Unit := fun fs =>
  match s.enter cwd fs with
  | (.error e, fs1) => (.error e, fs1)
  | (.ok s1, fs1) =>
    match putsUntil cwd s1 calls fs1 with
    | ((s2, outcome), fs2) =>
      match s2.exit cwd fs2 with
      | (.ok (), fs3) => (outcome, fs3)
      | (.error e, fs3) => (.error e, fs3)

end WriteFaults
end Vista
