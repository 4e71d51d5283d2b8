import Verif.Model.Text

/-!
# Programs that write to a character sink: `vistautils/io_utils.py:253-310, 459-591`

A block `with sink.open() as out: ...` is a program that calls methods of the file-like object `out` and decides what to do next by
what they return or raise.
-/
namespace Vista
namespace SinkBlocks

/-- The methods and attributes of `typing.TextIO`.  The lines given to `writelines` come from an iterator, which may raise. -/
inductive FileOp
  | write (s : Str)
  | writelines (lines : Gen Str)
  | flush | close | closed | isatty | writable | seekable
  | name | mode | encoding | errors | lineBuffering | newlines | fileno | tell
  | buffer | read | readable | readline | readlines | seek (offset : Nat) | truncate | next | iter

/-- What a call returns: `None`, a number, a truth value, a string, or a bound method (what `out.closed` is, if `closed` is a method). -/
inductive Reply
  | none
  | int (n : Nat)
  | bool (b : Bool)
  | str (s : Str)
  | method

/-- The body of a block: it ends (returning something or raising), or calls a method and goes on, or not, with what it returned or
raised. -/
inductive Client (α : Type)
  | result (r : Res α)
  | call (op : FileOp) (next : Res Reply → Client α)

/-- Running a body on a file-like object. -/
def run {α σ : Type} (step : σ → FileOp → σ × Res Reply) : Client α → σ → σ × Res α
  | .result r, s => (s, r)
  | .call op next, s => run step (next (step s op).2) (step s op).1

/-- `_NullCharSink.NullFileLike`, `io_utils.py:467-560`; it has no state.  `closed` is a method here, not a property (`479-480`), and
`write`, `fileno` and `tell` return `None`. -/
def nullReply : FileOp → Res Reply
  | .write _ | .writelines _ | .flush | .close | .fileno | .tell => .ok .none
  | .closed => .ok .method
  | .isatty => .ok (.bool false)
  | .writable => .ok (.bool true)
  | .seekable => .ok (.bool false)
  | .name => .ok (.str "NullCharSink".toList)
  | .mode => .ok (.str "w".toList)
  | .encoding => .ok (.str "utf-8".toList)
  | .errors => .ok .none
  | .lineBuffering => .ok (.bool false)
  | .newlines => .ok (.str "\n".toList)
  | .buffer | .read | .readable | .readline | .readlines | .seek _ | .truncate | .next | .iter => .error .notImplementedError

/-- `with CharSink.to_nowhere().open() as out:` and the body, `io_utils.py:273-278, 464-469, 553-560`: `__exit__` returns `None`, so that
an exception of the body goes on. -/
def nowhereBlock {α : Type} (body : Client α) : Res α :=
  (run (fun (_ : Unit) op => ((), nullReply op)) body ()).2

/-- The methods of a buffer in memory or an open file (standard library) other than those modelled below: anything. -/
abbrev Others (σ : Type) := σ → FileOp → σ × Res Reply

/-- Writing the lines one by one to the `i`-th buffer of a sink. -/
def writeLines (i : Nat) : List Str → MemSink Str → MemSink Str × Res Unit
  | [], s => (s, .ok ())
  | l :: ls, s =>
    match s.step [] (.write i l) with
    | (s', .ok ()) => writeLines i ls s'
    | (s', .error e) => (s', .error e)

/-- Whether the `i`-th buffer is open. -/
def bufferOpen (i : Nat) (s : MemSink Str) : Bool :=
  match s.buffers[i]? with
  | some b => b.isOpen
  | none => false

/-- A method of the `i`-th buffer of a `StringCharSink`, `io_utils.py:575-583`, which is an `io.StringIO` (standard library). -/
def stringStep (others : Others (MemSink Str)) (i : Nat) (s : MemSink Str) : FileOp → MemSink Str × Res Reply
  | .write x => ((s.step [] (.write i x)).1, (s.step [] (.write i x)).2.map fun _ => .int x.length)
  | .writelines g =>
    match writeLines i g.yielded s with
    | (s', .ok ()) => (s', match g.raised with | none => .ok .none | some e => .error e)
    | (s', .error e) => (s', .error e)
  | .flush => (s, if bufferOpen i s then .ok .none else .error .valueError)
  | .close => ((s.step [] (.close i)).1, .ok .none)
  | .closed => (s, .ok (.bool !(bufferOpen i s)))
  | .isatty => (s, if bufferOpen i s then .ok (.bool false) else .error .valueError)
  | .writable => (s, if bufferOpen i s then .ok (.bool true) else .error .valueError)
  | op => others s op

/-- `with sink.open() as out:` for a `StringCharSink` (`CharSink.to_string()`, `io_utils.py:293-300`), and the body.  If leaving the
block raises, that exception replaces the one of the body. -/
def stringBlock {α : Type} (others : Others (MemSink Str)) (body : Client α) (sink : MemSink Str) : MemSink Str × Res α :=
  let i := sink.buffers.length
  let (s, r) := run (stringStep others i) body (sink.step [] .openBuffer).1
  match s.step [] (.leave i) with
  | (s', .ok ()) => (s', r)
  | (s', .error e) => (s', .error e)

/-- A method of a text file opened for writing (standard library).  The text is encoded when the file is closed at the latest; here,
then. -/
def fileStep (others : Others (Buffer Str)) (b : Buffer Str) : FileOp → Buffer Str × Res Reply
  | .write x => if b.isOpen then ({ b with content := b.content ++ x }, .ok (.int x.length)) else (b, .error .valueError)
  | .writelines g =>
    if b.isOpen then ({ b with content := b.content ++ g.yielded.flatten }, match g.raised with | none => .ok .none | some e => .error e)
    else (b, .error .valueError)
  | .flush => (b, if b.isOpen then .ok .none else .error .valueError)
  | .close => ({ b with isOpen := false }, .ok .none)
  | .closed => (b, .ok (.bool !b.isOpen))
  | .isatty => (b, if b.isOpen then .ok (.bool false) else .error .valueError)
  | .writable => (b, if b.isOpen then .ok (.bool true) else .error .valueError)
  | op => others b op

/-- `with CharSink.to_file(p).open() as out:` and the body, `io_utils.py:280-291, 586-591`.  The body does not touch the file system
otherwise. -/
def fileBlock {α : Type} (others : Others (Buffer Str)) (cwd p : PyPath) (body : Client α) : Prog α := do
  mkdirs (PyPath.resolve cwd p.parent)
  writeFile (PyPath.resolve cwd p) (.data (encodeUtf8 []))
  let (b, r) := run (fileStep others) body ⟨[], true⟩
  writeFile (PyPath.resolve cwd p) (.data (encodeUtf8 b.content))
  Prog.ofRes r

/-- The body of `CharSink.write(data)`, `io_utils.py:302-310`. -/
def writeBody (data : Str) : Client Unit := .call (.write data) fun
  | .ok _ => .result (.ok ())
  | .error e => .result (.error e)

end SinkBlocks
end Vista
