import Verif.Model.Zip

/-!
# Zip sinks with any key functions, `vistautils/key_value.py:453-508`

Here the functions to read and to write keys are any functions: they may raise, and may add entries to the archive before they do.
The file at the path is followed also while the archive is open, and when the sink object is thrown away while it is open.
-/
namespace Vista
namespace Zip
namespace Keyed

/-- The file at the path: none, one that is not a zip file (the standard library raises `BadZipFile` when it is opened for reading), or
an archive. -/
inductive File
  | absent
  | unreadable
  | archive (a : Archive)

/-- The settings of a sink: `key_value.py:455-463`.  A key function gets the archive and gives the entries it adds and its outcome.  The
function that writes keys gets what `self._zip_file` is: `None`, an open archive, or a closed one (to which it can add nothing). -/
structure Config where
  filename : Str → Res Str
  overwrite : Bool
  keysIn : Option (Archive → List (Str × Bytes) × Res (Option (List Str)))
  keysOut : Option (Handle → List Str → List (Str × Bytes) × Res Unit)

/-- A `_ZipKeyValueSink`: `key_value.py:464-470`. -/
structure KSink where
  cfg : Config
  zip : Handle
  keys : List Str

/-- `_ZipKeyValueSink.__init__`, `key_value.py:455-475`. -/
def KSink.create (cfg : Config) : Res KSink := do
  checkArg (cfg.keysOut.isSome || !cfg.keysIn.isSome)
  .ok ⟨cfg, .none, []⟩

/-- Several calls of `ZipFile.writestr` (standard library). -/
def writeAll (a : Archive) (more : List (Str × Bytes)) : Archive := more.foldl (fun a e => writestr a e.1 e.2) a

/-- What is in the file after some entries have been written to the open archive but the directory of the archive has not: nothing that
can be read, unless nothing was written.  Simplified: `writestr` overwrites the old directory and seeks, which flushes its buffers; the
model takes it that what then is in the file has no directory that can be read (`Model/ZipImage` has the bytes). -/
def File.written (f : File) (more : List (Str × Bytes)) : File := if more.isEmpty then f else .unreadable

/-- `ZipFile(path, "w")` and `ZipFile(path, "a")` (standard library), used at `key_value.py:496`: the entries the archive starts with, and
the file.  `"w"` empties the file; `"a"` makes an empty one if there is none, starts with the entries of an archive, and adds to the end of
what is not an archive. -/
def openFor (overwrite : Bool) (f : File) : Archive × File :=
  if overwrite then ([], .unreadable)
  else match f with
    | .archive a => (a, .archive a)
    | _ => ([], .unreadable)

/-- What a call gives: `__enter__` returned, having been told of these keys; another call returned; or it raised. -/
inductive Event
  | entered (keys : List Str)
  | returned
  | raised (e : Exc)
  deriving DecidableEq

/-- `_ZipKeyValueSink.__enter__`, `key_value.py:495-502`: the file, the sink, and what it gives.  If the key function raises, the archive
is open all the same. -/
def KSink.enter (f : File) (s : KSink) : (File × KSink) × Event :=
  let a := (openFor s.cfg.overwrite f).1
  let f' := (openFor s.cfg.overwrite f).2
  match s.cfg.keysIn with
  | none => ((f', { s with zip := .opened a }), .entered [])
  | some g =>
    let a' := writeAll a (g a).1
    match (g a).2 with
    | .ok ks => ((f'.written (g a).1, { s with zip := .opened a', keys := setUpdate s.keys (ks.getD []) }), .entered (ks.getD []))
    | .error e => ((f'.written (g a).1, { s with zip := .opened a' }), .raised e)

/-- `self._zip_file.writestr(filename, value)`, `key_value.py:489`; writing to a closed archive is a `ValueError`. -/
def KSink.write (f : File) (s : KSink) (n : Str) (b : Bytes) : (File × KSink) × Event :=
  match s.zip with
  | .opened a => ((.unreadable, { s with zip := .opened (writestr a n b) }), .returned)
  | _ => ((f, s), .raised .valueError)

/-- The end of `_ZipKeyValueSink.put`, `key_value.py:481-489`: the sink has been entered and the value is not `None`. -/
def KSink.record (f : File) (s : KSink) (k : Str) (v : Value) : (File × KSink) × Event :=
  if k ∈ s.keys then ((f, s), .raised .valueError)
  else
    let s' : KSink := { s with keys := s.keys ++ [k] }
    match s.cfg.filename k with
    | .error e => ((f, s'), .raised e)
    | .ok n =>
      match v with
      | .str t => s'.write f n (encodeUtf8 t)
      | .bytes b => s'.write f n b
      | _ => ((f, s'), .raised .valueError)

/-- `_ZipKeyValueSink.put`, `key_value.py:477-489`.  The key is a string. -/
def KSink.put (f : File) (s : KSink) (k : Str) (v : Value) : (File × KSink) × Event :=
  match s.zip with
  | .none => ((f, s), .raised .assertionError)
  | _ =>
    match v with
    | .none => ((f, s), .raised .valueError)
    | _ => s.record f k v

/-- `_ZipKeyValueSink.__exit__`, `key_value.py:504-508`.  If the key function raises, the archive stays open. -/
def KSink.exit (f : File) (s : KSink) : (File × KSink) × Event :=
  match s.zip with
  | .none =>
    match s.cfg.keysOut with
    | none => ((f, s), .raised .attributeError)
    | some g =>
      match (g .none s.keys).2 with
      | .ok () => ((f, s), .raised .attributeError)
      | .error e => ((f, s), .raised e)
  | .closed =>
    match s.cfg.keysOut with
    | none => ((f, s), .returned)
    | some g =>
      match (g .closed s.keys).2 with
      | .ok () => ((f, s), .returned)
      | .error e => ((f, s), .raised e)
  | .opened a =>
    match s.cfg.keysOut with
    | none => ((.archive a, { s with zip := .closed }), .returned)
    | some g =>
      let r := g (.opened a) s.keys
      match r.2 with
      | .ok () => ((.archive (writeAll a r.1), { s with zip := .closed }), .returned)
      | .error e => ((f.written r.1, { s with zip := .opened (writeAll a r.1) }), .raised e)

/-- The sink object is thrown away: `ZipFile.__del__` (standard library) closes the archive if it is open. -/
def KSink.dropped (f : File) (s : KSink) : File :=
  match s.zip with
  | .opened a => .archive a
  | _ => f

/-- A method of the sink is called. -/
inductive KOp
  | enter
  | put (key : Str) (v : Value)
  | exit

/-- The call. -/
def KSink.call (f : File) (s : KSink) : KOp → (File × KSink) × Event
  | .enter => s.enter f
  | .put k v => s.put f k v
  | .exit => s.exit f

/-- Several calls, each in its own `try`: the file and the sink afterwards. -/
def KSink.after : File → KSink → List KOp → File × KSink
  | f, s, [] => (f, s)
  | f, s, op :: ops => (s.call f op).1.2.after (s.call f op).1.1 ops

/-- What the calls give. -/
def KSink.trace : File → KSink → List KOp → List (KOp × Event)
  | _, _, [] => []
  | f, s, op :: ops => (op, (s.call f op).2) :: (s.call f op).1.2.trace (s.call f op).1.1 ops

end Keyed
end Zip
end Vista
