import Verif.Model.KeyValue

/-!
# `vistautils/key_value.py`: zip-backed sinks and sources

A zip archive is the list of its entries, in the order they were written.  The standard library's `ZipFile` is modelled by
`entryName`, `writestr` and `readEntry`; an empty entry name, names of more than 65535 bytes and compression are not modelled.
The content of the file counts from the moment the archive is closed (a crash in between, and a reader while a sink is open, are not
modelled).
-/
namespace Vista
namespace Zip

/-- The entries of an archive. -/
abbrev Archive := List (Str × Bytes)

/-- `ZipInfo.__init__` (standard library): the name is cut at the first NUL. -/
def entryName (n : Str) : Str := n.takeWhile fun c => decide (c ≠ '\x00')

/-- `ZipFile.writestr` (standard library): adds an entry; an older one of the same name stays (with a warning). -/
def writestr (a : Archive) (n : Str) (b : Bytes) : Archive := a ++ [(entryName n, b)]

/-- `ZipFile.read` (standard library): the last entry of that name, `KeyError` if there is none. -/
def readEntry : Archive → Str → Res Bytes
  | [], _ => .error .keyError
  | (m, b) :: rest, n =>
    match readEntry rest n with
    | .ok b' => .ok b'
    | .error e => if m = n then .ok b else .error e

/-- The entry with the keys. -/
def keysEntry : Str := "__keys".toList

/-- `_read_keys_from_keys_file`, `key_value.py:47-56`.  (`UnicodeDecodeError` is not a `KeyError`.) -/
def readKeysFile (a : Archive) : Res (Option (List Str)) :=
  match readEntry a keysEntry with
  | .ok data =>
    if data.size = 0 then .ok (some [])
    else do
      let s ← decodeUtf8 data
      .ok (some (distinct (splitOn '\n' s)))
  | .error .keyError => .ok none
  | .error e => .error e

/-- `_write_keys_to_keys_file`, `key_value.py:59-60`; `order` is the order in which the set is iterated over. -/
def writeKeysFile (order : List Str → List Str) (a : Archive) (keys : List Str) : Res Archive :=
  .ok (writestr a keysEntry (encodeUtf8 (joinWith '\n' (order keys))))

/-! ## The sink -/

/-- The settings of a sink: `key_value.py:455-463`. -/
structure SinkConfig where
  filename : Str → Res Str
  overwrite : Bool
  keysIn : Option (Archive → Res (Option (List Str)))
  keysOut : Option (Archive → List Str → Res Archive)

/-- `self._zip_file`: `None`, an open archive with its entries so far, or a closed one. -/
inductive Handle
  | none
  | opened (a : Archive)
  | closed

/-- A `_ZipKeyValueSink`: `key_value.py:464-470`. -/
structure Sink where
  cfg : SinkConfig
  zip : Handle
  keys : List Str

/-- The value passed to `put`: anything. -/
inductive Value
  | none
  | str (s : Str)
  | bytes (b : Bytes)
  | other

/-- `_ZipKeyValueSink.__init__`, `key_value.py:455-475`. -/
def Sink.create (cfg : SinkConfig) : Res Sink := do
  checkArg (cfg.keysOut.isSome || !cfg.keysIn.isSome)
  .ok ⟨cfg, .none, []⟩

/-- `KeyValueSink.zip_character_sink` and `zip_bytes_sink`, `key_value.py:42-43, 98-170`, with the default key functions. -/
def defaultConfig (order : List Str → List Str) (filename : Str → Res Str) (overwrite : Bool) : SinkConfig :=
  ⟨filename, overwrite, some readKeysFile, some (writeKeysFile order)⟩

/-- `self._zip_file.writestr(filename, value)`, `key_value.py:489`; writing to a closed archive is a `ValueError`. -/
def Sink.write (s : Sink) (n : Str) (b : Bytes) : Sink × Res Unit :=
  match s.zip with
  | .opened a => ({ s with zip := .opened (writestr a n b) }, .ok ())
  | _ => (s, .error .valueError)

/-- `_ZipKeyValueSink.put`, and `sink[key] = value`, `key_value.py:87-88, 477-489`: the state afterwards (also if it raises) and the outcome.  The key is a string. -/
def Sink.put (s : Sink) (k : Str) (v : Value) : Sink × Res Unit :=
  match s.zip with
  | .none => (s, .error .assertionError)
  | _ =>
    match v with
    | .none => (s, .error .valueError)
    | _ =>
      if k ∈ s.keys then (s, .error .valueError)
      else
        let s' : Sink := { s with keys := s.keys ++ [k] }
        match s.cfg.filename k with
        | .error e => (s', .error e)
        | .ok n =>
          match v with
          | .str t => s'.write n (encodeUtf8 t)
          | .bytes b => s'.write n b
          | _ => (s', .error .valueError)

/-- The file at the sink's path: `none` if there is none. -/
abbrev Disk := Option Archive

/-- `self._keys.update(existing_keys)`, `key_value.py:501`. -/
def setUpdate (keys more : List Str) : List Str := keys ++ (distinct more).filter fun k => decide (k ∉ keys)

/-- `_ZipKeyValueSink.__enter__`, `key_value.py:495-502`.  (Entering a sink that is still open is not modelled.) -/
def Sink.enter (disk : Disk) (s : Sink) : Res Sink :=
  let a := if s.cfg.overwrite then [] else disk.getD []
  match s.cfg.keysIn with
  | none => .ok { s with zip := .opened a }
  | some f => do
    match ← f a with
    | some ks => .ok { s with zip := .opened a, keys := setUpdate s.keys ks }
    | none => .ok { s with zip := .opened a }

/-- `_ZipKeyValueSink.__exit__`, `key_value.py:504-508`; it does the same whether or not the block raised.  The default key function
raises `AttributeError` for `None` and `ValueError` for a closed archive. -/
def Sink.exit (disk : Disk) (s : Sink) : (Disk × Sink) × Res Unit :=
  match s.zip with
  | .none => ((disk, s), .error .attributeError)
  | .closed => ((disk, s), if s.cfg.keysOut.isSome then .error .valueError else .ok ())
  | .opened a =>
    match s.cfg.keysOut with
    | none => ((some a, { s with zip := .closed }), .ok ())
    | some f =>
      match f a s.keys with
      | .ok a' => ((some a', { s with zip := .closed }), .ok ())
      | .error e => ((disk, s), .error e)

/-- Several calls of `put`, each in its own `try`; the state afterwards and the outcomes.  (If one is not caught, the block is left
after it.) -/
def Sink.puts : Sink → List (Str × Value) → Sink × List (Res Unit)
  | s, [] => (s, [])
  | s, (k, v) :: rest => (((s.put k v).1.puts rest).1, (s.put k v).2 :: ((s.put k v).1.puts rest).2)

/-- `with KeyValueSink.zip_..._sink(path, ...) as sink:` with these calls of `put` in the block: the file afterwards, the sink object,
and the outcomes of the calls. -/
def session (disk : Disk) (sink : Sink) (calls : List (Str × Value)) : Res (Disk × Sink × List (Res Unit)) := do
  let s ← sink.enter disk
  let ((disk', s'), r) := (s.puts calls).1.exit disk
  r
  .ok (disk', s', (s.puts calls).2)

/-! ## The source -/

/-- The settings of a source: `key_value.py:582-592`, and `_process_bytes`. -/
structure SourceConfig (V : Type) where
  filename : Str → Res Str
  keysFunction : Option (Archive → Res (Option (List Str)))
  process : Bytes → Res V

/-- `KeyValueSource.zip_character_source`, `key_value.py:338-359, 680-681`, with the default key function. -/
def charConfig (filename : Str → Res Str) : SourceConfig Str := ⟨filename, some readKeysFile, decodeUtf8⟩

/-- `KeyValueSource.zip_bytes_source`, `key_value.py:361-382, 650-651`, with the default key function. -/
def bytesConfig (filename : Str → Res Str) : SourceConfig Bytes := ⟨filename, some readKeysFile, fun b => .ok b⟩

/-- A `_ZipFileKeyValueSource`. -/
structure Source (V : Type) where
  cfg : SourceConfig V
  zip : Option Archive
  keys : Option (List Str)

/-- `_ZipFileKeyValueSource.__init__`, `key_value.py:582-592`. -/
def Source.create {V : Type} (cfg : SourceConfig V) : Source V := ⟨cfg, none, none⟩

/-- `_ZipFileKeyValueSource.__enter__`, `key_value.py:628-632`; a missing file is an `OSError`. -/
def Source.enter {V : Type} (disk : Disk) (s : Source V) : Res (Source V) :=
  match disk with
  | none => .error .ioError
  | some a =>
    match s.cfg.keysFunction with
    | none => .ok { s with zip := some a }
    | some f => do
      let ks ← f a
      .ok { s with zip := some a, keys := ks }

/-- `_ZipFileKeyValueSource.__exit__`, `key_value.py:634-637`. -/
def Source.exit {V : Type} (s : Source V) : Res (Source V) :=
  match s.zip with
  | none => .error .assertionError
  | some _ => .ok { s with zip := none }

/-- `_internal_get`, `key_value.py:607-622`, with (`some`) or without a default. -/
def Source.internalGet {V D : Type} (s : Source V) (k : Str) (default : Option D) : Res (V ⊕ D) :=
  match s.zip with
  | none => .error .assertionError
  | some a => do
    let n ← s.cfg.filename k
    match readEntry a n with
    | .error .keyError =>
      match default with
      | some d => .ok (.inr d)
      | none => .error .keyError
    | .error e => .error e
    | .ok b => do
      let v ← s.cfg.process b
      .ok (.inl v)

/-- `_ZipFileKeyValueSource` as a key-value source: `key_value.py:594-605`. -/
def Source.asSource {V : Type} (s : Source V) : KVSource V where
  keys :=
    match s.zip with
    | none => .error .assertionError
    | some _ => .ok s.keys
  getItem k := do
    match ← s.internalGet (D := Empty) k none with
    | .inl v => .ok v
    | .inr d => nomatch d
  get _ k default := s.internalGet k (some default)

end Zip
end Vista
