import Verif.Model.Text

/-!
# Zip-backed stores in the file system, as the scripts use them

A zip sink or source together with its place in the file system, with the default settings for bytes (`key_value.py:135-170, 361-382`).
The archive appears in the file when the sink is left; until then the file is empty (`ZipFile(path, "w")` empties it; what Python writes
before the end is not shown, see `ZipImage.lean`), and no zip file.  Python writes through the open file, here the place is used; no other
process interferes.
-/
namespace Vista

/-- A zip sink that has been entered, and where its file is. -/
structure ZipOut where
  loc : Loc
  sink : Zip.Sink

namespace ZipOut

/-- `KeyValueSink.zip_bytes_sink(path)` and its `__enter__`, `key_value.py:135-170, 495-502`; `order` is the order in which Python
iterates over the set of keys. -/
def enter (order : List Str → List Str) (l : Loc) : Prog ZipOut := do
  let s ← Prog.ofRes (Zip.Sink.create (Zip.defaultConfig order (fun k => .ok k) true))
  writeFile l (.data .empty)
  let s' ← Prog.ofRes (s.enter none)
  Prog.pure ⟨l, s'⟩

/-- `put` of bytes, `key_value.py:477-489`. -/
def put (o : ZipOut) (k : Str) (b : Bytes) : ZipOut × Res Unit :=
  ({ o with sink := (o.sink.put k (.bytes b)).1 }, (o.sink.put k (.bytes b)).2)

/-- `__exit__`, `key_value.py:504-508`. -/
def close (o : ZipOut) : Prog Unit :=
  match o.sink.exit none with
  | ((some a, _), .ok _) => writeFile o.loc (.zip a)
  | ((none, _), .ok _) => Prog.pure ()
  | (_, .error e) => Prog.raise e

/-- Leaving several sinks one after the other (`contextlib.ExitStack`): all are left; an exception is passed on, unless leaving a sink
raises another one. -/
def closeAllAt : List ZipOut → Option Exc → FS → Res Unit × FS
  | [], none, fs => (.ok (), fs)
  | [], some e, fs => (.error e, fs)
  | o :: os, e, fs =>
    match o.close fs with
    | (.ok _, fs') => closeAllAt os e fs'
    | (.error e', fs') => closeAllAt os (some e') fs'

/-- `ExitStack.__exit__`: in the opposite order of entering. -/
def closeAll (os : List ZipOut) (e : Option Exc) : Prog Unit := fun fs => closeAllAt os.reverse e fs

/-- `exit_stack.enter_context(sink)` for several sinks; if one fails, those already entered are left. -/
def enterAllAt (order : List Str → List Str) : List Loc → List ZipOut → FS → Res (List ZipOut) × FS
  | [], os, fs => (.ok os, fs)
  | l :: ls, os, fs =>
    match enter order l fs with
    | (.ok o, fs') => enterAllAt order ls (os ++ [o]) fs'
    | (.error e, fs') =>
      match closeAllAt os.reverse (some e) fs' with
      | (.ok _, fs'') => (.error e, fs'')
      | (.error e', fs'') => (.error e', fs'')

/-- See `enterAllAt`. -/
def enterAll (order : List Str → List Str) (ls : List Loc) : Prog (List ZipOut) := fun fs => enterAllAt order ls [] fs

/-- The end of `with sink:`: the sink is left, and an exception of the block is passed on. -/
def leave (o : ZipOut) (e : Option Exc) : Prog Unit := fun fs => closeAllAt [o] e fs

end ZipOut

/-- `KeyValueSource.zip_bytes_source(path)` and its `__enter__`, `key_value.py:361-382, 628-632`; a file that is no archive raises
`BadZipFile`. -/
def zipBytesSource (l : Loc) : Prog (Zip.Source Bytes) := do
  match ← readFile l with
  | .zip a => Prog.ofRes ((Zip.Source.create (Zip.bytesConfig fun k => .ok k)).enter (some a))
  | .data _ => Prog.raise .other

/-- A zip source for bytes that has been entered: its file, the archive in it, and the source. -/
structure OpenZip where
  loc : Loc
  archive : Zip.Archive
  source : Zip.Source Bytes

/-- `KeyValueSource.zip_bytes_source(path)` and its `__enter__`, `key_value.py:361-382, 628-632`. -/
def openZipBytes (l : Loc) : Prog OpenZip := do
  let src ← zipBytesSource l
  match ← readFile l with
  | .zip a => Prog.pure ⟨l, a, src⟩
  | .data _ => Prog.raise .other

/-- What an open zip source still offers when its file has been overwritten: the keys it has read; reading an entry raises.  (Simplification:
Python may also give what it has in its buffers.) -/
def overwritten (src : KVSource Bytes) : KVSource Bytes := ⟨src.keys, fun _ => .error .other, fun _ _ _ => .error .other⟩

/-- The functions an entered zip source offers, `key_value.py:591-626`: entries are read from the open file, that is from what is there when
they are asked for. -/
def OpenZip.ask (o : OpenZip) (fs : FS) : KVSource Bytes :=
  match fs.node o.loc with
  | some (.file (.zip a)) => if a = o.archive then o.source.asSource else overwritten o.source.asSource
  | _ => overwritten o.source.asSource

end Vista
