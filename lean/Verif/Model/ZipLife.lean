import Verif.Model.Zip

/-!
# Using one zip sink object over and over, `vistautils/key_value.py:453-508`
-/
namespace Vista
namespace Zip

/-- A method of a sink is called. -/
inductive Op
  /-- `sink.__enter__()`, `key_value.py:495-502`. -/
  | enter
  /-- `sink.put(key, value)`, `key_value.py:477-489`. -/
  | put (key : Str) (v : Value)
  /-- `sink.__exit__(...)`, `key_value.py:504-508`. -/
  | exit

/-- Calling a method: the file and the sink afterwards, and the outcome.  (If the key function raises, entering leaves an open archive
behind; this is in `Model/ZipKeys`: here it counts as not entered, which the default key function does not bring about on stores.) -/
def Sink.call (disk : Disk) (s : Sink) : Op → (Disk × Sink) × Res Unit
  | .enter =>
    match s.enter disk with
    | .ok s' => ((disk, s'), .ok ())
    | .error e => ((disk, s), .error e)
  | .put k v => ((disk, (s.put k v).1), (s.put k v).2)
  | .exit => s.exit disk

/-- The settings with which `zip_character_sink` and `zip_bytes_sink` make a sink, `key_value.py:98-170`, where either key function is the
default one or `None`. -/
def config (order : List Str → List Str) (filename : Str → Res Str) (overwrite readsKeys writesKeys : Bool) : SinkConfig :=
  ⟨filename, overwrite, if readsKeys then some readKeysFile else none, if writesKeys then some (writeKeysFile order) else none⟩

/-- `_ZipFileKeyValueSource.__enter__`, `key_value.py:628-632`, and the source afterwards, also if it raises: the file is opened before the
keys function is called, and stays open if that raises. -/
def Source.callEnter {V : Type} (disk : Disk) (s : Source V) : Source V × Res Unit :=
  match disk with
  | none => (s, .error .ioError)
  | some a =>
    match s.cfg.keysFunction with
    | none => ({ s with zip := some a }, .ok ())
    | some f =>
      match f a with
      | .ok ks => ({ s with zip := some a, keys := ks }, .ok ())
      | .error e => ({ s with zip := some a }, .error e)

/-- `_ZipFileKeyValueSource.__exit__`, `key_value.py:634-637`, and the source afterwards. -/
def Source.callExit {V : Type} (s : Source V) : Source V × Res Unit :=
  match s.exit with
  | .ok s' => (s', .ok ())
  | .error e => (s, .error e)

end Zip
end Vista
