import Verif.Model.Bytes
import Verif.Model.PyDict

/-!
# `vistautils/key_value.py`: sources

Keys are strings (in `_InterpretedKeyValueSource` they can be anything; nothing depends on it).  Filter functions do not raise.
-/
namespace Vista

/-- What a `KeyValueSource` offers once it has been entered: `key_value.py:264-307`.  `get` is given a default of any type and
returns a value (`inl`) or something of the type of the default (`inr`). -/
structure KVSource (V : Type) where
  keys : Res (Option (List Str))
  getItem : Str → Res V
  get : (D : Type) → Str → D → Res (V ⊕ D)

/-- What a `KeyValueLinearSource` offers: `items(key_filter)`, `key_value.py:181-184`. -/
abbrev LinearSource (V : Type) := (Str → Bool) → Res (Gen (Str × V))

/-- `for key in keys: if key_filter(key): yield (key, self[key])`, `key_value.py:298-300`. -/
def itemsLoop {V : Type} (getItem : Str → Res V) (keep : Str → Bool) : List Str → Gen (Str × V)
  | [] => ⟨[], none⟩
  | k :: ks =>
    if keep k then
      match getItem k with
      | .ok v => ⟨(k, v) :: (itemsLoop getItem keep ks).yielded, (itemsLoop getItem keep ks).raised⟩
      | .error e => ⟨[], some e⟩
    else itemsLoop getItem keep ks

/-- `KeyValueSource.items`, `key_value.py:290-307`. -/
def KVSource.items {V : Type} (s : KVSource V) : LinearSource V := fun keep => do
  match ← s.keys with
  | some ks => .ok (itemsLoop s.getItem keep ks)
  | none => .error .notImplementedError

/-! ## Interpreted sources -/

/-- `KeyValueSource.interpret_values` and `_InterpretedKeyValueSource`, `key_value.py:387-397, 796-833`. -/
def KVSource.interpret {T V : Type} (wrapped : KVSource T) (f : Str → T → Res V) : KVSource V where
  keys := wrapped.keys
  getItem k := do
    let x ← wrapped.getItem k
    f k x
  get _ k default := do
    -- the sentinel is a new object, which nobody else has
    match ← wrapped.get Unit k () with
    | .inl x => do
      let v ← f k x
      .ok (.inl v)
    | .inr _ => .ok (.inr default)

/-- `for wrapped_pair in ...: yield wrapped_pair[0], self.interpretation_function(...)`, `key_value.py:780-784`; the wrapped
generator has yielded the pairs and then ended with `e`. -/
def interpretLoop {T V : Type} (f : Str → T → Res V) (e : Option Exc) : List (Str × T) → Gen (Str × V)
  | [] => ⟨[], e⟩
  | (k, x) :: rest =>
    match f k x with
    | .ok v => ⟨(k, v) :: (interpretLoop f e rest).yielded, (interpretLoop f e rest).raised⟩
    | .error e' => ⟨[], some e'⟩

/-- `InterpretedLinearKeyValueSource.items`, `key_value.py:777-786`.  The wrapped `items` is called when the generator is started, so
an exception it raises itself comes out of the generator. -/
def interpretLinear {T V : Type} (wrapped : LinearSource T) (f : Str → T → Res V) : LinearSource V := fun keep =>
  match wrapped keep with
  | .ok g => .ok (interpretLoop f g.raised g.yielded)
  | .error e => .ok ⟨[], some e⟩

/-! ## Files listed in a mapping -/

/-- The files of the file system: the bytes at a path, or the exception of opening it. -/
abbrev Files := Str → Res Bytes

/-- `CharSource.from_file(path).read_all()`, `io_utils.py:68-73, 184-192`: UTF-8, with line ends translated. -/
def readTextFile (files : Files) (path : Str) : Res Str := do
  let b ← files path
  let s ← decodeUtf8 b
  .ok (universalNewlines s)

/-- `ByteSource.from_file(path).read()`, `io_utils.py:329-336, 366-367`. -/
def readBytesFile (files : Files) (path : Str) : Res Bytes := files path

/-- `_PathMappingCharKeyValueSource` (`KeyValueSource.from_path_mapping`) and `_PathMappingBytesKeyValueSource`, `key_value.py:309-316, 541-578`: they differ in how a file is
read.  A missing key of an `immutabledict` is a `KeyError`. -/
def pathMapping {V : Type} (read : Str → Res V) (idToPath : List (Str × Str)) : KVSource V where
  keys := .ok (some (idToPath.map (·.1)))
  getItem k :=
    match dictGet idToPath k with
    | some p => read p
    | none => .error .keyError
  get _ k default :=
    if (dictGet idToPath k).isSome then do
      let v ← match dictGet idToPath k with
        | some p => read p
        | none => .error .keyError
      .ok (.inl v)
    else .ok (.inr default)

/-! ## Tar archives -/

/-- A member of a tar archive: its name, whether it is a regular file, and what extracting it gives (`None`: cannot be read). -/
structure TarMember where
  name : Str
  isFile : Bool
  extract : Res (Option Bytes)

/-- `key_value.py:738-749`: the loop over the members.  `key_function` returns a string or `None`; the empty string is skipped too. -/
def tarLoop (keyFunction : Str → Option Str) (nameFilter : Str → Bool) (keep : Str → Bool) : List TarMember → Gen (Str × Bytes)
  | [] => ⟨[], none⟩
  | m :: ms =>
    if m.isFile && nameFilter m.name then
      match keyFunction m.name with
      | none => tarLoop keyFunction nameFilter keep ms
      | some key =>
        if !key.isEmpty && keep key then
          match m.extract with
          | .error e => ⟨[], some e⟩
          | .ok none => ⟨[], some .ioError⟩
          | .ok (some data) => ⟨(key, data) :: (tarLoop keyFunction nameFilter keep ms).yielded, (tarLoop keyFunction nameFilter keep ms).raised⟩
        else tarLoop keyFunction nameFilter keep ms
    else tarLoop keyFunction nameFilter keep ms

/-- `TarGzipBytesLinearKeyValueSource.items`, `key_value.py:729-751`; `none`: the source has not been entered. -/
def tarItems (archive : Option (List TarMember)) (keyFunction : Str → Option Str) (nameFilter : Str → Bool) : LinearSource Bytes := fun keep =>
  match archive with
  | none => .error .assertionError
  | some ms => .ok (tarLoop keyFunction nameFilter keep ms)

/-- `KeyValueLinearSource.str_linear_source_from_tar_gz`, `key_value.py:212-229`. -/
def tarTextItems (archive : Option (List TarMember)) (keyFunction : Str → Option Str) (nameFilter : Str → Bool) : LinearSource Str :=
  interpretLinear (tarItems archive keyFunction nameFilter) fun _ b => decodeUtf8 b

end Vista
