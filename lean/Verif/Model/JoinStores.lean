import Verif.Model.FromParams
import Verif.Model.PathLists

/-!
# `vistautils/scripts/join_key_value_stores.py` and `downsample_key_value_store.py`
-/
namespace Vista

/-- The loop over the keys of one input, `join_key_value_stores.py:31-35`: the sink, the keys written so far, and the exception if one was
raised. -/
def joinKeys (src : KVSource Bytes) : List Str → ZipOut → List Str → ZipOut × List Str × Option Exc
  | [], o, written => (o, written, none)
  | k :: ks, o, written =>
    if k ∈ written then (o, written, some .runtimeError)
    else
      match src.getItem k with
      | .error e => (o, written ++ [k], some e)
      | .ok v =>
        match (o.put k v).2 with
        | .ok _ => joinKeys src ks (o.put k v).1 (written ++ [k])
        | .error e => ((o.put k v).1, written ++ [k], some e)

/-- One input that has been opened, `join_key_value_stores.py:30-35`; iterating over `None` is a `TypeError`. -/
def joinOne (src : KVSource Bytes) (o : ZipOut) (written : List Str) : ZipOut × List Str × Option Exc :=
  match src.keys with
  | .error e => (o, written, some e)
  | .ok none => (o, written, some .typeError)
  | .ok (some ks) => joinKeys src ks o written

/-- The loop over the inputs, `join_key_value_stores.py:29-35`; reading changes nothing. -/
def joinEach (cwd : PyPath) (fs : FS) : List PyPath → ZipOut → List Str → ZipOut × Option Exc
  | [], o, _ => (o, none)
  | path :: rest, o, written =>
    match (zipBytesSource (PyPath.resolve cwd path) fs).1 with
    | .error e => (o, some e)
    | .ok src =>
      match joinOne src.asSource o written with
      | (o', written', none) => joinEach cwd fs rest o' written'
      | (o', _, some e) => (o', some e)

/-- The same loop over the keys of one input, `join_key_value_stores.py:31-35`, for a directory sink: the sink, the keys written so far, and
the exception if one was raised. -/
def joinDirKeys (cwd : PyPath) (src : FS → KVSource Bytes) : List Str → DirSink → List Str → FS → (DirSink × List Str × Option Exc) × FS
  | [], s, written, fs => ((s, written, none), fs)
  | k :: ks, s, written, fs =>
    if k ∈ written then ((s, written, some .runtimeError), fs)
    else
      match (src fs).getItem k with
      | .error e => ((s, written ++ [k], some e), fs)
      | .ok v =>
        match s.put cwd k v fs with
        | (.ok s', fs') => joinDirKeys cwd src ks s' (written ++ [k]) fs'
        | (.error e, fs') => ((s, written ++ [k], some e), fs')

/-- The loop over the inputs, `join_key_value_stores.py:29-35`, for a directory sink. -/
def joinDirEach (cwd : PyPath) : List PyPath → DirSink → List Str → FS → (DirSink × Option Exc) × FS
  | [], s, _, fs => ((s, none), fs)
  | path :: rest, s, written, fs =>
    match openZipBytes (PyPath.resolve cwd path) fs with
    | (.error e, fs') => ((s, some e), fs')
    | (.ok src, fs') =>
      match (src.ask fs').keys with
      | .error e => ((s, some e), fs')
      | .ok none => ((s, some .typeError), fs')
      | .ok (some ks) =>
        match joinDirKeys cwd src.ask ks s written fs' with
        | ((s', written', none), fs'') => joinDirEach cwd rest s' written' fs''
        | ((s', _, some e), fs'') => ((s', some e), fs'')

/-- The same, starting without keys; the exception is kept until the sink has been left. -/
def joinDirLoop (cwd : PyPath) (paths : List PyPath) (s : DirSink) : Prog (DirSink × Option Exc) :=
  fun fs => (.ok (joinDirEach cwd paths s [] fs).1, (joinDirEach cwd paths s [] fs).2)

/-- The `with` block, `join_key_value_stores.py:28-35`, by what the sink is.  Only the sinks for bytes of `key_value.py` are modelled; anything
else raises here. -/
def joinInto (cwd : PyPath) (order : List Str → List Str) (paths : List PyPath) : KVObj → Prog Unit
  | .zipSink false l => do
    let o ← ZipOut.enter order l
    let fs ← Prog.get
    (joinEach cwd fs paths o []).1.leave (joinEach cwd fs paths o []).2
  | .dirSink false l => do
    let s1 ← (DirSink.new l.toPath).enter cwd
    let (s2, e) ← joinDirLoop cwd paths s1
    s2.exit cwd
    match e with
    | some e => Prog.raise e
    | none => Prog.pure ()
  | _ => Prog.raise .other

/-- `locals()` in `main`, `join_key_value_stores.py:28`, the context given for evaluations; the empty set is an object for the
interpreter. -/
def joinLocals (p : Params) (paths : List PyPath) : Entries :=
  [("params".toList, p.toVal), ("input_paths".toList, .list (paths.map fun q => .path q.render)), ("keys_written".toList, .obj 30)]

/-- `main`, `join_key_value_stores.py:23-35`. -/
def joinMain (E : FromParams.Env) (order : List Str → List Str) (p : Params) : Prog Unit := do
  let paths ← p.pathListFromFile E.cwd "input_store_list_file".toList
  let sink ← FromParams.byteSink E p "output".toList (some (joinLocals p paths))
  joinInto E.cwd order paths sink

/-- The loop in `downsample_key_value_store.py:45-46`: the sink, and the exception if one was raised. -/
def sampleKeys (src : KVSource Bytes) : List Str → ZipOut → ZipOut × Option Exc
  | [], o => (o, none)
  | k :: ks, o =>
    match src.getItem k with
    | .error e => (o, some e)
    | .ok v =>
      match (o.put k v).2 with
      | .ok _ => sampleKeys src ks (o.put k v).1
      | .error e => ((o.put k v).1, some e)

/-- `main`, `downsample_key_value_store.py:33-46`; `source` makes and enters the source, `ask` is what it offers, depending on the file
system when it is asked (`StoreScripts.lean`); `shuffle` is what `random.shuffle(keys, random=...)` does for a seed:
it raises `TypeError` from Python 3.11 on, where `shuffle` has no such argument any more.  The keys of the source may be listed in any
order. -/
def downsample (order : List Str → List Str) (shuffle : Int → List Str → Res (List Str)) (cwd : PyPath)
    {σ : Type} (source : Prog σ) (ask : σ → FS → KVSource Bytes) (p : Params) : Prog Unit := do
  let src ← source
  let fs ← Prog.get
  match ← Prog.ofRes (ask src fs).keys with
  | none => Prog.raise .typeError
  | some keys => do
    let num ← Prog.ofRes (p.positiveInteger "num_to_sample".toList)
    let n := min ((Params.asInt num).getD 0).toNat keys.length
    let seed ← Prog.ofRes (p.integer "random_seed".toList none (.int 0))
    let shuffled ← Prog.ofRes (shuffle ((Params.asInt seed).getD 0) keys)
    let out ← p.creatableFile cwd "output_zip_path".toList
    let o ← ZipOut.enter order out
    let fs ← Prog.get
    (sampleKeys (ask src fs) (shuffled.take n) o).1.leave (sampleKeys (ask src fs) (shuffled.take n) o).2

end Vista
