import Verif.Model.Crash
import Verif.Model.StoreScripts

/-!
# The scripts on stores, when they are killed

`split_key_value_store.py`, `downsample_key_value_store.py`, `join_key_value_stores.py` as programs that can be killed between any two system
calls (`Crash.lean`).  A zip file that is being written holds some bytes that are no zip file until its sink has been left (`ZipImage.lean`
shows more of it; end records appear only at the end, and the outputs of the scripts are always written anew).  Not shown: an uncompressed value
that is a zip file itself could, at the end of what has been written so far, be taken for one.
-/
namespace Vista
namespace Killable

/-- A program that only reads. -/
def reading {α : Type} (p : Prog α) : Killable α := ⟨p, fun fs s => s = fs⟩

/-- The state of the file system. -/
def get : Killable FS := reading Prog.get

/-- A program that does nothing but make directories, the outermost first. -/
def makingDirs {α : Type} (p : Prog α) : Killable α :=
  ⟨p, fun fs s => s = fs ∨ s = (p fs).2 ∨ ∃ q, s = (Vista.mkdirs q fs).2 ∧ ∀ r, s.node r = fs.node r ∨ s.node r = (p fs).2.node r⟩

/-- The time while the zip files at these places are written: what Python has written so far is some bytes. -/
def writing (ls : List Loc) : Killable Unit :=
  ⟨Prog.pure (), fun fs s => s = fs ∨ ∃ c : Loc → Bytes, s = ls.foldl (fun t l => (Vista.writeFile l (.data (c l)) t).2) fs⟩

end Killable

namespace Params

/-- `Parameters.creatable_directory`, `parameters.py:244-256`. -/
def creatableDirectoryK (cwd : PyPath) (p : Params) (param : Str) : Killable Loc := do
  let ret ← Killable.ofRes (p.pathParam cwd param)
  Killable.mkdirs ret
  Killable.pure ret

/-- `Parameters.creatable_file`, `parameters.py:332-344`. -/
def creatableFileK (cwd : PyPath) (p : Params) (param : Str) : Killable Loc := do
  let ret ← Killable.ofRes (p.pathParam cwd param)
  Killable.mkdirs ret.dropLast
  Killable.pure ret

end Params

namespace ZipOut

/-- `__enter__`, `key_value.py:495-502`: opening the file empties it, in one system call. -/
def enterK (order : List Str → List Str) (l : Loc) : Killable ZipOut := Killable.atomic (enter order l)

/-- `__exit__`, `key_value.py:504-508`: the last system call makes the file a zip file; for those before see `Killable.writing`. -/
def closeK (o : ZipOut) : Killable Unit := Killable.atomic o.close

/-- Leaving several sinks one after the other (`contextlib.ExitStack`), see `closeAllAt`; before each is left (so also while the sinks are in
use) something may have been written to any of those still open. -/
def closeAllAtK : List ZipOut → Option Exc → Killable Unit
  | [], none => Killable.pure ()
  | [], some e => Killable.raise e
  | o :: os, e => do
    Killable.writing ((o :: os).map (·.loc))
    match ← Killable.attempt o.closeK with
    | .ok _ => closeAllAtK os e
    | .error e' => closeAllAtK os (some e')

/-- `ExitStack.__exit__`. -/
def closeAllK (os : List ZipOut) (e : Option Exc) : Killable Unit := closeAllAtK os.reverse e

/-- `exit_stack.enter_context(sink)` for several sinks, see `enterAllAt`. -/
def enterAllAtK (order : List Str → List Str) : List Loc → List ZipOut → Killable (List ZipOut)
  | [], os => Killable.pure os
  | l :: ls, os => do
    match ← Killable.attempt (enterK order l) with
    | .ok o => enterAllAtK order ls (os ++ [o])
    | .error e =>
      match ← Killable.attempt (closeAllAtK os.reverse (some e)) with
      | .ok _ => Killable.raise e
      | .error e' => Killable.raise e'

end ZipOut

/-- `_split_into_even_slices`, `split_key_value_store.py:64-84`. -/
def evenSplitK (order : List Str → List Str) (shuffle : PVal → List Str → List Str) (cwd : PyPath) (src : FS → KVSource Bytes) (p : Params) :
    Killable Unit := do
  let dir ← p.creatableDirectoryK cwd "output_dir".toList
  let slices ← Killable.ofRes (p.positiveInteger "num_slices".toList)
  let seed ← Killable.ofRes (p.optionalPositiveInteger "random_seed".toList)
  let n := ((Params.asInt slices).getD 0).toNat
  let paths := (List.range n).map (slicePath dir)
  writeBytesToK cwd ((Loc.toPath dir).div (PyPath.parse "_slices.txt".toList)) (encodeUtf8 (joinWith '\n' (paths.map fun l => (Loc.toPath l).render)))
  let outs ← ZipOut.enterAllAtK order paths []
  let fs ← Killable.get
  ZipOut.closeAllK (evenBody shuffle (src fs) n seed outs).1 (evenBody shuffle (src fs) n seed outs).2

/-- One output, `split_key_value_store.py:95-115`. -/
def splitOneK (order : List Str → List Str) (cwd : PyPath) (src : FS → KVSource Bytes) (ns : Params) : Killable (List Str) := do
  let keysFile ← Killable.reading (ns.existingFile cwd "keys_file".toList)
  let keys ← Killable.reading (fileLinesToSet keysFile)
  let out ← ns.creatableFileK cwd "output_file".toList
  let o ← ZipOut.enterK order out
  let fs ← Killable.get
  ZipOut.closeAllAtK [(copyKeys (src fs) keys o []).1] (copyKeys (src fs) keys o []).2.2
  Killable.pure (copyKeys (src fs) keys o []).2.1

/-- The loop over the outputs, `split_key_value_store.py:94-115`. -/
def splitEachK (order : List Str → List Str) (cwd : PyPath) (src : FS → KVSource Bytes) : List Params → Killable (List Str)
  | [] => Killable.pure []
  | ns :: rest => do
    let copied ← splitOneK order cwd src ns
    let more ← splitEachK order cwd src rest
    Killable.pure (copied ++ more)

/-- `_explicit_split`, `split_key_value_store.py:87-126`. -/
def explicitSplitK (order : List Str → List Str) (cwd : PyPath) (src : FS → KVSource Bytes) (p : Params) : Killable Unit := do
  let ns ← Killable.ofRes (p.namespace "explicit_split".toList)
  let nss ← Killable.ofRes ns.subNamespaces
  let copied ← splitEachK order cwd src nss
  let fs ← Killable.get
  Killable.ofRes (checkExhaustive (src fs) p copied)

/-- `main`, `split_key_value_store.py:52-61`; making and entering the source only reads. -/
def splitMainK (order : List Str → List Str) (shuffle : PVal → List Str → List Str) (cwd : PyPath) {σ : Type} (source : Prog σ)
    (ask : σ → FS → KVSource Bytes) (p : Params) : Killable Unit := do
  Killable.ofRes (p.assertExactlyOnePresent ["num_slices".toList, "explicit_split".toList])
  let src ← Killable.reading source
  if p.contains "num_slices".toList then evenSplitK order shuffle cwd (ask src) p
  else if p.contains "explicit_split".toList then explicitSplitK order cwd (ask src) p
  else Killable.raise .runtimeError

/-- What `main` does with the output, `downsample_key_value_store.py:42-46`. -/
def sampleIntoK (order : List Str → List Str) (cwd : PyPath) (src : FS → KVSource Bytes) (keys : List Str) (p : Params) : Killable Unit := do
  let out ← p.creatableFileK cwd "output_zip_path".toList
  let o ← ZipOut.enterK order out
  let fs ← Killable.get
  ZipOut.closeAllAtK [(sampleKeys (src fs) keys o).1] (sampleKeys (src fs) keys o).2

/-- `main`, `downsample_key_value_store.py:33-46`. -/
def downsampleK (order : List Str → List Str) (shuffle : Int → List Str → Res (List Str)) (cwd : PyPath)
    {σ : Type} (source : Prog σ) (ask : σ → FS → KVSource Bytes) (p : Params) : Killable Unit := do
  let src ← Killable.reading source
  let fs ← Killable.get
  match ← Killable.ofRes (ask src fs).keys with
  | none => Killable.raise .typeError
  | some keys => do
    let num ← Killable.ofRes (p.positiveInteger "num_to_sample".toList)
    let seed ← Killable.ofRes (p.integer "random_seed".toList none (.int 0))
    let shuffled ← Killable.ofRes (shuffle ((Params.asInt seed).getD 0) keys)
    sampleIntoK order cwd (ask src) (shuffled.take (min ((Params.asInt num).getD 0).toNat keys.length)) p

/-- The loop over the keys of one input, `join_key_value_stores.py:31-35`, for a directory sink, see `joinDirKeys`. -/
def joinDirKeysK (cwd : PyPath) (src : FS → KVSource Bytes) : List Str → DirSink → List Str → Killable (DirSink × List Str × Option Exc)
  | [], s, written => Killable.pure (s, written, none)
  | k :: ks, s, written => do
    let fs ← Killable.get
    if k ∈ written then Killable.pure (s, written, some .runtimeError)
    else
      match (src fs).getItem k with
      | .error e => Killable.pure (s, written ++ [k], some e)
      | .ok v =>
        match ← Killable.attempt (s.putK cwd k v) with
        | .ok s' => joinDirKeysK cwd src ks s' (written ++ [k])
        | .error e => Killable.pure (s, written ++ [k], some e)

/-- The loop over the inputs, `join_key_value_stores.py:29-35`, for a directory sink, see `joinDirEach`. -/
def joinDirEachK (cwd : PyPath) : List PyPath → DirSink → List Str → Killable (DirSink × Option Exc)
  | [], s, _ => Killable.pure (s, none)
  | path :: rest, s, written => do
    match ← Killable.attempt (Killable.reading (openZipBytes (PyPath.resolve cwd path))) with
    | .error e => Killable.pure (s, some e)
    | .ok src => do
      let fs ← Killable.get
      match (src.ask fs).keys with
      | .error e => Killable.pure (s, some e)
      | .ok none => Killable.pure (s, some .typeError)
      | .ok (some ks) => do
        match ← joinDirKeysK cwd src.ask ks s written with
        | (s', written', none) => joinDirEachK cwd rest s' written'
        | (s', _, some e) => Killable.pure (s', some e)

/-- The `with` block, `join_key_value_stores.py:28-35`, see `joinInto`. -/
def joinIntoK (cwd : PyPath) (order : List Str → List Str) (paths : List PyPath) : KVObj → Killable Unit
  | .zipSink false l => do
    let o ← ZipOut.enterK order l
    let fs ← Killable.get
    ZipOut.closeAllAtK [(joinEach cwd fs paths o []).1] (joinEach cwd fs paths o []).2
  | .dirSink false l => do
    let s1 ← (DirSink.new l.toPath).enterK cwd
    let (s2, e) ← joinDirEachK cwd paths s1 []
    s2.exitK cwd
    match e with
    | some e => Killable.raise e
    | none => Killable.pure ()
  | _ => Killable.raise .other

/-- `main`, `join_key_value_stores.py:23-35`; making the sink makes directories. -/
def joinMainK (E : FromParams.Env) (order : List Str → List Str) (p : Params) : Killable Unit := do
  let paths ← Killable.reading (p.pathListFromFile E.cwd "input_store_list_file".toList)
  let sink ← Killable.makingDirs (FromParams.byteSink E p "output".toList (some (joinLocals p paths)))
  joinIntoK E.cwd order paths sink

/-- `split_key_value_store.py`, `main`: lines 52-61. -/
def splitScriptK (E : FromParams.Env) (order : List Str → List Str) (shuffle : PVal → List Str → List Str) (p : Params) : Killable Unit :=
  splitMainK order shuffle E.cwd (do
    let o ← FromParams.byteLinearSource E p
    enterByteSource o) (ByteSource.ask E.cwd) p

/-- `downsample_key_value_store.py`, `main`: lines 33-46. -/
def downsampleScriptK (E : FromParams.Env) (order : List Str → List Str) (shuffle : Int → List Str → Res (List Str)) (p : Params) : Killable Unit :=
  downsampleK order shuffle E.cwd (do
    let o ← FromParams.byteSource E p
    enterByteSource o) (ByteSource.ask E.cwd) p

end Vista
