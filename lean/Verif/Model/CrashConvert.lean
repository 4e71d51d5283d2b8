import Verif.Model.CrashScripts
import Verif.Model.DirToStore
import Verif.Model.TarToZip

/-!
# The scripts that convert, when they are killed

`directory_to_key_value_store.py` and `tar_gz_to_zip.py` as programs that can be killed between any two system calls (`Crash.lean`,
`CrashScripts.lean`).
-/
namespace Vista
namespace Killable

/-- While the program runs, Python may write to the file at `l`, which it has open: what has been written so far is some bytes. -/
def whileWriting {α : Type} (l : Loc) (x : Killable α) : Killable α :=
  ⟨x.run, fun fs s => ∃ s0, x.killed fs s0 ∧ (s = s0 ∨ ∃ b, s = (Vista.writeFile l (.data b) s0).2)⟩

end Killable

namespace DirToStore

/-- The loop, `directory_to_key_value_store.py:38-41`, for a directory sink, see `copyDirAt`. -/
def copyDirK (cwd : PyPath) (key : Loc → Str) : List Loc → DirSink → Killable (DirSink × Option Exc)
  | [], s => Killable.pure (s, none)
  | q :: qs, s => do
    let fs ← Killable.get
    if fs.isFile q then do
      match (readData q fs).1 with
      | .error e => Killable.pure (s, some e)
      | .ok b =>
        match ← Killable.attempt (s.putK cwd (key q) b) with
        | .ok s' => copyDirK cwd key qs s'
        | .error e => Killable.pure (s, some e)
    else copyDirK cwd key qs s

/-- `with sink:` and the loop, `directory_to_key_value_store.py:37-41`, see `copyInto`. -/
def copyIntoK (cwd : PyPath) (order : List Str → List Str) (scan : FS → Loc → List Loc) (key : Loc → Str) (d : Loc) : KVObj → Killable Unit
  | .zipSink false l => do
    let o ← ZipOut.enterK order l
    let fs ← Killable.get
    ZipOut.closeAllAtK [(copyZip key fs (scan fs d) o).1] (copyZip key fs (scan fs d) o).2
  | .dirSink false l => do
    let s1 ← (DirSink.new l.toPath).enterK cwd
    let fs ← Killable.get
    let (s2, e) ← copyDirK cwd key (scan fs d) s1
    s2.exitK cwd
    match e with
    | some e => Killable.raise e
    | none => Killable.pure ()
  | _ => Killable.raise .other

/-- `main`, `directory_to_key_value_store.py:33-41`; making the sink makes directories. -/
def mainK (E : FromParams.Env) (order : List Str → List Str) (scan : FS → Loc → List Loc) (p : Params) : Killable Unit := do
  let d ← Killable.reading (p.existingDirectory E.cwd "input_directory".toList)
  let key ← Killable.ofRes (keyFunction p)
  let sink ← Killable.makingDirs (FromParams.byteSink E p "output".toList (some (locals p d key)))
  copyIntoK E.cwd order scan key.apply d sink

end DirToStore

namespace TarToZip

/-- `inp.extractall()` (standard library), one member, see `extractMember`. -/
def extractMemberK (cwd : PyPath) (m : Member) : Killable Unit := do
  let l := PyPath.resolve cwd (PyPath.parse m.name)
  if m.isFile then do
    let b ← Killable.ofRes m.data
    Killable.mkdirs l.dropLast
    Killable.writeFile l b
  else Killable.mkdirs l

/-- See `extractAll`. -/
def extractAllK (cwd : PyPath) (fin : Option Exc) : List Member → Killable Unit
  | [] => match fin with
    | some e => Killable.raise e
    | none => Killable.pure ()
  | m :: ms => do
    extractMemberK cwd m
    extractAllK cwd fin ms

/-- Reading an extracted file into the archive, `tar_gz_to_zip.py:69-70`, see `packAt`. -/
def packOne (cwd : PyPath) (m : Member) (a : Zip.Archive) : Prog Zip.Archive :=
  if m.isFile then (do
    let b ← readData (PyPath.resolve cwd (PyPath.parse m.name))
    Prog.pure (Zip.writestr a (arcName m.name) b)) else Prog.pure a

/-- The loop over the extracted files, `tar_gz_to_zip.py:68-71`, see `packAt`; removing a file is one system call. -/
def packK (cwd : PyPath) : List Member → Zip.Archive → Killable (Zip.Archive × Option Exc)
  | [], a => Killable.pure (a, none)
  | m :: ms, a => do
    match ← Killable.attempt (Killable.reading (packOne cwd m a)) with
    | .error e => Killable.pure (a, some e)
    | .ok a' =>
      match ← Killable.attempt (Killable.atomic (osRemove (PyPath.resolve cwd (PyPath.parse m.name)))) with
      | .ok _ => packK cwd ms a'
      | .error e => Killable.pure (a', some e)

/-- The `with tarfile.open(...)` block, `tar_gz_to_zip.py:64-84`, see `convertAt`. -/
def convertK (untar : Bytes → Res (List Member × Option Exc)) (cwd : PyPath) (args : Args) (tar : Loc) : Killable (Zip.Archive × Option Exc) := do
  match ← Killable.attempt (Killable.reading (openTar untar tar)) with
  | .error e => Killable.pure ([], some e)
  | .ok (ms, fin) =>
    if args.dontStream then do
      match ← Killable.attempt (extractAllK cwd fin ms) with
      | .error e => Killable.pure ([], some e)
      | .ok _ => packK cwd ms []
    else Killable.pure (streamMembers args.omitLargeFiles (args.largeFileCutoff * 1000000000) fin ms [])

/-- The end of `main`: the archive is finished, `tar_gz_to_zip.py:64-84`. -/
def finishK (out : Loc) (r : Zip.Archive × Option Exc) : Killable Unit := do
  Killable.atomic (writeFile out (.zip r.1))
  match r.2 with
  | some e => Killable.raise e
  | none => Killable.pure ()

/-- `main`, `tar_gz_to_zip.py:45-84`: the old zip file is removed and a new one created, which holds some bytes until the archive is finished. -/
def mainK (untar : Bytes → Res (List Member × Option Exc)) (cwd : PyPath) (args : Args) : Killable Unit := do
  let out := PyPath.resolve cwd (PyPath.parse (outputName args.tarFileName))
  Killable.atomic (removeExisting out)
  Killable.atomic (createZip out)
  let r ← Killable.whileWriting out (convertK untar cwd args (PyPath.resolve cwd (PyPath.parse args.tarFileName)))
  finishK out r

end TarToZip
end Vista
