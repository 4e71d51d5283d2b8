import Verif.Model.SmallScripts

/-!
# `vistautils/scripts/tar_gz_to_zip.py`

The standard library's reading of a tar file is a parameter: `untar` gives, for the bytes of a file, the members and the exception, if any,
that ends the iteration over them; or the exception of opening it.  `argparse` and the messages printed are not modelled.
-/
namespace Vista
namespace TarToZip

/-- A member of a tar file, as the standard library presents it: a regular file or a directory (other kinds are not modelled); `size` is
the size in its header, `data` what reading it gives. -/
structure Member where
  name : Str
  isFile : Bool
  size : Nat
  data : Res Bytes

/-- The arguments, `tar_gz_to_zip.py:13-42`; the cutoff is in gigabytes.  (A `float` is taken as the rational number it is; the product
with `1e9` is not rounded.) -/
structure Args where
  tarFileName : Str
  dontStream : Bool
  omitLargeFiles : Bool
  largeFileCutoff : Rat

/-- `os.path.exists(name)` and `os.remove(name)`, `tar_gz_to_zip.py:60-62`; a directory cannot be removed this way. -/
def removeExisting (l : Loc) : Prog Unit := Prog.call fun fs =>
  match fs.node l with
  | none => .ok fs
  | some .dir => .error .isdir
  | some (.file _) => .ok (fs.eraseTree l)

/-- `os.remove(name)` (standard library). -/
def osRemove (l : Loc) : Prog Unit := Prog.call fun fs =>
  match fs.node l with
  | none => .error .noent
  | some .dir => .error .isdir
  | some (.file _) => .ok (fs.eraseTree l)

/-- `ZipFile(name, "x")` (standard library): a new file, empty until the archive is written. -/
def createZip (l : Loc) : Prog Unit := Prog.call fun fs =>
  if l = [] then .error .exist
  else
    match fs.walk [] l.dropLast with
    | .error e => .error e
    | .ok _ =>
      match fs.node l with
      | some _ => .error .exist
      | none => .ok (fs.set l (.file (.data .empty)))

/-- `tarfile.open(name)` (standard library). -/
def openTar (untar : Bytes → Res (List Member × Option Exc)) (l : Loc) : Prog (List Member × Option Exc) := do
  let b ← readData l
  Prog.ofRes (untar b)

/-- The loop that streams, `tar_gz_to_zip.py:73-84`: the archive afterwards, and the exception if one was raised; `cut` is the cutoff in
bytes. -/
def streamMembers (omitLarge : Bool) (cut : Rat) (fin : Option Exc) : List Member → Zip.Archive → Zip.Archive × Option Exc
  | [], a => (a, fin)
  | m :: ms, a =>
    if m.isFile then
      if omitLarge ∧ (m.size : Rat) > cut then streamMembers omitLarge cut fin ms a
      else
        match m.data with
        | .error e => (a, some e)
        | .ok b => streamMembers omitLarge cut fin ms (Zip.writestr a m.name b)
    else streamMembers omitLarge cut fin ms a

/-- `inp.extractall()` (standard library), one member, into the working directory.  Simplifications: a file that cannot be read leaves
nothing behind; names that lead out of the directory are not refused. -/
def extractMember (cwd : PyPath) (m : Member) : Prog Unit := do
  let l := PyPath.resolve cwd (PyPath.parse m.name)
  if m.isFile then do
    let b ← Prog.ofRes m.data
    mkdirs l.dropLast
    writeFile l (.data b)
  else mkdirs l

/-- See `extractMember`. -/
def extractAll (cwd : PyPath) (fin : Option Exc) : List Member → Prog Unit
  | [] => match fin with
    | some e => Prog.raise e
    | none => Prog.pure ()
  | m :: ms => do
    extractMember cwd m
    extractAll cwd fin ms

/-- `ZipFile.write(name)` (standard library), the name of the entry: normalized, without leading slashes.  Simplification: a name that
leads out of the directory keeps no `..`. -/
def arcName (n : Str) : Str := joinWith '/' (PyPath.resolve ⟨['/'], []⟩ ⟨['/'], (PyPath.parse n).parts⟩)

/-- The loop over the extracted files, `tar_gz_to_zip.py:68-71`: the archive afterwards, and the exception if one was raised. -/
def packAt (cwd : PyPath) : List Member → Zip.Archive → FS → (Zip.Archive × Option Exc) × FS
  | [], a, fs => ((a, none), fs)
  | m :: ms, a, fs =>
    let l := PyPath.resolve cwd (PyPath.parse m.name)
    match (if m.isFile then (do
        let b ← readData l
        Prog.pure (Zip.writestr a (arcName m.name) b)) else Prog.pure a : Prog Zip.Archive) fs with
    | (.error e, fs') => ((a, some e), fs')
    | (.ok a', fs') =>
      match osRemove l fs' with
      | (.ok _, fs'') => packAt cwd ms a' fs''
      | (.error e, fs'') => ((a', some e), fs'')

/-- The `with tarfile.open(...)` block, `tar_gz_to_zip.py:64-84`: what is in the archive afterwards, and the exception if one was raised. -/
def convertAt (untar : Bytes → Res (List Member × Option Exc)) (cwd : PyPath) (args : Args) (tar : Loc) (fs : FS) : (Zip.Archive × Option Exc) × FS :=
  match openTar untar tar fs with
  | (.error e, fs') => (([], some e), fs')
  | (.ok (ms, fin), fs') =>
    if args.dontStream then
      match extractAll cwd fin ms fs' with
      | (.error e, fs'') => (([], some e), fs'')
      | (.ok _, fs'') => packAt cwd ms [] fs''
    else (streamMembers args.omitLargeFiles (args.largeFileCutoff * 1000000000) fin ms [], fs')

/-- See `convertAt`. -/
def convert (untar : Bytes → Res (List Member × Option Exc)) (cwd : PyPath) (args : Args) (tar : Loc) : Prog (Zip.Archive × Option Exc) := fun fs =>
  match convertAt untar cwd args tar fs with
  | (r, fs') => (.ok r, fs')

/-- `main`, `tar_gz_to_zip.py:45-84`: the archive is written when the `with` block is left, also by an exception. -/
def main (untar : Bytes → Res (List Member × Option Exc)) (cwd : PyPath) (args : Args) : Prog Unit := do
  let out := PyPath.resolve cwd (PyPath.parse (outputName args.tarFileName))
  removeExisting out
  createZip out
  let (a, e) ← convert untar cwd args (PyPath.resolve cwd (PyPath.parse args.tarFileName))
  writeFile out (.zip a)
  match e with
  | some e => Prog.raise e
  | none => Prog.pure ()

end TarToZip
end Vista
