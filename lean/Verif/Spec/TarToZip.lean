import Verif.Spec.FileSystem
import Mathlib.Data.List.Forall2
import Verif.Model.TarToZip

/-!
# What it means to convert a tar file
-/
namespace Vista
namespace TarToZip

/-- The members to be transferred: the regular files, except, if asked for, those larger than the cutoff. -/
def Kept (args : Args) (m : Member) : Prop := m.isFile = true ∧ (args.omitLargeFiles = true → (m.size : Rat) ≤ args.largeFileCutoff * 10 ^ 9)

instance (args : Args) : DecidablePred (Kept args) := fun m => inferInstanceAs (Decidable (_ ∧ _))

/-- The archive has one entry for each of the members, in their order, with their names and contents. -/
def Copies (ms : List Member) (A : Zip.Archive) : Prop := List.Forall₂ (fun m e => e.1 = m.name ∧ m.data = .ok e.2) ms A

/-- Where the tar file and the zip file are. -/
def tarPlace (cwd : PyPath) (args : Args) : Loc := PyPath.resolve cwd (PyPath.parse args.tarFileName)

/-- See `tarPlace`. -/
def zipPlace (cwd : PyPath) (args : Args) : Loc := PyPath.resolve cwd (PyPath.parse (outputName args.tarFileName))

/-- The zip file can be written. -/
structure Writable (fs : FS) (l : Loc) : Prop where
  tree : fs.Tree
  parent : fs.node l.dropLast = some .dir
  free : fs.node l ≠ some .dir

/-- The file is a tar file with these members; the iteration over them ends with the exception `fin`, if any. -/
def IsTar (untar : Bytes → Res (List Member × Option Exc)) (fs : FS) (l : Loc) (ms : List Member) (fin : Option Exc) : Prop :=
  ∃ b, fs.node l = some (.file (.data b)) ∧ untar b = .ok (ms, fin)

/-- The exception that the script ends with, if any. -/
def outcome : Option Exc → Res Unit
  | none => .ok ()
  | some e => .error e

/-- The name of the member is a relative path with these parts: none of them is empty, `.` or `..`. -/
structure Rel (m : Member) (r : List Str) : Prop where
  name : m.name = joinWith '/' r
  ne : r ≠ []
  plain : ∀ w ∈ r, w ≠ [] ∧ w ≠ ['.'] ∧ w ≠ ['.', '.'] ∧ '/' ∉ w ∧ '\x00' ∉ w

/-- The place where a member is extracted to. -/
def memberPlace (cwd : PyPath) (m : Member) : Loc := PyPath.resolve cwd (PyPath.parse m.name)

/-- The members are files, which can be read and extracted without getting in the way of each other; if there is something at their places
already, it is a file. -/
structure Extractable (cwd : PyPath) (fs : FS) (zip : Loc) (ms : List Member) : Prop where
  files : ∀ m ∈ ms, m.isFile = true ∧ (∃ b, m.data = .ok b) ∧ ∃ r, Rel m r
  free : ∀ m ∈ ms, fs.node (memberPlace cwd m) ≠ some .dir ∧ ¬ fs.Blocked (memberPlace cwd m).dropLast
  apart : ms.Pairwise fun m m' => ¬ memberPlace cwd m <+: memberPlace cwd m' ∧ ¬ memberPlace cwd m' <+: memberPlace cwd m
  output : ∀ m ∈ ms, ¬ zip <+: memberPlace cwd m

/-- Nothing has changed but the zip file, and that the directories for the members were made; there is nothing at the places of the members. -/
def OnlyDirs (cwd : PyPath) (ms : List Member) (fs : FS) (zip : Loc) (fs' : FS) : Prop :=
  (∀ m ∈ ms, ∀ q, q <+: memberPlace cwd m → q ≠ memberPlace cwd m → fs'.node q = some .dir) ∧
  (∀ m ∈ ms, fs'.node (memberPlace cwd m) = none) ∧
  ∀ q, q ≠ zip → (¬ ∃ m ∈ ms, q <+: memberPlace cwd m) → fs'.node q = fs.node q

end TarToZip
end Vista
