import Verif.Model.Checkpoints
import Verif.Model.DirStore

/-!
# Processes that are killed

A process can be killed (`SIGKILL`) between any two of its system calls.  What its completed system calls did stays; files it has open
hold what was flushed of them, which is some beginning of what the program wrote (Python buffers).  Losing power, where the operating
system may lose completed calls too, is not modelled.
-/
namespace Vista

/-- A program together with the states of the file system in which it can be killed, by the state it is started in. -/
structure Killable (α : Type) where
  run : Prog α
  killed : FS → FS → Prop

namespace Killable

/-- No system call. -/
def pure {α : Type} (a : α) : Killable α := ⟨Prog.pure a, fun fs s => s = fs⟩

/-- One after the other, unless the first raises. -/
def bind {α β : Type} (x : Killable α) (f : α → Killable β) : Killable β where
  run := Prog.bind x.run fun a => (f a).run
  killed fs s := x.killed fs s ∨ ∃ a fs', x.run fs = (.ok a, fs') ∧ (f a).killed fs' s

instance : Monad Killable where
  pure := Killable.pure
  bind := Killable.bind

/-- A computation that does not touch the file system. -/
def ofRes {α : Type} (r : Res α) : Killable α := ⟨Prog.ofRes r, fun fs s => s = fs⟩

/-- `raise`. -/
def raise {α : Type} (e : Exc) : Killable α := ⟨Prog.raise e, fun fs s => s = fs⟩

/-- A single system call that changes the file system. -/
def atomic {α : Type} (p : Prog α) : Killable α := ⟨p, fun fs s => s = fs ∨ s = (p fs).2⟩

/-- `Path.mkdir(parents=True, exist_ok=True)` (standard library): the directories are made from the outermost to the innermost. -/
def mkdirs (p : Loc) : Killable Unit := ⟨Vista.mkdirs p, fun fs s => s = fs ∨ ∃ q, q <+: p ∧ s = (Vista.mkdirs q fs).2⟩

/-- `shutil.rmtree` (standard library): the entries are removed one by one in any order, a directory after what is in it. -/
def rmtreePath (cwd p : PyPath) : Killable Unit where
  run := Checkpoints.rmtreePath cwd p
  killed fs s := s = fs ∨ s = (Checkpoints.rmtreePath cwd p fs).2 ∨ ∃ gone : Loc → Bool,
    (∀ q, gone q = true → PyPath.resolve cwd p <+: q ∧ q ≠ PyPath.resolve cwd p) ∧
    (∀ q r, gone q = true → q <+: r → gone r = true) ∧ fs.isDir (PyPath.resolve cwd p) = true ∧ s = fs.filter fun e => !gone e.1

/-- Opening a file for writing, writing bytes, closing it. -/
def writeFile (p : Loc) (b : Bytes) : Killable Unit where
  run := Vista.writeFile p (.data b)
  killed fs s := s = fs ∨ ∃ b' rest, b = b' ++ rest ∧ s = (Vista.writeFile p (.data b') fs).2

/-- What a `with` block or `try` does: go on after an exception. -/
def attempt {α : Type} (x : Killable α) : Killable (Res α) where
  run := fun fs => (.ok (x.run fs).1, (x.run fs).2)
  killed := x.killed

end Killable

/-- `CharSink.to_file(path).write(data)` for the encoded text, `ByteSink.to_file(path).write(data)`, `io_utils.py:280-291, 302-310, 437-455,
586-599`; see `writeBytesTo`. -/
def writeBytesToK (cwd : PyPath) (p : PyPath) (b : Bytes) : Killable Unit := do
  Killable.mkdirs (PyPath.resolve cwd p.parent)
  Killable.writeFile (PyPath.resolve cwd p) b

namespace Checkpoints

/-- `Checkpoints.from_directory`, `checkpoints.py:28-39`. -/
def fromDirectoryK (cwd directory : PyPath) : Killable PyPath := do
  Killable.mkdirs (PyPath.resolve cwd directory)
  Killable.pure directory

/-- `_CheckPointDirectory.set`, `checkpoints.py:53-55`; `touch` changes at most one thing. -/
def setK (cwd directory : PyPath) (name : Str) : Killable Unit := do
  let n ← Killable.ofRes (checkStr (some name))
  Killable.atomic (touch (PyPath.resolve cwd (directory.div (PyPath.parse n))))

/-- `_CheckPointDirectory.reset_all`, `checkpoints.py:61-63`. -/
def resetAllK (cwd directory : PyPath) : Killable Unit := do
  Killable.rmtreePath cwd directory
  Killable.mkdirs (PyPath.resolve cwd directory)

/-- What programs sharing a checkpoint directory one after the other do: get the checkpoints, set one, reset all; or are killed while they
do so. -/
inductive Ev
  | start
  | startKilled
  | set (name : Str)
  | setKilled (name : Str)
  | reset
  | resetKilled
  deriving DecidableEq

/-- What can become of the file system. -/
inductive Life (cwd P : PyPath) (fs0 : FS) : List Ev → FS → Prop
  | nil : Life cwd P fs0 [] fs0
  | start {evs fs fs'} : Life cwd P fs0 evs fs → (fromDirectoryK cwd P).run fs = (.ok P, fs') → Life cwd P fs0 (evs ++ [.start]) fs'
  | startKilled {evs fs fs'} : Life cwd P fs0 evs fs → (fromDirectoryK cwd P).killed fs fs' → Life cwd P fs0 (evs ++ [.startKilled]) fs'
  | set {evs fs fs' n} : Life cwd P fs0 evs fs → (setK cwd P n).run fs = (.ok (), fs') → Life cwd P fs0 (evs ++ [.set n]) fs'
  | setKilled {evs fs fs' n} : Life cwd P fs0 evs fs → (setK cwd P n).killed fs fs' → Life cwd P fs0 (evs ++ [.setKilled n]) fs'
  | reset {evs fs fs'} : Life cwd P fs0 evs fs → (resetAllK cwd P).run fs = (.ok (), fs') → Life cwd P fs0 (evs ++ [.reset]) fs'
  | resetKilled {evs fs fs'} : Life cwd P fs0 evs fs → (resetAllK cwd P).killed fs fs' → Life cwd P fs0 (evs ++ [.resetKilled]) fs'

end Checkpoints

namespace DirSink

/-- `__enter__`, `key_value.py:410-414, 437-441`; `rmdir` is one system call. -/
def enterK (cwd : PyPath) (s : DirSink) : Killable DirSink := do
  Killable.atomic (rmdirPath cwd s.path)
  Killable.mkdirs (PyPath.resolve cwd s.path)
  Killable.pure { s with idToFile := [] }

/-- `put`, `key_value.py:405-408, 432-435`. -/
def putK (cwd : PyPath) (s : DirSink) (key : Str) (b : Bytes) : Killable DirSink := do
  let outFile := s.path.div (PyPath.parse key)
  writeBytesToK cwd outFile b
  Killable.pure { s with idToFile := dictSet key outFile s.idToFile }

/-- `__exit__`, `key_value.py:416-417, 443-444`. -/
def exitK (cwd : PyPath) (s : DirSink) : Killable Unit :=
  writeBytesToK cwd (s.path.div (PyPath.parse "_index".toList)) (encodeUtf8 (docMapText cwd s.idToFile))

/-- Several calls of `put`, up to the first that raises. -/
def putsK (cwd : PyPath) (s : DirSink) : List (Str × Bytes) → Killable (DirSink × Option Exc)
  | [] => Killable.pure (s, none)
  | (k, b) :: rest => do
    match ← Killable.attempt (s.putK cwd k b) with
    | .ok s' => putsK cwd s' rest
    | .error e => Killable.pure (s, some e)

/-- `with sink: sink.put(...); ...`. -/
def sessionK (cwd : PyPath) (s : DirSink) (calls : List (Str × Bytes)) : Killable Unit := do
  let s1 ← s.enterK cwd
  let (s2, e) ← putsK cwd s1 calls
  s2.exitK cwd
  match e with
  | some e => Killable.raise e
  | none => Killable.pure ()

end DirSink
end Vista
