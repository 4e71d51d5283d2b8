import Verif.Model.Checkpoints

/-!
# Several processes sharing a checkpoint directory

The programs of `vistautils/checkpoints.py` as trees of system calls, and their interleavings: each system call is atomic, and between
any two of them the other processes can do theirs.
-/
namespace Vista
namespace Concurrent
open Checkpoints (checkStr)

/-- The system calls the programs make. -/
inductive Call
  | mkdir (p : Loc)
  | isDir (p : Loc)
  | isFile (p : Loc)
  | utime (p : Loc)
  | creat (p : Loc)
  | rmtree (p : Loc)

/-- What the operating system does.  `utime` sets the time of something that is there; `creat` is `open` with `O_CREAT | O_WRONLY`.
`rmtree` is not a system call but many (see `Vista.rmtree`), taken here as if nothing happened between them: this is only used to show
what can go wrong. -/
def Call.exec : Call → FS → Except Errno Bool × FS
  | .mkdir p, fs =>
    match fs.mkdir p with
    | .ok fs' => (.ok true, fs')
    | .error e => (.error e, fs)
  | .isDir p, fs => (.ok (fs.isDir p), fs)
  | .isFile p, fs => (.ok (fs.isFile p), fs)
  | .utime p, fs =>
    match fs.node p with
    | some _ => (.ok true, fs)
    | none => (.error .noent, fs)
  | .creat p, fs =>
    if p = [] then (.error .isdir, fs)
    else
      match fs.walk [] p.dropLast with
      | .error e => (.error e, fs)
      | .ok _ =>
        match fs.node p with
        | some .dir => (.error .isdir, fs)
        | some (.file _) => (.ok true, fs)
        | none => (.ok true, fs.set p (.file (.data (encodeUtf8 []))))
  | .rmtree p, fs =>
    match Vista.rmtree p fs with
    | (.ok _, fs') => (.ok true, fs')
    | (.error _, fs') => (.error .noent, fs')

/-- A program: it returns a value or raises, or makes a system call and goes on according to the answer. -/
inductive Sys (α : Type)
  | ret (r : Res α)
  | call (c : Call) (k : Except Errno Bool → Sys α)

namespace Sys

/-- One after the other, unless the first raises. -/
def bind {α β : Type} : Sys α → (α → Sys β) → Sys β
  | .ret (.ok a), f => f a
  | .ret (.error e), _ => .ret (.error e)
  | .call c k, f => .call c fun a => (k a).bind f

/-- Running without being interrupted. -/
def alone {α : Type} : Sys α → FS → Res α × FS
  | .ret r, fs => (r, fs)
  | .call c k, fs => (k (c.exec fs).1).alone (c.exec fs).2

end Sys

/-- `if not self.is_dir(): raise` (standard library, `Path.mkdir`). -/
def orIsDir (p : Loc) : Sys Unit :=
  .call (.isDir p) fun a =>
    match a with
    | .ok true => .ret (.ok ())
    | _ => .ret (.error .ioError)

/-- `Path.mkdir(exist_ok=True)` (standard library). -/
def mkdirCode (p : Loc) : Sys Unit :=
  .call (.mkdir p) fun a =>
    match a with
    | .ok _ => .ret (.ok ())
    | .error .noent => .ret (.error .ioError)
    | .error _ => orIsDir p

/-- `Path.mkdir(parents=True, exist_ok=True)` (standard library). -/
def mkdirsCode (p : Loc) : Sys Unit :=
  .call (.mkdir p) fun a =>
    match a with
    | .ok _ => .ret (.ok ())
    | .error .noent =>
      if h : p = [] then .ret (.error .ioError)
      else
        have : p.dropLast.length < p.length := by
          cases p with
          | nil => exact absurd rfl h
          | cons a l => simp
        (mkdirsCode p.dropLast).bind fun _ => mkdirCode p
    | .error _ => orIsDir p
termination_by p.length

/-- `Path.touch(exist_ok=True)` (standard library): first the time is set, and if that fails the file is opened. -/
def touchCode (p : Loc) : Sys Unit :=
  .call (.utime p) fun a =>
    match a with
    | .ok _ => .ret (.ok ())
    | .error _ => .call (.creat p) fun a =>
      match a with
      | .ok _ => .ret (.ok ())
      | .error _ => .ret (.error .ioError)

/-- What a process does with the checkpoints. -/
inductive Op
  | start
  | set (name : Str)
  | has (name : Str)
  | reset
  deriving DecidableEq

/-- `Checkpoints.from_directory`, `set`, `__contains__` and `reset_all`, `checkpoints.py:28-39, 53-63`; the answer counts for
`__contains__` only.  The path of `reset_all` is taken not to end in `.` or `..`. -/
def code (cwd directory : PyPath) : Op → Sys Bool
  | .start => (mkdirsCode (PyPath.resolve cwd directory)).bind fun _ => .ret (.ok true)
  | .set n => (touchCode (PyPath.resolve cwd (directory.div (PyPath.parse n)))).bind fun _ => .ret (.ok true)
  | .has n => .call (.isFile (PyPath.resolve cwd (directory.div (PyPath.parse n)))) fun a =>
    match a with
    | .ok b => .ret (.ok b)
    | .error _ => .ret (.ok false)
  | .reset => .call (.rmtree (PyPath.resolve cwd directory)) fun a =>
    match a with
    | .ok _ => (mkdirsCode (PyPath.resolve cwd directory)).bind fun _ => .ret (.ok true)
    | .error _ => .ret (.error .ioError)

/-- A process: between two calls, in one, or ended by an exception. -/
inductive Proc
  | idle (rest : List Op)
  | busy (op : Op) (x : Sys Bool) (rest : List Op)
  | dead

/-- What can be seen of the processes, by their numbers. -/
inductive Event
  | begun (i : Nat) (op : Op)
  | returned (i : Nat) (op : Op) (b : Bool)
  | raised (i : Nat) (op : Op) (e : Exc)
  deriving DecidableEq

/-- The processes, the file system they share, and what happened so far. -/
structure Config where
  procs : List Proc
  fs : FS
  trace : List Event

/-- One of the processes takes a step. -/
inductive Step (cwd P : PyPath) : Config → Config → Prop
  | begin {c : Config} {i op rest} : c.procs[i]? = some (.idle (op :: rest)) →
    Step cwd P c ⟨c.procs.set i (.busy op (code cwd P op) rest), c.fs, c.trace ++ [.begun i op]⟩
  | call {c : Config} {i op s k rest} : c.procs[i]? = some (.busy op (.call s k) rest) →
    Step cwd P c ⟨c.procs.set i (.busy op (k (s.exec c.fs).1) rest), (s.exec c.fs).2, c.trace⟩
  | done {c : Config} {i op b rest} : c.procs[i]? = some (.busy op (.ret (.ok b)) rest) →
    Step cwd P c ⟨c.procs.set i (.idle rest), c.fs, c.trace ++ [.returned i op b]⟩
  | raise {c : Config} {i op e rest} : c.procs[i]? = some (.busy op (.ret (.error e)) rest) →
    Step cwd P c ⟨c.procs.set i .dead, c.fs, c.trace ++ [.raised i op e]⟩

/-- The processes with what they are going to do. -/
def initial (programs : List (List Op)) (fs : FS) : Config := ⟨programs.map .idle, fs, []⟩

/-- Some number of steps. -/
inductive Steps (cwd P : PyPath) : Nat → Config → Config → Prop
  | zero {c : Config} : Steps cwd P 0 c c
  | succ {n : Nat} {c c1 c2 : Config} : Steps cwd P n c c1 → Step cwd P c1 c2 → Steps cwd P (n + 1) c c2

end Concurrent
end Vista
