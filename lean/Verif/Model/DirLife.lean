import Verif.Model.DirStore

/-!
# Directory sinks used in any way

Any number of sink objects for the same directory, with their methods called in any order, also outside `with` blocks.
-/
namespace Vista

/-- What may happen: a method of the `i`-th sink object is called, or somebody else deletes what is in the directory. -/
inductive DirEvent
  | enter (i : Nat)
  | put (i : Nat) (key : Str) (b : Bytes)
  | exit (i : Nat)
  | emptied

namespace DirSink

/-- The sink objects after a method of the `i`-th has given `r`: a method that raises leaves `id_to_file` as it is
(`key_value.py:405-417, 432-444`: the assignment is the last statement of `put` and of `__enter__`). -/
def afterCall (sinks : Nat → DirSink) (i : Nat) : Res DirSink × FS → Res Unit × (Nat → DirSink) × FS
  | (.ok s, fs) => (.ok (), (fun j => if j = i then s else sinks j), fs)
  | (.error e, fs) => (.error e, sinks, fs)

/-- One event: `put`, `key_value.py:405-408, 432-435`; `__enter__`, `410-414, 437-441`; `__exit__`, `416-417, 443-444`.  `D` is the
place of the directory. -/
def happen (cwd : PyPath) (D : Loc) (sinks : Nat → DirSink) (fs : FS) : DirEvent → Res Unit × (Nat → DirSink) × FS
  | .enter i => afterCall sinks i ((sinks i).enter cwd fs)
  | .put i k b => afterCall sinks i ((sinks i).put cwd k b fs)
  | .exit i => ((((sinks i).exit cwd) fs).1, sinks, (((sinks i).exit cwd) fs).2)
  | .emptied => (.ok (), sinks, fs.filter fun e => !(D.isPrefixOf e.1 && decide (e.1 ≠ D)))

/-- Several events, one after the other, and what each of the calls gave. -/
def happenAll (cwd : PyPath) (D : Loc) (sinks : Nat → DirSink) (fs : FS) : List DirEvent → List (Res Unit) × (Nat → DirSink) × FS
  | [] => ([], sinks, fs)
  | ev :: rest =>
    let r := happen cwd D sinks fs ev
    let rs := happenAll cwd D r.2.1 r.2.2 rest
    (r.1 :: rs.1, rs.2)

end DirSink
end Vista
