import Verif.Spec.Zip
import Verif.Model.ZipImage

/-!
# Sessions of zip sinks, some of which are killed
-/
namespace Vista
namespace ZipImage
open Zip

/-- A session that ran to its end, or whose process was killed at some point. -/
inductive Event (V : Type)
  | done (x : Session V)
  | killed (x : Session V)

/-- The session. -/
def Event.session {V : Type} : Event V → Session V
  | .done x => x
  | .killed x => x

/-- What the path can hold after a history: nothing that can be read (`none`), or a store with exactly these values.  A session that
ran to its end leaves what it should, an unreadable file counting as empty.  A killed one leaves what was there, or nothing that can be
read, or what it should have left. -/
inductive CanHold {V : Type} : List (Event V) → Option (Str → Option V) → Prop
  | start : CanHold [] none
  | done {h : List (Event V)} {m : Option (Str → Option V)} (x : Session V) : CanHold h m →
      CanHold (h ++ [.done x]) (some (afterSession (m.getD fun _ => none) x.overwrite x.puts))
  | unchanged {h : List (Event V)} {m : Option (Str → Option V)} (x : Session V) : CanHold h m → CanHold (h ++ [.killed x]) m
  | unreadable {h : List (Event V)} {m : Option (Str → Option V)} (x : Session V) : CanHold h m → CanHold (h ++ [.killed x]) none
  | finished {h : List (Event V)} {m : Option (Str → Option V)} (x : Session V) : CanHold h m →
      CanHold (h ++ [.killed x]) (some (afterSession (m.getD fun _ => none) x.overwrite x.puts))

/-- The calls of `put` of a session. -/
def calls {V : Type} (value : V → Value) (x : Session V) : List (Str × Value) := x.puts.map fun e => (e.1, value e.2)

/-- What can be at the path after a history that began without a file, each session with a sink of its own. -/
inductive Runs {V : Type} (order : List Str → List Str) (fn : Str → Res Str) (value : V → Value) : List (Event V) → Option Image → Prop
  | start : Runs order fn value [] none
  | done {h : List (Event V)} {file file' : Option Image} {sink : Sink} {outs : List (Res Unit)} (x : Session V) : Runs order fn value h file →
      Sink.create (defaultConfig order fn x.overwrite) = .ok sink → Done x.overwrite file sink (calls value x) outs file' →
      Runs order fn value (h ++ [.done x]) file'
  | killed {h : List (Event V)} {file file' : Option Image} {sink : Sink} (x : Session V) : Runs order fn value h file →
      Sink.create (defaultConfig order fn x.overwrite) = .ok sink → Killed x.overwrite file sink (calls value x) file' →
      Runs order fn value (h ++ [.killed x]) file'

end ZipImage
end Vista
