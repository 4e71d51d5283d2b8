import Verif.Spec.Zip
import Verif.Model.ZipLife

/-!
# The life of a zip sink

A zip sink as a machine with three phases that knows nothing of archives and entries.
-/
namespace Vista
namespace Zip

/-- What is in a zip file: the value of each key, and the list of keys, if there is one. -/
structure Store (V : Type) where
  value : Str → Option V
  listed : Option (Str → Bool)

/-- Nothing. -/
def Store.nothing {V : Type} : Store V := ⟨fun _ => none, none⟩

/-- Not entered yet, entered, or left. -/
inductive Phase
  | new
  | entered
  | left
  deriving DecidableEq

/-- The state: the file at the path, what is in the open archive, and the keys that are refused. -/
structure Life (V : Type) where
  phase : Phase
  file : Option (Store V)
  current : Store V
  refused : Str → Bool

/-- The second argument of `put`: `None`, a value, or something that is neither a string nor bytes. -/
inductive Arg (V : Type)
  | none
  | value (v : V)
  | unsuitable

/-- What happens: a method is called, or, between, someone else replaces the file; then it holds `file`. -/
inductive Event (V : Type)
  | enter
  | put (key : Str) (x : Arg V)
  | exit
  | replaced (disk : Disk) (file : Option (Store V))

/-- The settings of a sink. -/
structure Settings where
  filename : Str → Res Str
  overwrite : Bool
  readsKeys : Bool
  writesKeys : Bool

variable {V : Type}

/-- A sink that has just been made. -/
def Life.start (file : Option (Store V)) : Life V := ⟨.new, file, .nothing, fun _ => false⟩

/-- What a sink starts with when it is entered. -/
def Life.opened (S : Settings) (l : Life V) : Store V := if S.overwrite then .nothing else l.file.getD .nothing

/-- The state after an event, and the outcome.  A key for which a `put` gets past the first checks is refused from then on, whether or
not the `put` succeeds, and as long as the sink object exists. -/
def Life.after (S : Settings) (l : Life V) : Event V → Life V × Res Unit
  | .enter =>
    ({ l with
        phase := .entered
        current := l.opened S
        refused := fun k => l.refused k || (S.readsKeys && match (l.opened S).listed with | some L => L k | none => false) }, .ok ())
  | .put k x =>
    match l.phase, x with
    | .new, _ => (l, .error .assertionError)
    | _, .none => (l, .error .valueError)
    | phase, x =>
      if l.refused k then (l, .error .valueError)
      else
        let l' := { l with refused := fun j => l.refused j || decide (j = k) }
        match S.filename k, x, phase with
        | .error e, _, _ => (l', .error e)
        | .ok _, .value v, .entered => ({ l' with current := { l.current with value := fun j => if j = k then some v else l.current.value j } }, .ok ())
        | .ok _, _, _ => (l', .error .valueError)
  | .exit =>
    match l.phase with
    | .new => (l, .error .attributeError)
    | .entered =>
      ({ l with phase := .left, file := some (if S.writesKeys then { l.current with listed := some l.refused } else l.current) }, .ok ())
    | .left => (l, if S.writesKeys then .error .valueError else .ok ())
  | .replaced _ file => ({ l with file := file }, .ok ())

/-- The state after several events, and the outcomes. -/
def Life.run (S : Settings) : Life V → List (Event V) → Life V × List (Res Unit)
  | l, [] => (l, [])
  | l, e :: es => (((l.after S e).1.run S es).1, (l.after S e).2 :: ((l.after S e).1.run S es).2)

/-- The source offers the store: its list of keys, each once; the values; for other allowed keys `KeyError` or the default; for keys
without a file name the error. -/
structure Offers (s : KVSource V) (fn : Str → Res Str) (allowed : Str → Prop) (st : Store V) : Prop where
  unlisted : st.listed = none → s.keys = .ok none
  listed : ∀ L, st.listed = some L → ∃ ks, s.keys = .ok (some ks) ∧ ks.Nodup ∧ ∀ k, k ∈ ks ↔ L k = true
  present : ∀ k v, allowed k → st.value k = some v → s.getItem k = .ok v ∧ ∀ (D : Type) (d : D), s.get D k d = .ok (.inl v)
  absent : ∀ k, allowed k → st.value k = none → s.getItem k = .error .keyError ∧ ∀ (D : Type) (d : D), s.get D k d = .ok (.inr d)
  unnamed : ∀ k e, fn k = .error e → s.getItem k = .error e ∧ ∀ (D : Type) (d : D), s.get D k d = .error e

/-- The file holds the store: a source that is entered offers it.  No file: entering raises. -/
def AtPath (cd : Codec V) (fn : Str → Res Str) (allowed : Str → Prop) (disk : Disk) : Option (Store V) → Prop
  | none => disk = none ∧ ∀ src : Source V, src.enter disk = .error .ioError
  | some st => ∃ src, (Source.create ⟨fn, some readKeysFile, cd.process⟩).enter disk = .ok src ∧ Offers src.asSource fn allowed st

/-- The list of keys of the file does not have the empty string. -/
def NoEmptyKey (file : Option (Store V)) : Prop := ∀ st L, file = some st → st.listed = some L → L [] = false

/-- The events considered: the file is replaced, and the sink is entered, only while the sink is not open; keys are not empty, have no
line feed, and are allowed, unless the file name function raises. -/
def Considered (cd : Codec V) (fn : Str → Res Str) (allowed : Str → Prop) (l : Life V) : Event V → Prop
  | .enter => l.phase ≠ .entered
  | .put k _ => k ≠ [] ∧ '\n' ∉ k ∧ (allowed k ∨ ∃ e, fn k = .error e)
  | .exit => True
  | .replaced disk file => l.phase ≠ .entered ∧ AtPath cd fn allowed disk file ∧ NoEmptyKey file

/-- The same for several events. -/
def AllConsidered (cd : Codec V) (allowed : Str → Prop) (S : Settings) : Life V → List (Event V) → Prop
  | _, [] => True
  | l, e :: es => Considered cd S.filename allowed l e ∧ AllConsidered cd allowed S (l.after S e).1 es

/-- The argument. -/
def Arg.toValue (cd : Codec V) : Arg V → Value
  | .none => .none
  | .value v => cd.value v
  | .unsuitable => .other

/-- The event happening to a file and a sink. -/
def happen (cd : Codec V) (disk : Disk) (s : Sink) : Event V → (Disk × Sink) × Res Unit
  | .enter => s.call disk .enter
  | .put k x => s.call disk (.put k (x.toValue cd))
  | .exit => s.call disk .exit
  | .replaced disk' _ => ((disk', s), .ok ())

/-- Several events. -/
def happenAll (cd : Codec V) : Disk → Sink → List (Event V) → (Disk × Sink) × List (Res Unit)
  | disk, s, [] => ((disk, s), [])
  | disk, s, e :: es =>
    let r := happen cd disk s e
    let r' := happenAll cd r.1.1 r.1.2 es
    (r'.1, r.2 :: r'.2)

/-- Using a sink object for several sessions, one after the other. -/
def sessionEvents (xs : List (List (Str × V))) : List (Event V) :=
  xs.flatMap fun puts => .enter :: puts.map (fun e => .put e.1 (.value e.2)) ++ [.exit]

/-- A store whose list of keys is right. -/
def Store.of (M : Str → Option V) : Store V := ⟨M, some fun k => (M k).isSome⟩

/-- What happens to a source object: it is entered, with this file at the path, or left. -/
inductive SourceEvent
  | enter (disk : Disk)
  | exit

/-- The source after an event, and the outcome. -/
def sourceHappen (s : Source V) : SourceEvent → Source V × Res Unit
  | .enter disk => s.callEnter disk
  | .exit => s.callExit

/-- Several events. -/
def sourceHappenAll : Source V → List SourceEvent → Source V × List (Res Unit)
  | s, [] => (s, [])
  | s, e :: es => ((sourceHappenAll (sourceHappen s e).1 es).1, (sourceHappen s e).2 :: (sourceHappenAll (sourceHappen s e).1 es).2)

/-- The file that is open after an event, if any. -/
def openAfter (before : Option Archive) : SourceEvent → Option Archive
  | .enter (some a) => some a
  | .enter none => before
  | .exit => none

/-- The outcome of an event: entering needs a file, leaving needs to be entered. -/
def sourceOutcome (before : Option Archive) : SourceEvent → Res Unit
  | .enter (some _) => .ok ()
  | .enter none => .error .ioError
  | .exit => if before.isSome then .ok () else .error .assertionError

/-- The same with a keys function (or without: `none`), which may raise. -/
def sourceOutcomeWith (keysFunction : Option (Archive → Res (Option (List Str)))) (before : Option Archive) : SourceEvent → Res Unit
  | .enter (some a) =>
    match keysFunction with
    | none => .ok ()
    | some f =>
      match f a with
      | .ok _ => .ok ()
      | .error e => .error e
  | e => sourceOutcome before e

/-- The outcomes of several events, with a keys function. -/
def sourceOutcomesWith (kf : Option (Archive → Res (Option (List Str)))) : Option Archive → List SourceEvent → List (Res Unit)
  | _, [] => []
  | a, e :: es => sourceOutcomeWith kf a e :: sourceOutcomesWith kf (openAfter a e) es

/-- What the keys function returned, each time the source was entered and it did not raise. -/
def keysReturned (f : Archive → Res (Option (List Str))) (es : List SourceEvent) : List (Option (List Str)) :=
  es.filterMap fun
    | .enter (some a) =>
      match f a with
      | .ok ks => some ks
      | .error _ => none
    | _ => none

/-- The outcomes of several events. -/
def sourceOutcomes : Option Archive → List SourceEvent → List (Res Unit)
  | _, [] => []
  | a, e :: es => sourceOutcome a e :: sourceOutcomes (openAfter a e) es

end Zip
end Vista
