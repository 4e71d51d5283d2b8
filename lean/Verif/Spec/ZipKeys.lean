import Verif.Model.ZipKeys

/-!
# What zip sinks with any key functions should do

Everything is said of what the calls on one sink object gave, in order (a list of calls and events).
-/
namespace Vista
namespace Zip
namespace Keyed

/-- The sink has been entered (even if that raised). -/
def Opened (t : List (KOp × Event)) : Prop := ∃ ev, (KOp.enter, ev) ∈ t

/-- The sink has been entered, and has not been left without an exception since. -/
def IsOpen (t : List (KOp × Event)) : Prop := ∃ t1 ev t2, t = t1 ++ (.enter, ev) :: t2 ∧ (KOp.exit, Event.returned) ∉ t2

/-- The sink is not entered while it is open. -/
def OneAtATime (t : List (KOp × Event)) : Prop := ∀ t1 ev t2, t = t1 ++ (.enter, ev) :: t2 → ¬ IsOpen t1

/-- The key is refused: the function that reads keys told of it, or it was passed to `put`, with something other than `None`, after the
sink had been entered for the first time. -/
def Refused (t : List (KOp × Event)) (k : Str) : Prop :=
  (∃ ks, (.enter, .entered ks) ∈ t ∧ k ∈ ks) ∨ ∃ t1 v ev t2, t = t1 ++ (.put k v, ev) :: t2 ∧ v ≠ .none ∧ Opened t1

/-- The bytes that stand for a value. -/
def bytesOf : Value → Option Bytes
  | .str s => some (encodeUtf8 s)
  | .bytes b => some b
  | _ => none

/-- The values at the path, and those in the archive while it is open. -/
structure Values where
  atPath : Str → Option Bytes
  current : Option (Str → Option Bytes)

/-- How a call changes them: entering starts with nothing, or with what is at the path; a `put` that returns adds a value; leaving without
an exception brings what is in the archive to the path. -/
def Values.step (overwrite : Bool) (w : Values) : KOp × Event → Values
  | (.enter, _) => ⟨w.atPath, some (if overwrite then fun _ => none else w.atPath)⟩
  | (.put k v, .returned) => ⟨w.atPath, w.current.map fun C j => if j = k then bytesOf v else C j⟩
  | (.exit, .returned) => ⟨w.current.getD w.atPath, none⟩
  | _ => w

/-- Before anything was called. -/
def Values.start (M : Str → Option Bytes) : Values := ⟨M, none⟩

/-- After the calls, if the path held these values. -/
def valuesAfter (overwrite : Bool) (M : Str → Option Bytes) (t : List (KOp × Event)) : Values :=
  t.foldl (Values.step overwrite) (.start M)

/-- The conditions on the file name function and the keys in use: names without NUL, different for different keys. -/
structure Names (filename : Str → Res Str) (allowed : Str → Prop) : Prop where
  names : ∀ k, allowed k → ∃ n, filename k = .ok n ∧ '\x00' ∉ n
  injective : ∀ k k' n, allowed k → allowed k' → filename k = .ok n → filename k' = .ok n → k = k'

/-- The entry is not named like that of a key in use. -/
def Apart (filename : Str → Res Str) (allowed : Str → Prop) (name : Str) : Prop :=
  ∀ k n, allowed k → filename k = .ok n → entryName name ≠ n

/-- The key functions add only entries that are not named like those of keys. -/
def KeepApart (cfg : Config) (allowed : Str → Prop) : Prop :=
  (∀ g, cfg.keysIn = some g → ∀ a, ∀ e ∈ (g a).1, Apart cfg.filename allowed e.1) ∧
  ∀ g, cfg.keysOut = some g → ∀ h ks, ∀ e ∈ (g h ks).1, Apart cfg.filename allowed e.1

/-- A bytes source without a key function, entered with this archive at the path, gives these values, and for other keys in use
`KeyError` or the default. -/
def Gives (filename : Str → Res Str) (allowed : Str → Prop) (a : Archive) (M : Str → Option Bytes) : Prop :=
  ∃ src, (Source.create ⟨filename, none, fun b => .ok b⟩).enter (some a) = .ok src ∧
    (∀ k b, allowed k → M k = some b → src.asSource.getItem k = .ok b ∧ ∀ (D : Type) (d : D), src.asSource.get D k d = .ok (.inl b)) ∧
    ∀ k, allowed k → M k = none → src.asSource.getItem k = .error .keyError ∧ ∀ (D : Type) (d : D), src.asSource.get D k d = .ok (.inr d)

/-- The file gives these values (nothing, if there is none or it cannot be read). -/
def File.Gives (filename : Str → Res Str) (allowed : Str → Prop) (f : File) (M : Str → Option Bytes) : Prop :=
  match f with
  | .archive a => Keyed.Gives filename allowed a M
  | _ => ∀ k, allowed k → M k = none

/-- The calls considered: the keys passed to `put` are in use, or the file name function raises. -/
def InUse (filename : Str → Res Str) (allowed : Str → Prop) (ops : List KOp) : Prop :=
  ∀ k v, KOp.put k v ∈ ops → allowed k ∨ ∃ e, filename k = .error e

end Keyed
end Zip
end Vista
