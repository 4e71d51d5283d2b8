import Verif.Model.DirLife
import Verif.Spec.Text
import Verif.Spec.FileSystem

/-!
# What directory sinks should do, whatever is done with them
-/
namespace Vista
namespace DirLife

/-- The text of an index: a line with the key, a tab and the path of its file for each of the keys, in their order. -/
def IsIndex (cwd P : PyPath) (keys : Str → Prop) (text : Str) : Prop :=
  ∃ ks : List Str, (ks.Pairwise fun a b => a ≠ b ∧ strLe a b = true) ∧ (∀ k, k ∈ ks ↔ keys k) ∧
    text = (ks.map fun k => k ++ '\t' :: (PyPath.absolute cwd ⟨P.root, P.parts ++ [k]⟩).render ++ ['\n']).flatten

/-- All there is to know about the directory and the sinks: is the directory there, what is in its files, and which keys the index
written by a sink would list. -/
structure State where
  there : Bool
  content : Str → Option Bytes
  listed : Nat → Str → Prop

/-- There is nothing in the directory. -/
def State.Empty (s : State) : Prop := s.there = true ∧ ∀ k, s.content k = none

/-- What each event should do. -/
inductive Step (cwd P : PyPath) : State → DirEvent → Res Unit → State → Prop
  /-- Entering a sink whose directory is empty: it begins with no keys. -/
  | entered (s : State) (i : Nat) : s.Empty →
      Step cwd P s (.enter i) (.ok ()) { s with listed := fun j => if j = i then fun _ => False else s.listed j }
  /-- Otherwise entering raises `OSError`, and nothing changes. -/
  | refused (s : State) (i : Nat) : ¬ s.Empty → Step cwd P s (.enter i) (.error .ioError) s
  /-- A value put is in its file, whether or not the sink has been entered. -/
  | put (s : State) (i : Nat) (k : Str) (b : Bytes) :
      Step cwd P s (.put i k b) (.ok ()) ⟨true, fun k' => if k' = k then some b else s.content k',
        fun j k' => s.listed j k' ∨ (j = i ∧ k' = k)⟩
  /-- Leaving a sink writes the index of what was put through this sink object. -/
  | exit (s : State) (i : Nat) (text : Str) : IsIndex cwd P (s.listed i) text →
      Step cwd P s (.exit i) (.ok ()) ⟨true, fun k' => if k' = "_index".toList then some (encodeUtf8 text) else s.content k', s.listed⟩
  /-- Somebody else empties the directory. -/
  | emptied (s : State) : Step cwd P s .emptied (.ok ()) { s with content := fun _ => none }

/-- What a history should do. -/
inductive Steps (cwd P : PyPath) : State → List DirEvent → List (Res Unit) → State → Prop
  | nil (s : State) : Steps cwd P s [] [] s
  | cons {s s' s'' : State} {ev : DirEvent} {r : Res Unit} {evs : List DirEvent} {rs : List (Res Unit)} :
      Step cwd P s ev r s' → Steps cwd P s' evs rs s'' → Steps cwd P s (ev :: evs) (r :: rs) s''

/-- The directory in the file system is as the state says: it holds files only (no zip archives, no directories), and if it is
missing then it could be made. -/
structure OnDisk (D : Loc) (s : State) (fs : FS) : Prop where
  tree : fs.Tree
  free : ¬ fs.Blocked D
  there : s.there = true ↔ fs.node D = some .dir
  content : ∀ k, fs.node (D ++ [k]) = (s.content k).map fun b => .file (.data b)

/-- Nothing has changed apart from the directory, except that directories above it may have been made. -/
def Untouched (D : Loc) (fs fs' : FS) : Prop :=
  ∀ q, ¬ D <+: q → fs'.node q = fs.node q ∨ (q <+: D ∧ fs.node q = none ∧ fs'.node q = some .dir)

/-- The keys are plain file names. -/
def PlainKeys (evs : List DirEvent) : Prop :=
  ∀ i k b, DirEvent.put i k b ∈ evs → k ≠ [] ∧ k ≠ ['.'] ∧ k ≠ ['.', '.'] ∧ '/' ∉ k

/-- Something is put through a sink, or a sink is left. -/
def IsWrite : DirEvent → Prop
  | .put .. => True
  | .exit _ => True
  | _ => False

/-- What was put, through whichever sink, in order. -/
def putsOf (evs : List DirEvent) : List (Str × Bytes) :=
  evs.filterMap fun ev => match ev with
    | .put _ k b => some (k, b)
    | _ => none

end DirLife
end Vista
