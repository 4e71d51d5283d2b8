import Verif.Spec.FromParams
import Verif.Spec.FileSystem
import Verif.Props.Files
import Verif.Model.DirToStore

/-!
# What it means to copy a directory into a store
-/
namespace Vista
namespace DirToStore

/-- `s` is the name without its last extension: the last dot, if it is neither the first nor the last character, and what follows it. -/
def Stripped (name s : Str) : Prop :=
  (∃ ext, name = s ++ '.' :: ext ∧ s ≠ [] ∧ ext ≠ [] ∧ '.' ∉ ext) ∨
  (s = name ∧ ¬ ∃ a ext, name = a ++ '.' :: ext ∧ a ≠ [] ∧ ext ≠ [] ∧ '.' ∉ ext)

/-- The key for a file name, with or without its extension. -/
def KeyFor (strip : Bool) (name k : Str) : Prop := if strip then Stripped name k else k = name

/-- The parameters ask for keys without extension (or not). -/
def Asks (p : Params) (strip : Bool) : Prop :=
  if strip then p.toVal.Reaches ["key_function".toList] (.str "strip_one_extension".toList)
  else ¬ Params.Present p "key_function".toList ∨ p.toVal.Reaches ["key_function".toList] (.str "identity".toList)

/-- The standard library's `rglob("*")`: everything below the directory, each place once, in any order. -/
def Scans (scan : FS → Loc → List Loc) : Prop :=
  ∀ fs d, (scan fs d).Nodup ∧ ∀ q, q ∈ scan fs d ↔ d <+: q ∧ q ≠ d ∧ fs.node q ≠ none

/-- There is, at any depth below the directory `d`, a file with this key and this content. -/
def HasFile (fs : FS) (d : Loc) (strip : Bool) (k : Str) (b : Bytes) : Prop :=
  ∃ q name, d <+: q ++ [name] ∧ fs.node (q ++ [name]) = some (.file (.data b)) ∧ KeyFor strip name k

/-- No two files below the directory have the same key. -/
def Distinct (fs : FS) (d : Loc) (strip : Bool) : Prop :=
  ∀ q q' name name' c c' k, d <+: q ++ [name] → d <+: q' ++ [name'] → fs.node (q ++ [name]) = some (.file c) →
    fs.node (q' ++ [name']) = some (.file c') → KeyFor strip name k → KeyFor strip name' k → q ++ [name] = q' ++ [name']

/-- The files below the directory hold bytes (not archives, whose bytes are not modelled), and their keys are `Good`. -/
def AllFiles (fs : FS) (d : Loc) (strip : Bool) (Good : Str → Prop) : Prop :=
  ∀ q name c, d <+: q ++ [name] → fs.node (q ++ [name]) = some (.file c) → (∃ b, c = .data b) ∧ ∀ k, KeyFor strip name k → Good k

/-- The interpreter and the module are as usual, and the parameters ask for a sink of the type `s`. -/
structure Output (E : FromParams.Env) (p : Params) (s : Str) (l : Loc) : Prop where
  py : FromParams.Understands E.py
  globals : ((FromParams.ownGlobals ++ E.rest).map (·.1)).Nodup
  typed : ∃ ns mods, FromParams.Typed E none p "output".toList ns s mods ∧ Params.PathIs E.cwd ns "path".toList l

end DirToStore
end Vista
