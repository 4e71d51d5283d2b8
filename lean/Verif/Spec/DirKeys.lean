import Verif.Model.DirStore
import Verif.Spec.Text

/-!
# Directory sinks with keys that are paths
-/
namespace Vista
namespace DirKeys

/-- The names on the way from the directory to the file of a key. -/
def names (k : Str) : List Str := (PyPath.parse k).parts

/-- A key that is a relative path without `..`, and can stand in a document map. -/
structure PathKey (k : Str) : Prop where
  relative : k.head? ≠ some '/'
  nonempty : names k ≠ []
  dotdot : ['.', '.'] ∉ names k
  safe : TextSafe k
  head : ∀ c, k.head? = some c → isSpace c = false
  last : ∀ c, k.getLast? = some c → isSpace c = false
  lastName : ∀ n c, (names k).getLast? = some n → n.getLast? = some c → isSpace c = false
  index : (names k).head? ≠ some "_index".toList

/-- The file of one key would be a directory on the way to the file of the other. -/
def Clash (k k' : Str) : Prop := names k ≠ names k' ∧ (names k <+: names k' ∨ names k' <+: names k)

/-- No two of the keys clash. -/
def NoClash (ks : List Str) : Prop := ∀ k ∈ ks, ∀ k' ∈ ks, ¬ Clash k k'

/-- The last value put for any key with the same file. -/
def lastInFile {V : Type} (puts : List (Str × V)) (k : Str) : Option V :=
  (puts.reverse.find? fun e => decide (names e.1 = names k)).map (·.2)

/-- What a source should serve: for each key put, the last value put for any key with the same file. -/
def served {V : Type} (puts : List (Str × V)) (k : Str) : Option V := if k ∈ puts.map (·.1) then lastInFile puts k else none

end DirKeys
end Vista
