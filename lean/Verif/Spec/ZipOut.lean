import Verif.Model.FileSystem
import Verif.Spec.Zip

/-!
# What it means that a file is a store
-/
namespace Vista

/-- A key a zip store with default settings can hold. -/
structure PlainKey (k : Str) : Prop where
  reserved : k ≠ "__keys".toList
  newline : '\n' ∉ k
  nul : '\x00' ∉ k
  nonempty : k ≠ []

/-- The file is a zip store of bytes holding exactly the mapping `M`: a source for it can be opened, and offers `M`. -/
def Stores (fs : FS) (l : Loc) (M : Str → Option Bytes) : Prop :=
  ∃ a, fs.node l = some (.file (.zip a)) ∧
    ∃ src, (Zip.Source.create (Zip.bytesConfig fun k => .ok k)).enter (some a) = .ok src ∧ Zip.Serves src.asSource PlainKey M

end Vista
