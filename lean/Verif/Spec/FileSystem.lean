import Verif.Model.FileSystem

/-!
# What programs do to the file system
-/
namespace Vista
namespace FS

/-- The file system is a tree: something below a place means that there is a directory at that place; nothing is listed for the root. -/
structure Tree (fs : FS) : Prop where
  parents : ∀ p n, fs.node (p ++ [n]) ≠ none → fs.node p = some .dir
  root : [] ∉ fs.map (·.1)

/-- A file is in the way: at the place itself or at one of the places above it. -/
def Blocked (fs : FS) (p : Loc) : Prop := ∃ q c, q <+: p ∧ fs.node q = some (.file c)

/-- The same file system except that the place, and the places above it, are directories now. -/
def WithDirs (fs : FS) (p : Loc) (fs' : FS) : Prop :=
  (∀ q, q <+: p → fs'.node q = some .dir) ∧ ∀ q, ¬ q <+: p → fs'.node q = fs.node q

/-- The same file system except that there is nothing at the place or below. -/
def Without (fs : FS) (p : Loc) (fs' : FS) : Prop :=
  (∀ q, p <+: q → fs'.node q = none) ∧ ∀ q, ¬ p <+: q → fs'.node q = fs.node q

/-- The same file system except for this file. -/
def WithFile (fs : FS) (p : Loc) (c : Content) (fs' : FS) : Prop :=
  fs'.node p = some (.file c) ∧ ∀ q, q ≠ p → fs'.node q = fs.node q

/-- A directory with nothing in it. -/
def EmptyDir (fs : FS) (p : Loc) : Prop := fs.node p = some .dir ∧ ∀ n, fs.node (p ++ [n]) = none

end FS
end Vista
