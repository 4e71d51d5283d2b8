import Verif.Spec.TarToZip
import Verif.Spec.CrashScripts
import Verif.Spec.DirToStore

/-!
# What killed conversions leave
-/
namespace Vista
namespace TarToZip

/-- What killed conversions of a tar file leave: the zip file is as before, or missing, or no zip file (some bytes), or a `good` archive; of the
members in `ms`, directories may have been made for them, and the file at the place of a member is as before, or missing, or holds a beginning of
the member; the rest is as before. -/
structure TarTorn (cwd : PyPath) (ms : List Member) (fs : FS) (zip : Loc) (good : Zip.Archive → Prop) (s : FS) : Prop where
  tree : s.Tree
  output : s.node zip = fs.node zip ∨ s.node zip = none ∨ (∃ b, s.node zip = some (.file (.data b))) ∨ ∃ A, good A ∧ s.node zip = some (.file (.zip A))
  dirs : ∀ m ∈ ms, ∀ q, q <+: memberPlace cwd m → q ≠ memberPlace cwd m → s.node q = fs.node q ∨ (fs.node q = none ∧ s.node q = some .dir)
  members : ∀ m ∈ ms, s.node (memberPlace cwd m) = fs.node (memberPlace cwd m) ∨ s.node (memberPlace cwd m) = none ∨
    ∃ b more, m.data = .ok (b ++ more) ∧ s.node (memberPlace cwd m) = some (.file (.data b))
  others : ∀ q, q ≠ zip → (¬ ∃ m ∈ ms, q <+: memberPlace cwd m) → s.node q = fs.node q

end TarToZip

namespace DirToStore

/-- What killed runs leave of copying the files below `d` into the directory `l`: everything in it, but for the index, has a key as name and
holds a beginning of a file with this key; if there is an index (or a beginning of it), then every key is there with all of a file that has it; the
rest is as before. -/
structure DirTorn (fs : FS) (d : Loc) (strip : Bool) (l : Loc) (s : FS) : Prop where
  tree : s.Tree
  content : ∀ q, l <+: q → q ≠ l → q ≠ l ++ ["_index".toList] → s.node q ≠ none →
    ∃ k b more, q = l ++ [k] ∧ HasFile fs d strip k (b ++ more) ∧ s.node q = some (.file (.data b))
  index : s.node (l ++ ["_index".toList]) ≠ none → ∀ k b, HasFile fs d strip k b →
    ∃ b', HasFile fs d strip k b' ∧ s.node (l ++ [k]) = some (.file (.data b'))
  others : ∀ q, ¬ l <+: q → s.node q = fs.node q

end DirToStore
end Vista
