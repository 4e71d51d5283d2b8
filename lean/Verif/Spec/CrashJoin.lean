import Verif.Spec.CrashScripts

/-!
# What killed runs of joining into a directory leave
-/
namespace Vista

/-- What killed runs leave of joining the stores `Ms` into the directory `l`: everything in it, but for the index, has a key of an input as name and
holds a beginning of its value there; if there is an index (or a beginning of it), these are the whole values, and every key is there unless one
occurs in two inputs; the rest is as before. -/
structure JoinTorn (fs : FS) (l : Loc) (Ms : List (Str → Option Bytes)) (s : FS) : Prop where
  tree : s.Tree
  content : ∀ q, l <+: q → q ≠ l → q ≠ l ++ ["_index".toList] → s.node q ≠ none →
    ∃ k b more, q = l ++ [k] ∧ s.node q = some (.file (.data b)) ∧ ∃ M ∈ Ms, M k = some (b ++ more)
  whole : s.node (l ++ ["_index".toList]) ≠ none → ∀ q, l <+: q → q ≠ l → q ≠ l ++ ["_index".toList] → s.node q ≠ none →
    ∃ k b, q = l ++ [k] ∧ s.node q = some (.file (.data b)) ∧ ∃ M ∈ Ms, M k = some b
  all : s.node (l ++ ["_index".toList]) ≠ none → Disjoint' Ms → ∀ M ∈ Ms, ∀ k b, M k = some b → s.node (l ++ [k]) = some (.file (.data b))
  others : ∀ q, ¬ l <+: q → s.node q = fs.node q

end Vista
