import Verif.Spec.ZipOut
import Verif.Spec.Params
import Verif.Spec.Text
import Verif.Spec.FileSystem

/-!
# What splitting, joining and sampling stores should do
-/
namespace Vista

/-- The source, whose answers may depend on the file system when it is asked, serves the mapping `M` as long as the places `kept` are as they
are in `fs`. -/
def ServesWhile (src : FS → KVSource Bytes) (kept : Loc → Prop) (fs : FS) (M : Str → Option Bytes) : Prop :=
  ∀ fs', (∀ q, kept q → fs'.node q = fs.node q) → Zip.Serves (src fs') PlainKey M

/-- `slice 0`, …, `slice (n - 1)` are an even split of the mapping `M`. -/
structure EvenSlices (n : Nat) (M : Str → Option Bytes) (slice : Nat → Str → Option Bytes) : Prop where
  /-- A slice adds nothing. -/
  sound : ∀ j k v, j < n → slice j k = some v → M k = some v
  /-- Nothing is lost. -/
  complete : ∀ k v, M k = some v → ∃ j, j < n ∧ slice j k = some v
  /-- No key is in two slices. -/
  disjoint : ∀ i j k, i < n → j < n → slice i k ≠ none → slice j k ≠ none → i = j
  /-- The numbers of keys differ by one at most. -/
  balanced : ∀ i j (as bs : List Str), i < n → j < n → as.Nodup → (∀ k, k ∈ as ↔ slice i k ≠ none) → bs.Nodup →
    (∀ k, k ∈ bs ↔ slice j k ≠ none) → as.length ≤ bs.length + 1

/-- The key number `t` (from 0) is in the slice with the number `t` modulo `n`. -/
def Dealt (n : Nat) (ks : List Str) (M : Str → Option Bytes) (slice : Nat → Str → Option Bytes) : Prop :=
  ∀ j k v, slice j k = some v ↔ M k = some v ∧ ∃ t, ks[t]? = some k ∧ t % n = j

/-- The list has each key of the mapping once. -/
def KeysOf {V : Type} (M : Str → Option V) (ks : List Str) : Prop := ks.Nodup ∧ ∀ k, k ∈ ks ↔ (M k).isSome = true

/-- One output of an explicit split: the file with the keys, the keys in it, and the output file. -/
structure Job where
  keysFile : Loc
  wanted : List Str
  out : Loc

/-- The keys in the file are those of the job: its lines that are not blank, each once. -/
def Job.Listed (fs : FS) (job : Job) : Prop :=
  ∃ text ls rs, fs.node job.keysFile = some (.file (.data (encodeUtf8 text))) ∧ IsLines (universalNewlines text) ls ∧
    List.Forall₂ Unended ls rs ∧ FirstOccurrences (rs.filter fun r => decide (r ≠ [])) job.wanted

/-- Where the outputs go is free, they do not get in the way of each other, and no list of keys is overwritten. -/
structure JobsPlace (fs : FS) (jobs : List Job) : Prop where
  tree : fs.Tree
  listed : ∀ job ∈ jobs, job.Listed fs
  free : ∀ job ∈ jobs, ¬ fs.Blocked job.out.dropLast ∧ fs.node job.out ≠ some .dir
  apart : jobs.Pairwise fun a b => ¬ a.out <+: b.out ∧ ¬ b.out <+: a.out
  keep : ∀ a ∈ jobs, ∀ b ∈ jobs, a.keysFile ≠ b.out

/-- The part of the mapping with these keys. -/
def restrict (M : Str → Option Bytes) (ks : List Str) : Str → Option Bytes := fun k => if k ∈ ks then M k else none

/-- `U` has exactly the entries of these mappings. -/
def UnionOf (Ms : List (Str → Option Bytes)) (U : Str → Option Bytes) : Prop := ∀ k v, U k = some v ↔ ∃ M ∈ Ms, M k = some v

/-- No key occurs in two of these mappings (at different places of the list). -/
def Disjoint' (Ms : List (Str → Option Bytes)) : Prop := Ms.Pairwise fun M M' => ∀ k, M k ≠ none → M' k = none

/-- `S` is a part of `M` with `n` keys. -/
def SampleOf (M : Str → Option Bytes) (n : Nat) (S : Str → Option Bytes) : Prop :=
  (∀ k v, S k = some v → M k = some v) ∧ ∃ ks, KeysOf S ks ∧ ks.length = n

end Vista
