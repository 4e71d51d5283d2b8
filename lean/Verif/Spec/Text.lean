import Verif.Model.Text

/-!
# What lines, stripping, sorting and document maps are
-/
namespace Vista

/-- `t` is `s` without the white space at its ends. -/
def Stripped (s t : Str) : Prop :=
  (∃ l r, s = l ++ t ++ r ∧ (∀ c ∈ l, isSpace c = true) ∧ ∀ c ∈ r, isSpace c = true) ∧
  (∀ c, t.head? = some c → isSpace c = false) ∧ ∀ c, t.getLast? = some c → isSpace c = false

/-- These are the lines of the text: together they are the text, and each but the last is some text without line feed, followed by a
line feed; the last may lack it but is not empty. -/
inductive IsLines : Str → List Str → Prop
  | none : IsLines [] []
  | unended {l : Str} : '\n' ∉ l → l ≠ [] → IsLines l [l]
  | line {l s : Str} {ls : List Str} : '\n' ∉ l → IsLines s ls → IsLines (l ++ '\n' :: s) ((l ++ ['\n']) :: ls)

/-- The line without its line feed, if it has one. -/
def Unended (line r : Str) : Prop := '\n' ∉ r ∧ (line = r ∨ line = r ++ ['\n'])

/-- `r` has each member of `xs` once, in the order in which they first occur there. -/
structure FirstOccurrences (xs r : List Str) : Prop where
  once : r.Nodup
  mem : ∀ a, a ∈ r ↔ a ∈ xs
  order : r.Pairwise fun a b => xs.idxOf a < xs.idxOf b

/-- The line has exactly two fields separated by a tab, which are these when stripped. -/
def TwoFields (line a b : Str) : Prop := ∃ x y, line = x ++ '\t' :: y ∧ '\t' ∉ x ∧ '\t' ∉ y ∧ Stripped x a ∧ Stripped y b

/-- A path as `pathlib` makes them: no empty parts, no `.`, no slash in a part. -/
structure PyPath.Normal (p : PyPath) : Prop where
  root : p.root = [] ∨ p.root = ['/'] ∨ p.root = ['/', '/']
  parts : ∀ w ∈ p.parts, w ≠ [] ∧ w ≠ ['.'] ∧ '/' ∉ w

/-- Text that survives in a field of a line: no tab, no line feed, no white space at the ends. -/
structure Fieldable (s : Str) : Prop where
  tab : '\t' ∉ s
  newline : '\n' ∉ s
  head : ∀ c, s.head? = some c → isSpace c = false
  last : ∀ c, s.getLast? = some c → isSpace c = false

/-- The last value put for a key. -/
def lastPut {V : Type} (puts : List (Str × V)) (k : Str) : Option V := (puts.reverse.find? fun e => decide (e.1 = k)).map (·.2)

/-- Text that does not interfere with lines and fields in a file. -/
def TextSafe (s : Str) : Prop := '\t' ∉ s ∧ '\n' ∉ s ∧ '\r' ∉ s

/-- A key that is a plain file name, and can stand in a document map. -/
structure FileKey (k : Str) : Prop where
  nonempty : k ≠ []
  dot : k ≠ ['.']
  dotdot : k ≠ ['.', '.']
  slash : '/' ∉ k
  safe : TextSafe k
  head : ∀ c, k.head? = some c → isSpace c = false
  last : ∀ c, k.getLast? = some c → isSpace c = false

end Vista
