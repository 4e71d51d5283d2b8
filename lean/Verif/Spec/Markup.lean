import Verif.Model.Basic

/-!
# Reading annotated text back

A reader of HTML-like markup, written without looking at how the markup is produced: a state machine over the characters.
-/
namespace Vista
namespace Markup

/-- What a reader sees: a character of the text, a tag with what stands between `<` and `>`, or a tag that never ends. -/
inductive Token
  | char (c : Char)
  | tag (body : Str)
  | unfinished
  deriving DecidableEq, Repr

/-- The character of the text a token is, if it is one. -/
def Token.char? : Token → Option Char
  | .char c => some c
  | .tag _ => none
  | .unfinished => none

/-- The reader; the first argument is the tag being read, if any. -/
def scan : Option Str → Str → List Token
  | none, [] => []
  | none, c :: s => if c = '<' then scan (some []) s else .char c :: scan none s
  | some _, [] => [.unfinished]
  | some b, c :: s => if c = '>' then .tag b :: scan none s else scan (some (b ++ [c])) s

/-- The markup without its tags. -/
def strip (s : Str) : Str := (scan none s).filterMap Token.char?

/-- States of the reader of the attributes in a start tag. -/
inductive AttrState
  | between
  | key (k : Str)
  | quote (k : Str)
  | value (k v : Str)

/-- Reads ` k="v" k="v"`. -/
def readAttrs : AttrState → Str → Option (List (Str × Str))
  | .between, [] => some []
  | .between, c :: s => if c = ' ' then readAttrs (.key []) s else none
  | .key _, [] => none
  | .key k, c :: s => if c = '=' then readAttrs (.quote k) s else readAttrs (.key (k ++ [c])) s
  | .quote _, [] => none
  | .quote k, c :: s => if c = '"' then readAttrs (.value k []) s else none
  | .value _ _, [] => none
  | .value k v, c :: s =>
    if c = '"' then (readAttrs .between s).map ((k, v) :: ·) else readAttrs (.value k (v ++ [c])) s

/-- An element of the markup: its label, its attributes, and the offsets, in the text without tags, where it starts and ends. -/
structure Element where
  label : Str
  attributes : List (Str × Str)
  start : Nat
  stop : Nat
  deriving DecidableEq, Repr

/-- Label and attributes from the inside of a start tag: the label is what stands before the first blank. -/
def readTag (body : Str) : Option (Str × List (Str × Str)) :=
  (readAttrs .between (body.dropWhile (· ≠ ' '))).map fun as => (body.takeWhile (· ≠ ' '), as)

/-- The elements, in the order in which they are closed, given how much text was seen and which elements are open (innermost
first); `none` when the markup is not properly nested. -/
def readElements : List (Str × List (Str × Str) × Nat) → Nat → List Token → Option (List Element)
  | [], _, [] => some []
  | _ :: _, _, [] => none
  | st, pos, .char _ :: ts => readElements st (pos + 1) ts
  | _, _, .unfinished :: _ => none
  | st, pos, .tag body :: ts =>
    match body with
    | '/' :: label =>
      match st with
      | [] => none
      | (l, as, i) :: st => if l = label then (readElements st pos ts).map (⟨l, as, i, pos⟩ :: ·) else none
    | _ =>
      match readTag body with
      | none => none
      | some (l, as) => readElements ((l, as, pos) :: st) pos ts

/-- The elements of some markup. -/
def elements (s : Str) : Option (List Element) := readElements [] 0 (scan none s)

end Markup
end Vista
