import Verif.Model.Span
import Verif.Model.PyList

/-!
# `vistautils/annotated_text_utils.py`
-/
namespace Vista

/-- `annotated_text_utils.py:25-41` `AnnotatedSpan` (the attributes are an `immutabledict`: distinct keys). -/
structure AnnotatedSpan where
  label : Str
  span : Span
  attributes : List (Str × Str)
  deriving DecidableEq, Repr

namespace AnnotatedText

/-- `<=` on the (key, value) pairs sorted at line 57: lexicographic, strings by code point. -/
def attrLe (a b : Str × Str) : Bool := decide (a.1 < b.1) || (decide (a.1 = b.1) && decide (a.2 ≤ b.2))

/-- `annotated_text_utils.py:52-60`. -/
def toStartTag (a : AnnotatedSpan) : Str :=
  let kv := List.intercalate [' '] ((stableSort attrLe a.attributes).map fun (k, v) => k ++ "=\"".toList ++ v ++ "\"".toList)
  let attrs := if a.attributes.isEmpty then [] else ' ' :: kv
  '<' :: a.label ++ attrs ++ ['>']

/-- `annotated_text_utils.py:63-67`. -/
def toEndTag (a : AnnotatedSpan) : Str := "</".toList ++ a.label ++ ['>']

/-- `AnnotatedSpan.create_div_of_class`, `annotated_text_utils.py:43-45`. -/
def createDivOfClass (span : Span) (clazz : Str) : AnnotatedSpan := ⟨"div".toList, span, [("class".toList, clazz)]⟩

/-- `AnnotatedSpan.create_span_of_class`, `annotated_text_utils.py:47-49`. -/
def createSpanOfClass (span : Span) (clazz : Str) : AnnotatedSpan := ⟨"span".toList, span, [("class".toList, clazz)]⟩

/-- `annotated_text_utils.py:149-153` `Tag`.  The model keeps the annotation a tag was made from (the code keeps only the
string made from it, `Tag.string`), so that tags can be told apart in theorems. -/
structure Tag where
  ann : AnnotatedSpan
  isStart : Bool
  offset : Int
  deriving DecidableEq, Repr

/-- The `string` attribute, computed at lines 177 and 181. -/
def Tag.string (t : Tag) : Str := if t.isStart then toStartTag t.ann else toEndTag t.ann

/-- What is written to the `StringIO`, call by call. -/
inductive Piece
  | text (s : Str)
  | tag (t : Tag)
  deriving DecidableEq, Repr

/-- The text of one `write` call. -/
def Piece.render : Piece → Str
  | .text s => s
  | .tag t => t.string

/-- `annotated_text_utils.py:120-147`. -/
def clipAndShift (offsets : Span) : List AnnotatedSpan → Res (List AnnotatedSpan)
  | [] => .ok []
  | a :: as => do
    let c ← a.span.clipTo offsets
    match c with
    | some c => do
      let s ← c.shift (-offsets.start)
      let rest ← clipAndShift offsets as
      .ok ({ a with span := s } :: rest)
    | none => clipAndShift offsets as

/-- `annotated_text_utils.py:168-169`. -/
def startKey (a : AnnotatedSpan) : Int × Int := (a.span.start, -a.span.len)
/-- `annotated_text_utils.py:173-174`. -/
def endKey (a : AnnotatedSpan) : Int × Int := (a.span.stop, a.span.len)
/-- `annotated_text_utils.py:193` (`False < True`). -/
def tagKey (t : Tag) : Int × Int := (t.offset, if t.isStart then 1 else 0)

/-- `annotated_text_utils.py:176-179`. -/
def startTags (as : List AnnotatedSpan) : List Tag :=
  (stableSort (fun a b => pairLe (startKey a) (startKey b)) as).map fun a => ⟨a, true, a.span.start⟩
/-- `annotated_text_utils.py:180-183`. -/
def endTags (as : List AnnotatedSpan) : List Tag :=
  (stableSort (fun a b => pairLe (endKey a) (endKey b)) as).map fun a => ⟨a, false, a.span.stop⟩

/-- `annotated_text_utils.py:155-194`. -/
def tagSequence (as : List AnnotatedSpan) : List Tag :=
  stableSort (fun s t => pairLe (tagKey s) (tagKey t)) (endTags as ++ startTags as)

/-- `annotated_text_utils.py:107-117`: the loop over the tags and the trailing text, from a given
`last_uncopied_offset`. -/
def emit (text : Str) (endOffset : Int) : Int → List Tag → List Piece
  | last, [] => if last < endOffset then [.text (pySlice text last endOffset)] else []
  | last, t :: ts =>
    if last < t.offset then .text (pySlice text last t.offset) :: .tag t :: emit text endOffset t.offset ts
    else .tag t :: emit text endOffset last ts

/-- `annotated_text_utils.py:93-94` (a `Span` is never falsy: its length is positive). -/
def resolveOffsets (text : Str) : Option Span → Res Span
  | some o => .ok o
  | none => Span.new 0 text.length

/-- `annotated_text_utils.py:72-118` as the sequence of `write` calls. -/
def pieces (text : Str) (annotations : List AnnotatedSpan) (textOffsets : Option Span) : Res (List Piece) := do
  let o ← resolveOffsets text textOffsets
  checkArg (decide (o.len = text.length))
  let processed ← clipAndShift o annotations
  .ok (emit text o.stop 0 (tagSequence processed))

/-- `annotated_text_utils.py:72-118`: the string returned. -/
def annotatedText (text : Str) (annotations : List AnnotatedSpan) (textOffsets : Option Span) : Res Str := do
  let ps ← pieces text annotations textOffsets
  .ok (ps.flatMap Piece.render)

end AnnotatedText
end Vista
