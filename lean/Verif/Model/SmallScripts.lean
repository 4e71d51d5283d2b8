import Verif.Model.Text

/-!
# Small helpers: `vistautils/scripts/tar_gz_to_zip.py`, `vistautils/scripts/text_at_offsets.py`, and string helpers of
`vistautils/misc_utils.py`
-/
namespace Vista

/-- `s.endswith(e)` (standard library). -/
def endsWith (s e : Str) : Bool := decide (s.drop (s.length - e.length) = e)

/-- The loop over the extensions, `tar_gz_to_zip.py:87-94`: the first that fits is cut off. -/
def cutExtension (filename : Str) : List Str → Str
  | [] => filename
  | e :: rest => if endsWith filename e then filename.take (filename.length - e.length) else cutExtension filename rest

/-- `_output_name`, `tar_gz_to_zip.py:87-94`. -/
def outputName (filename : Str) : Str :=
  cutExtension filename [".tar".toList, ".tgz".toList, "tar.gz".toList] ++ ".zip".toList

/-- What `text_at_offsets.py` prints: whether it warns about the start and about the end, and the text. -/
structure Printed where
  badStart : Bool
  badEnd : Bool
  text : Str
  deriving DecidableEq, Repr

/-- `main`, `text_at_offsets.py:25-42`, for a text (line ends are not translated: `newline="\n"`). -/
def printOffsets (text : Str) (start stop : Int) : Printed where
  badStart := decide (start < 0 ∨ start ≥ text.length)
  badEnd := decide (stop ≤ start ∨ stop > text.length)
  text := pySlice text start stop

/-- `main`, `text_at_offsets.py:15-42`. -/
def textAtOffsets (l : Loc) (start stop : Int) : Prog Printed := do
  let b ← readData l
  let text ← Prog.ofRes (decodeUtf8 b)
  Prog.pure (printOffsets text start stop)

/-- `name.rfind(".")` (standard library). -/
def rfindDot (name : Str) : Int :=
  if '.' ∈ name then (name.length : Int) - 1 - (name.reverse.idxOf '.' : Nat) else -1

/-- `strip_extension`, `misc_utils.py:96-104`. -/
def stripExtension (name : Str) : Str :=
  if rfindDot name > -1 then pySlice name 0 (rfindDot name) else name

/-- `flatten_once_to_list`, `misc_utils.py:107-113`. -/
def flattenOnce {α : Type} (xss : List (List α)) : List α := xss.flatten

/-- `", ".join(strs)` (standard library). -/
def joinComma : List Str → Str
  | [] => []
  | [w] => w
  | w :: w' :: ws => w ++ ", ".toList ++ joinComma (w' :: ws)

/-- `str_list_limited`, `misc_utils.py:11-37`, for the list of the items' representations. -/
def strListLimited (reprs : List Str) (limit : Int) : Res Str :=
  if limit < 0 then .error .valueError
  else if (reprs.length : Int) ≤ limit then .ok ('[' :: joinComma reprs ++ [']'])
  else .ok ('[' :: joinComma (pySlice reprs 0 limit) ++ " and ".toList ++ (toString (reprs.length - limit : Int)).toList ++ " more".toList ++ [']'])

/-- `pathify`, `misc_utils.py:84-93`. -/
def pathify : PyPath ⊕ Str → PyPath
  | .inl p => p
  | .inr s => PyPath.parse s

end Vista
