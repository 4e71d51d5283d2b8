import Verif.Model.PyStr

/-!
# Bytes, UTF-8, and generators

UTF-8 is that of the Lean core library (the standard encoding; decoding rejects everything that is not the encoding of a string, as
Python's strict decoder does).  A Python string with lone surrogates, which cannot be encoded, is not representable here (see `Model/Surrogates`).
-/
namespace Vista

/-- Python `bytes`. -/
abbrev Bytes := ByteArray

/-- `s.encode("utf-8")`. -/
def encodeUtf8 (s : Str) : Bytes := (String.ofList s).toByteArray

/-- `b.decode("utf-8")`; `UnicodeDecodeError` is a `ValueError`. -/
def decodeUtf8 (b : Bytes) : Res Str :=
  match b.utf8Decode? with
  | some a => .ok a.toList
  | none => .error .valueError

/-- What a text file opened for reading without a `newline` argument does with line ends: `\r\n` and `\r` become `\n`. -/
def universalNewlines : Str → Str
  | [] => []
  | '\r' :: '\n' :: rest => '\n' :: universalNewlines rest
  | c :: rest => (if c = '\r' then '\n' else c) :: universalNewlines rest

/-- What a consumer of a generator sees when it asks for everything: the items yielded, and the exception that ended it, if any. -/
structure Gen (α : Type) where
  yielded : List α
  raised : Option Exc

/-- `immutableset(xs)`: the distinct items in the order of their first occurrence. -/
def distinct {α : Type} [DecidableEq α] : List α → List α
  | [] => []
  | x :: xs => x :: (distinct xs).filter fun y => decide (y ≠ x)

end Vista
