import Mathlib.Data.Nat.Digits.Defs
import Verif.Model.Span

/-!
# `Span.__repr__`
-/
namespace Vista
namespace Span

/-- `str(n)` for a non-negative integer (standard library): its decimal digits, most significant first. -/
def decimalNat (n : Nat) : Str :=
  if n = 0 then ['0'] else (Nat.digits 10 n).reverse.map fun d => Char.ofNat (48 + d)

/-- `str(i)` for an integer (standard library). -/
def decimal (i : Int) : Str := if i < 0 then '-' :: decimalNat i.natAbs else decimalNat i.natAbs

/-- `Span.__repr__`, `span.py:139-140`. -/
def repr (s : Span) : Str := ['['] ++ decimal s.start ++ [':'] ++ decimal s.stop ++ [')']

end Span
end Vista
