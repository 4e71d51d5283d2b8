import Verif.Model.Range
import Verif.Model.PyDict
import Mathlib.Data.Int.Order.Basic

/-!
# `vistautils/memory_amount.py`

`\d` and `int()` accept every Unicode decimal digit: which characters those are, and their values, is the parameter `digit`.  `upper`
is `str.upper`.  Python's limit on the length of the strings that `int()` accepts is not modelled.
-/
namespace Vista
namespace Memory

/-- `MemoryUnit`, `memory_amount.py:14-24`. -/
inductive Unit
  | kilobytes | megabytes | gigabytes | terabytes
  deriving DecidableEq, Repr

/-- `_STRING_TO_UNIT`, `memory_amount.py:43-50`. -/
def stringToUnit : List (Str × Unit) :=
  [(['K'], .kilobytes), (['M'], .megabytes), (['G'], .gigabytes), (['T'], .terabytes)]

/-- `MemoryUnit.parse`, `memory_amount.py:25-40`. -/
def Unit.parse (upper : Str → Str) (s : Str) : Res Unit :=
  match dictGet stringToUnit (upper s) with
  | some u => .ok u
  | none => .error .runtimeError

/-- `MemoryAmount`, `memory_amount.py:53-61`. -/
structure Amount where
  amount : Int
  unit : Unit
  deriving DecidableEq, Repr

/-- The constructor, `memory_amount.py:60-61`: the validator of `amount` (an `int` here). -/
def Amount.new (amount : Int) (unit : Unit) : Res Amount := do
  let r ← Range.atLeast (1 : Int)
  if r.contains amount then .ok ⟨amount, unit⟩ else .error .valueError

/-- `int(digits)`: the value of a string of decimal digits. -/
def intOf (digit : Char → Option Nat) (ds : Str) : Nat := ds.foldl (fun acc c => 10 * acc + (digit c).getD 0) 0

/-- The groups of a match of `_PARSE_PATTERN`, `(\d+) ?([TtGgMmKk])[bB]?`, at the start of the string, `memory_amount.py:63, 67`.  (The
letters and the space are not digits, so the digits are all those at the start.) -/
def groups (digit : Char → Option Nat) (s : Str) : Option (Str × Str) :=
  let ds := s.takeWhile fun c => (digit c).isSome
  let rest := s.dropWhile fun c => (digit c).isSome
  let rest := match rest with | ' ' :: r => r | r => r
  match rest with
  | c :: _ => if ds ≠ [] ∧ c ∈ "TtGgMmKk".toList then some (ds, [c]) else none
  | [] => none

/-- `MemoryAmount.parse`, `memory_amount.py:65-76`. -/
def Amount.parse (digit : Char → Option Nat) (upper : Str → Str) (s : Str) : Res Amount :=
  match groups digit s with
  | some (ds, u) => do
    let unit ← Unit.parse upper u
    Amount.new (intOf digit ds) unit
  | none => .error .runtimeError

end Memory
end Vista
