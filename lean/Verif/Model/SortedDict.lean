import Mathlib.Order.Defs.LinearOrder
import Verif.Model.Basic

/-!
# `sortedcontainers.SortedDict`, as used by `vistautils/range.py`

Third-party code; modelled by its documented behaviour as an association list kept in increasing key order.
-/
namespace Vista

/-- A `SortedDict`: its items in key order.  (That the keys are increasing is an invariant proved elsewhere,
not built in.) -/
abbrev SortedDict (K V : Type) := List (K × V)

namespace SortedDict
variable {K V : Type} [LinearOrder K]

/-- `bisect_left(k)`: number of keys `< k`. -/
def bisectLeft (d : SortedDict K V) (k : K) : Nat := d.countP fun e => decide (e.1 < k)
/-- `bisect(k)` = `bisect_right(k)`: number of keys `<= k`. -/
def bisect (d : SortedDict K V) (k : K) : Nat := d.countP fun e => decide (e.1 ≤ k)
/-- `keys()[i]` for `0 <= i`. -/
def keyAt (d : SortedDict K V) (i : Nat) : Res K :=
  match d[i]? with
  | some e => .ok e.1
  | none => .error .indexError
/-- `values()[i]` for `0 <= i`. -/
def valueAt (d : SortedDict K V) (i : Nat) : Res V :=
  match d[i]? with
  | some e => .ok e.2
  | none => .error .indexError
/-- `d[k]`. -/
def get (d : SortedDict K V) (k : K) : Res V :=
  match d.lookup k with
  | some v => .ok v
  | none => .error .keyError
/-- `index(k)`: position of the key; `ValueError` if absent. -/
def index (d : SortedDict K V) (k : K) : Res Nat :=
  match d.findIdx? (fun e => decide (e.1 = k)) with
  | some i => .ok i
  | none => .error .valueError
/-- `values()`. -/
def values (d : SortedDict K V) : List V := d.map (·.2)
/-- `list(irange(lo, hi, inclusive=(True, False)))`. -/
def irange (d : SortedDict K V) (lo hi : K) : List K :=
  (d.filter fun e => decide (lo ≤ e.1) && decide (e.1 < hi)).map (·.1)
/-- `del d[k]`. -/
def del (d : SortedDict K V) (k : K) : Res (SortedDict K V) :=
  if d.any fun e => decide (e.1 = k) then .ok (d.filter fun e => decide (e.1 ≠ k)) else .error .keyError
/-- `d[k] = v`: replace the value of an existing key, or insert before the first greater key. -/
def set : SortedDict K V → K → V → SortedDict K V
  | [], k, v => [(k, v)]
  | e :: d, k, v => if k < e.1 then (k, v) :: e :: d else if k = e.1 then (k, v) :: d else e :: set d k v
/-- `SortedDict(pairs)`. -/
def ofList (pairs : List (K × V)) : SortedDict K V := pairs.foldl (fun d p => d.set p.1 p.2) []

end SortedDict
end Vista
