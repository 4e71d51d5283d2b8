/-!
# Python dictionaries

A `dict` (or `immutabledict`) is a list of (key, value) pairs with distinct keys, in insertion order.
-/
namespace Vista

/-- Building a Python dict from (key, value) pairs: a repeated key keeps its place and takes the later value (`dict`, and
`immutabledict` with its default `forbid_duplicate_keys=False`). -/
def dictSet {K V : Type} [DecidableEq K] (k : K) (v : V) : List (K × V) → List (K × V)
  | [] => [(k, v)]
  | (k', v') :: d => if k' = k then (k, v) :: d else (k', v') :: dictSet k v d

/-- `d.get(k)`: the value of a key, if present. -/
def dictGet {K V : Type} [DecidableEq K] (d : List (K × V)) (k : K) : Option V := d.lookup k

/-- See `dictSet`. -/
def dictOf {K V : Type} [DecidableEq K] (xs : List (K × V)) : List (K × V) :=
  xs.foldl (fun d e => dictSet e.1 e.2 d) []

end Vista
