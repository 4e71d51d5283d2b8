import Verif.Model.Basic
import Verif.Model.PyList

/-!
# `vistautils/iter_utils.py`, `iterutils.py`, `collection_utils.py`, and the list helpers of `misc_utils.py`

An iterator is modelled by the list of the elements it has still to give; an iterable that is not an iterator by the list
every fresh `iter()` of it gives (finite, and not changed while it is used).
-/
namespace Vista
namespace IterUtils
variable {α : Type}

/-- `itertools.islice(it, n)` run to the end: the elements taken, and what is left in the iterator. -/
def isliceTake : Nat → List α → List α × List α
  | 0, it => ([], it)
  | _ + 1, [] => ([], [])
  | n + 1, x :: it => let (a, b) := isliceTake n it; (x :: a, b)

/-- `itertools.islice(it, n, None)` run to the end: skip `n`, give the rest. -/
def isliceFrom : Nat → List α → List α
  | 0, it => it
  | _ + 1, [] => []
  | n + 1, _ :: it => isliceFrom n it

/-! ## `drop` -/

/-- What `drop` returns (`iter_utils.py:34-54`): an islice object over the given iterator, or a `_DropIterable`
(`121-128`) around the given iterable. -/
inductive Dropped (α : Type)
  | islice (underlying : List α) (toSkip : Nat)
  | iterable (wrapped : List α) (toSkip : Nat)

/-- `iter_utils.py:34-54`; `isIterator` is `hasattr(it, "__next__")`. -/
def drop (it : List α) (isIterator : Bool) (n : Int) : Res (Dropped α) := do
  checkArg (decide (n ≥ 0))
  if isIterator then .ok (.islice it n.toNat) else .ok (.iterable it n.toNat)

/-- A complete `for` loop over the result of `drop`: the elements seen and the object afterwards.  For a `_DropIterable`
each loop calls `drop(iter(wrapped), n)` again (`127-128`). -/
def Dropped.loop : Dropped α → List α × Dropped α
  | .islice it n => (isliceFrom n it, .islice [] 0)
  | .iterable w n => (isliceFrom n w, .iterable w n)

/-! ## `only` and `get_only` -/

/-- `iter_utils.py:61-82`: the outcome, and what is left of the iterator.  `neSentinel x` is the outcome of the Python
comparison `x != _SENTINEL` (line 80), which an element's class may define as it likes. -/
def only (neSentinel : α → Bool) (it : List α) : Res α × List α :=
  match it with
  | [] => (.error .valueError, [])
  | x :: rest =>
    match rest with
    | [] => (.ok x, [])
    | y :: rest' => if neSentinel y then (.error .valueError, rest') else (.ok x, rest')

/-- `collection_utils.py:8-30`: the same with an identity test against the sentinel. -/
def getOnly (it : List α) : Res α × List α :=
  match it with
  | [] => (.error .valueError, [])
  | x :: rest =>
    match rest with
    | [] => (.ok x, [])
    | _ :: rest' => (.error .valueError, rest')

/-! ## `windowed` -/

/-- `deque.append` on a deque with `maxlen = w`: a full deque loses its first element. -/
def dequeAppend (w : Nat) (win : List α) (e : α) : List α :=
  if win.length = w then (win ++ [e]).tail else win ++ [e]

/-- `deque(xs, w)`. -/
def dequeOf (w : Nat) (xs : List α) : List α := xs.foldl (dequeAppend w) []

/-- `iter_utils.py:167-169` and `193-195`: the windows yielded, and the final window. -/
def slide (w : Nat) : List α → List α → List (List α) × List α
  | win, [] => ([], win)
  | win, e :: es =>
    let win' := dequeAppend w win e
    let (ws, last) := slide w win' es
    (win' :: ws, last)

/-- `iter_utils.py:149-169`. -/
def completeWindows (it : List α) (w : Nat) : List (List α) :=
  let (taken, rest) := isliceTake w it
  let win := dequeOf w taken
  if win.length < w then [] else win :: (slide w win rest).1

/-- `deque.popleft`. -/
def popleft : List α → Res (List α)
  | [] => .error .indexError
  | _ :: xs => .ok xs

/-- `iter_utils.py:197-205`. -/
def drain : Nat → List α → Res (List (List α))
  | 0, _ => .ok []
  | n + 1, win => do
    let win' ← popleft win
    if win'.isEmpty then .ok [] else do
      let ws ← drain n win'
      .ok (win' :: ws)

/-- `iter_utils.py:172-205`. -/
def possiblyIncompleteWindows (it : List α) (w : Nat) : Res (List (List α)) :=
  let (taken, rest) := isliceTake w it
  let win := dequeOf w taken
  if win.isEmpty then .ok []
  else do
    let (ws, last) := slide w win rest
    let tailWs ← drain (w - 1) last
    .ok (win :: (ws ++ tailWs))

/-- The windows of one pass over an iterator, `iter_utils.py:112-115`. -/
def windowsOf (it : List α) (w : Nat) (partialWindows : Bool) : Res (List (List α)) :=
  if partialWindows then possiblyIncompleteWindows it w else .ok (completeWindows it w)

/-- What `windowed` returns: a generator over the given iterator, or a `_WindowedIterable` (`134-146`). -/
inductive Windowed (α : Type)
  | generator (underlying : List α) (w : Nat) (partialWindows : Bool)
  | iterable (wrapped : List α) (w : Nat) (partialWindows : Bool)

/-- `iter_utils.py:103-115`. -/
def windowed (it : List α) (isIterator : Bool) (w : Int) (partialWindows : Bool) : Res (Windowed α) := do
  checkArg (decide (w ≥ 1))
  if isIterator then .ok (.generator it w.toNat partialWindows) else .ok (.iterable it w.toNat partialWindows)

/-- A complete `for` loop over the result: the windows seen, and the object afterwards (an exhausted generator stays
exhausted; a `_WindowedIterable` starts a fresh pass each time, `141-146`). -/
def Windowed.loop : Windowed α → Res (List (List α)) × Windowed α
  | .generator it w p => (windowsOf it w p, .generator [] w p)
  | .iterable it w p => (windowsOf it w p, .iterable it w p)

/-- `iterutils.py:10-14` `tile_with_pairs`. -/
def tileWithPairs (it : List α) (isIterator : Bool) : Res (Windowed α) := windowed it isIterator 2 false

/-! ## Small helpers -/

/-- `iter_utils.py:208-212`. -/
def nonNone : List (Option α) → List α
  | [] => []
  | none :: xs => nonNone xs
  | some x :: xs => x :: nonNone xs

/-- `misc_utils.py:107-113`: `list(chain.from_iterable(xss))`. -/
def flattenOnceToList : List (List α) → List α
  | [] => []
  | xs :: xss => xs ++ flattenOnceToList xss

/-- `str.rfind(c)` for a one-character string: the greatest index holding `c`, or -1. -/
def rfind (c : Char) (s : Str) : Int :=
  match s.reverse.findIdx? (· == c) with
  | some i => (s.length : Int) - 1 - i
  | none => -1

/-- `misc_utils.py:96-104`. -/
def stripExtension (name : Str) : Str :=
  let lastDot := rfind '.' name
  if lastDot > -1 then pySlice name 0 lastDot else name

/-- `str(xs)` for a list, given `repr` of the elements. -/
def strList (repr : α → Str) (xs : List α) : Str :=
  "[".toList ++ List.intercalate ", ".toList (xs.map repr) ++ "]".toList

/-- `misc_utils.py:11-37`. -/
def strListLimited (repr : α → Str) (xs : List α) (limit : Int) : Res Str :=
  if limit < 0 then .error .valueError
  else if (xs.length : Int) ≤ limit then .ok (strList repr xs)
  else .ok ("[".toList ++ List.intercalate ", ".toList ((pySlice xs 0 limit).map repr)
    ++ (" and ".toList ++ (toString ((xs.length : Int) - limit)).toList ++ " more".toList) ++ "]".toList)

end IterUtils
end Vista
