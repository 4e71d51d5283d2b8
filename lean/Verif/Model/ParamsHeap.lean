import Verif.Model.Params

/-!
# `vistautils/parameters.py`: `Parameters` and the dictionaries of the program

In `Model/Params` a dictionary is a value.  Here a dictionary is an object, which may be reachable in several ways and may be
changed; a `Parameters` object cannot be changed (`parameters.py:57`, `@attrs(frozen=True)`, with an `ImmutableDict`, `77-79`).
-/
namespace Vista

/-- A Python value: a dictionary of the heap, a `Parameters` object, or something else (`leaf`). -/
inductive HVal
  | leaf (v : PVal)
  | ref (a : Nat)
  | params (pfx : List Str) (es : List (Str × HVal))

/-- The items of a dictionary, in the order of insertion. -/
abbrev HEntries := List (Str × HVal)

/-- The dictionaries there are, by address; a new one is put at the end. -/
abbrev Heap := List HEntries

namespace ParamsHeap

/-- The constructor of `Parameters`, `parameters.py:77-88`. -/
def new (data : HEntries) (pfx : List Str) : Res HVal := do
  let d := dictOf data
  checkArg (d.all fun e => !(e.1.contains '.'))
  .ok (.params pfx d)

/-- `parameters.py:108-124`: the loop over the items; `sub` converts a dictionary. -/
def fromEntries (sub : List Str → Nat → Res HVal) (pfx : List Str) : HEntries → Res HEntries
  | [] => .ok []
  | (k, .ref a) :: rest => do
    let v ← sub (pfx ++ [k]) a
    let r ← fromEntries sub pfx rest
    .ok ((k, v) :: r)
  | (k, v) :: rest => do
    let r ← fromEntries sub pfx rest
    .ok ((k, v) :: r)

/-- `Parameters.from_mapping`, `parameters.py:98-125`, for a dictionary; `limit` is the depth of recursion Python allows. -/
def fromMapping (h : Heap) : Nat → List Str → Nat → Res HVal
  | 0, _, _ => .error .recursionError
  | limit + 1, pfx, a =>
    match h[a]? with
    | none => .error .other
    | some es => do
      let ret ← fromEntries (fromMapping h limit) pfx es
      new ret pfx

/-- `parameters.py:140-148`, from the dictionary `cur` on, for one pair: dictionaries missing on the way are created.  (Something that is
not a dictionary ends in a `TypeError`, see `Params.setPath`.) -/
def setPath (v : HVal) : HVal → List Str → Heap → Res Unit × Heap
  | .ref a, [k], h => (.ok (), h.modify a (dictSet k v))
  | .ref a, k :: k' :: ks, h =>
    match dictGet (h.getD a []) k with
    | some c => setPath v c (k' :: ks) h
    | none => setPath v (.ref h.length) (k' :: ks) (h.modify a (dictSet k (.ref h.length)) ++ [[]])
  | _, _, h => (.error .typeError, h)

/-- `parameters.py:137-150`: the loop over the pairs; `ret` is the dictionary at `root`. -/
def setPairs (root : Nat) (sep : Char) : List (Str × HVal) → Heap → Res Unit × Heap
  | [], h => (.ok (), h)
  | (k, v) :: rest, h =>
    if k.isEmpty then (.error .runtimeError, h)
    else
      match setPath v (.ref root) (splitOn sep k) h with
      | (.ok _, h') => setPairs root sep rest h'
      | (.error e, h') => (.error e, h')

/-- `Parameters.from_key_value_pairs`, `parameters.py:127-151`. -/
def fromKeyValuePairs (limit : Nat) (pairs : List (Str × HVal)) (sep : Char) (h : Heap) : Res HVal × Heap :=
  match setPairs h.length sep pairs (h ++ [[]]) with
  | (.ok _, h') => (fromMapping h' limit [] h.length, h')
  | (.error e, h') => (.error e, h')

mutual
/-- `dictify`, `parameters.py:158-167`: an `ImmutableDict` is not a `dict`, so its items are copied to a new dictionary; a dictionary is
returned as it is. -/
def dictify (v : HVal) (h : Heap) : HVal × Heap :=
  match v with
  | .params _ es =>
    let r := dictifyEntries es h
    (.ref r.2.length, r.2 ++ [r.1])
  | v => (v, h)
termination_by structural v
/-- `dictify` for one item. -/
def dictifyEntry (e : Str × HVal) (h : Heap) : (Str × HVal) × Heap :=
  match e with
  | (k, v) =>
    let r := dictify v h
    ((k, r.1), r.2)
termination_by structural e
/-- `parameters.py:164`: the items. -/
def dictifyEntries (es : HEntries) (h : Heap) : HEntries × Heap :=
  match es with
  | [] => ([], h)
  | e :: rest =>
    let r := dictifyEntry e h
    let rs := dictifyEntries rest r.2
    (r.1 :: rs.1, rs.2)
termination_by structural es
end

end ParamsHeap
end Vista
