import Verif.Model.Params

/-!
# `vistautils/parameters.py`: `==` and `hash` of `Parameters`

`Parameters` is declared `@attrs(frozen=True, slots=True)` (`parameters.py:55`), so `==` compares the class and then the two fields, and `hash`
combines the hashes of the fields.  The field `_data` is an `ImmutableDict` (`parameters.py:77-79`), which is compared like a `dict` and hashed like
the frozen set of its items.
-/
namespace Vista
namespace ParamsEq

/-- Numbers: `True == 1 == 1.0`. -/
def num? : PVal → Option Rat
  | .bool b => some (if b then 1 else 0)
  | .int i => some i
  | .float q => some q
  | _ => none

/-- `==` for values without parts. -/
def atomEq (v w : PVal) : Bool :=
  match num? v, num? w with
  | some a, some b => decide (a = b)
  | none, none =>
    match v, w with
    | .none, .none => true
    | .str s, .str t => decide (s = t)
    | .path s, .path t => decide (s = t)
    | .bytes s, .bytes t => decide (s = t)
    | .obj m, .obj n => decide (m = n)
    | _, _ => false
  | _, _ => false

mutual
/-- `v == w`; for `Parameters` the method made by `@attrs`, `parameters.py:55`. -/
def pyEq (v w : PVal) : Bool :=
  match v with
  | .list xs =>
    match w with
    | .list ys => listEq xs ys
    | _ => false
  | .dict es =>
    match w with
    | .dict fs => decide (es.length = fs.length) && entriesEq es fs
    | _ => false
  | .params pfx es =>
    match w with
    | .params pfx' fs => (decide (es.length = fs.length) && entriesEq es fs) && decide (pfx = pfx')
    | _ => false
  | v => atomEq v w
termination_by structural v
/-- Lists are compared element by element. -/
def listEq (xs ys : List PVal) : Bool :=
  match xs with
  | [] =>
    match ys with
    | [] => true
    | _ => false
  | x :: xs =>
    match ys with
    | y :: ys => pyEq x y && listEq xs ys
    | [] => false
termination_by structural xs
/-- One item of a dictionary: the other one must have an equal value. -/
def entryEq (e : Str × PVal) (fs : Entries) : Bool :=
  match e with
  | (k, v) =>
    match dictGet fs k with
    | some w => pyEq v w
    | none => false
termination_by structural e
/-- All items of a dictionary. -/
def entriesEq (es fs : Entries) : Bool :=
  match es with
  | [] => true
  | e :: es => entryEq e fs && entriesEq es fs
termination_by structural es
end

/-- The hash functions of Python and of `immutablecollections`: any.  `items` hashes a frozen set with elements of these hashes, `object` combines
the hashes of the two fields. -/
structure HashFns where
  num : Rat → Int
  none : Int
  str : Str → Int
  path : Str → Int
  bytes : Str → Int
  obj : Nat → Int
  pair : Int → Int → Int
  items : List Int → Int
  object : Int → List Str → Int

mutual
/-- `hash(v)`: lists and dictionaries have none. -/
def pyHash (H : HashFns) (v : PVal) : Res Int :=
  match v with
  | .none => .ok H.none
  | .bool b => .ok (H.num (if b then 1 else 0))
  | .int i => .ok (H.num i)
  | .float q => .ok (H.num q)
  | .str s => .ok (H.str s)
  | .path s => .ok (H.path s)
  | .bytes s => .ok (H.bytes s)
  | .obj n => .ok (H.obj n)
  | .list _ => .error .typeError
  | .dict _ => .error .typeError
  | .params pfx es => do
    let hs ← entriesHash H es
    .ok (H.object (H.items hs) pfx)
termination_by structural v
/-- The hash of an item `(k, v)`. -/
def entryHash (H : HashFns) (e : Str × PVal) : Res Int :=
  match e with
  | (k, v) => do
    let h ← pyHash H v
    .ok (H.pair (H.str k) h)
termination_by structural e
/-- The hashes of the items. -/
def entriesHash (H : HashFns) (es : Entries) : Res (List Int) :=
  match es with
  | [] => .ok []
  | e :: es => do
    let h ← entryHash H e
    let hs ← entriesHash H es
    .ok (h :: hs)
termination_by structural es
end

/-- `p == q` for two `Parameters` objects, `parameters.py:55`. -/
def eq (p q : Params) : Bool := pyEq p.toVal q.toVal

/-- `hash(p)` of a `Parameters` object, `parameters.py:55`. -/
def hash (H : HashFns) (p : Params) : Res Int := pyHash H p.toVal

end ParamsEq
end Vista
