import Mathlib.Data.Int.Order.Basic
import Mathlib.Algebra.Order.Ring.Unbundled.Rat
import Verif.Model.Range
import Verif.Model.PyDict
import Verif.Model.PyStr

/-!
# `vistautils/parameters.py`: the `Parameters` class

Parameter values are Python objects; the ones the code distinguishes are the constructors of `PVal`.  Simplifications: all
keys are strings; floats are rationals (no NaN, no infinities, no rounding; NaN and infinities are in `Model/NumParams`); `dict` stands for every mapping that is not a
`Parameters`; objects of other classes are opaque (`obj`), and are truthy.  Exception messages are not modelled.
-/
namespace Vista

/-- A Python value, as far as `parameters.py` tells them apart.  `params pfx es` is a `Parameters` object
(`parameters.py:57-88`) with its two attributes `namespace_prefix` and `_data`. -/
inductive PVal
  | none
  | bool (b : Bool)
  | int (i : Int)
  | float (q : Rat)
  | str (s : Str)
  | path (s : Str)
  | bytes (s : Str)
  | list (xs : List PVal)
  | obj (n : Nat)
  | dict (es : List (Str × PVal))
  | params (pfx : List Str) (es : List (Str × PVal))

/-- The entries of a mapping: key-value pairs in insertion order. -/
abbrev Entries := List (Str × PVal)

/-- A `Parameters` object: `parameters.py:77-82`.  (`as_mapping`, `1356-1357`, returns `data`; `_namespace_message`, `1344-1349`, only
serves for the texts of exceptions.) -/
structure Params where
  pfx : List Str
  data : Entries

namespace PVal

/-- `v is None`. -/
def isNone : PVal → Bool
  | .none => true
  | _ => false

/-- `isinstance(v, Parameters)`. -/
def isParams : PVal → Bool
  | .params .. => true
  | _ => false

/-- `isinstance(v, Mapping)`.  `Parameters` is not a `Mapping`. -/
def isMapping : PVal → Bool
  | .dict _ => true
  | _ => false

/-- `bool(v)`.  `Parameters` defines neither `__bool__` nor `__len__`. -/
def truthy : PVal → Bool
  | .none => false
  | .bool b => b
  | .int i => decide (i ≠ 0)
  | .float q => decide (q ≠ 0)
  | .str s => !s.isEmpty
  | .path _ => true
  | .bytes s => !s.isEmpty
  | .list xs => !xs.isEmpty
  | .obj _ => true
  | .dict es => !es.isEmpty
  | .params .. => true

end PVal

namespace Params

/-- The object as a value. -/
def toVal (p : Params) : PVal := .params p.pfx p.data

/-- The constructor: the `immutabledict` converter, then `__attrs_post_init__`, `parameters.py:77-88`. -/
def new (data : Entries) (pfx : List Str) : Res Params := do
  let d := dictOf data
  checkArg (d.all fun e => !(e.1.contains '.'))
  .ok ⟨pfx, d⟩

mutual
/-- `parameters.py:110-124`, for one value; `pfx` already ends with the key. -/
def fromVal (pfx : List Str) (v : PVal) : Res PVal :=
  match v with
  | .dict es => do
    let ret ← fromEntries pfx es
    let p ← Params.new ret pfx
    .ok p.toVal
  | v => .ok v
termination_by structural v
/-- `parameters.py:110-124`, for one item. -/
def fromEntry (pfx : List Str) (e : Str × PVal) : Res (Str × PVal) :=
  match e with
  | (k, v) => do
    let v' ← fromVal (pfx ++ [k]) v
    .ok (k, v')
termination_by structural e
/-- `parameters.py:109-124`: the loop over the items. -/
def fromEntries (pfx : List Str) (es : Entries) : Res Entries :=
  match es with
  | [] => .ok []
  | e :: rest => do
    let e' ← fromEntry pfx e
    let r ← fromEntries pfx rest
    .ok (e' :: r)
termination_by structural es
end

/-- `Parameters.from_mapping`, `parameters.py:98-125`. -/
def fromMapping (es : Entries) (pfx : List Str := []) : Res Params := do
  let ret ← fromEntries pfx es
  Params.new ret pfx

/-- `Parameters.empty`, `parameters.py:89-96`. -/
def empty (pfx : List Str := []) : Params := ⟨pfx, []⟩

mutual
/-- `dictify` for one value, `parameters.py:158-167`. -/
def dictify (v : PVal) : PVal :=
  match v with
  | .params _ es => .dict (dictifyEntries es)
  | v => v
termination_by structural v
/-- `dictify` for one item. -/
def dictifyEntry (e : Str × PVal) : Str × PVal :=
  match e with
  | (k, v) => (k, dictify v)
termination_by structural e
/-- `parameters.py:164`: the items of an `immutabledict`. -/
def dictifyEntries (es : Entries) : Entries :=
  match es with
  | [] => []
  | e :: rest => dictifyEntry e :: dictifyEntries rest
termination_by structural es
end

/-- `Parameters.as_nested_dicts`, `parameters.py:153-169`. -/
def asNestedDicts (p : Params) : Entries := dictifyEntries p.data

/-- `parameters.py:182-184`: the dotted prefix put before a key. -/
def prefixString (pfx : List Str) : Str := joinWith '.' pfx ++ (if pfx.isEmpty then [] else ['.'])

mutual
/-- `parameters.py:179-185`, for one value under `key` in a namespace with stored prefix `pfx`. -/
def itemsOfVal (pfx : List Str) (key : Str) (v : PVal) : List (Str × PVal) :=
  match v with
  | .params pfx' es => itemsOfEntries pfx' es
  | v => [(prefixString pfx ++ key, v)]
termination_by structural v
/-- For one item. -/
def itemsOfEntry (pfx : List Str) (e : Str × PVal) : List (Str × PVal) :=
  match e with
  | (k, v) => itemsOfVal pfx k v
termination_by structural e
/-- `parameters.py:178-185`: the loop. -/
def itemsOfEntries (pfx : List Str) (es : Entries) : List (Str × PVal) :=
  match es with
  | [] => []
  | e :: rest => itemsOfEntry pfx e ++ itemsOfEntries pfx rest
termination_by structural es
end

/-- `Parameters.namespaced_items`, `parameters.py:171-186`. -/
def namespacedItems (p : Params) : List (Str × PVal) := itemsOfEntries p.pfx p.data

/-- `parameters.py:140-148`: put `v` at the path `key_parts` below a nested dict, creating dicts on the way.  Indexing into
(or testing membership of, or assigning into) a value that is not a dict ends in a `TypeError` whatever the value is. -/
def setPath : List Str → PVal → PVal → Res PVal
  | [k], v, .dict es => .ok (.dict (dictSet k v es))
  | k :: k' :: ks, v, .dict es => do
    let sub ← setPath (k' :: ks) v ((dictGet es k).getD (.dict []))
    .ok (.dict (dictSet k sub es))
  | _, _, _ => .error .typeError

/-- `parameters.py:137-150`: the loop over the pairs, from a given state of `ret`. -/
def setPairs (sep : Char) : List (Str × PVal) → PVal → Res PVal
  | [], ret => .ok ret
  | (k, v) :: rest, ret =>
    if k.isEmpty then .error .runtimeError
    else do
      let ret' ← setPath (splitOn sep k) v ret
      setPairs sep rest ret'

/-- `Parameters.from_key_value_pairs`, `parameters.py:127-151` (the separator is one character). -/
def fromKeyValuePairs (pairs : List (Str × PVal)) (sep : Char := '.') : Res Params := do
  let ret ← setPairs sep pairs (.dict [])
  match ret with
  | .dict es => fromMapping es
  | _ => .error .typeError

/-- `parameters.py:1290-1330`: what `_private_get` does when the path cannot be followed. -/
def missing (optional : Bool) (dflt : PVal) : Res PVal :=
  if !dflt.isNone then .ok dflt else if optional then .ok .none else .error .parameterError

/-- `parameters.py:1283-1331`: the loop over the components. -/
def follow (optional : Bool) (dflt : PVal) : PVal → List Str → Res PVal
  | cur, [] => .ok cur
  | .params _ es, c :: cs =>
    match dictGet es c with
    | some v => follow optional dflt v cs
    | none => missing optional dflt
  | _, _ :: _ => missing optional dflt

/-- `Parameters._private_get`, `parameters.py:1272-1331`. -/
def privateGet (p : Params) (name : Str) (optional : Bool) (dflt : PVal) : Res PVal :=
  follow optional dflt p.toVal (splitOn '.' name)

/-- `Parameters.__contains__`, `parameters.py:522-523`.  (With `optional=True` the lookup does not raise.) -/
def contains (p : Params) (name : Str) : Bool :=
  match p.privateGet name true .none with
  | .ok v => !v.isNone
  | .error _ => false

/-! ### `unify` -/

/-- `parameters.py:238-240`: the loop over the new items. -/
def addNew (self : Params) : Entries → Entries → Entries
  | [], ret => ret
  | (k, v) :: rest, ret => addNew self rest (if self.contains k then ret else dictSet k v ret)

mutual
/-- `parameters.py:217-235` for one key present on both sides: the value stored, given `pfx` ending with the key. -/
def unifyVal (pfx : List Str) (old new : PVal) : Res PVal :=
  match old with
  | .params pfx' es =>
    match new with
    | .params npfx nes => do
      -- `old_val.unify(new_val, namespace_prefix=new_namespace_prefix)`
      let ret ← unifyEntries pfx ⟨npfx, nes⟩ es []
      let r ← fromMapping (addNew ⟨pfx', es⟩ nes ret) pfx
      .ok r.toVal
    | _ => .error .ioError
  | _ => if new.isParams then .error .ioError else .ok new
termination_by structural old
/-- `parameters.py:215-236` for one item: the value put in `ret`. -/
def unifyEntry (pfx : List Str) (new : Params) (e : Str × PVal) : Res (Str × PVal) :=
  match e with
  | (k, old) =>
    if new.contains k then
      match dictGet new.data k with
      | none => .error .keyError
      | some nv => do
        let v ← unifyVal (pfx ++ [k]) old nv
        .ok (k, v)
    else .ok (k, old)
termination_by structural e
/-- `parameters.py:214-236`: the loop over the old items. -/
def unifyEntries (pfx : List Str) (new : Params) (es : Entries) (ret : Entries) : Res Entries :=
  match es with
  | [] => .ok ret
  | e :: rest => do
    let e' ← unifyEntry pfx new e
    unifyEntries pfx new rest (dictSet e'.1 e'.2 ret)
termination_by structural es
end

/-- `Parameters.unify`, `parameters.py:188-242`, with a `Parameters` argument. -/
def unify (p new : Params) (pfx : List Str := []) : Res Params := do
  let ret ← unifyEntries pfx new p.data []
  fromMapping (addNew p new.data ret) pfx

/-- `Parameters.unify` with another mapping, `parameters.py:209-210`. -/
def unifyMapping (p : Params) (new : Entries) (pfx : List Str := []) : Res Params := do
  let n ← fromMapping new
  p.unify n pfx

/-! ### Typed access -/

/-- The types the accessors ask for. -/
inductive PyType
  | str | int | float | bool | list | parameters | object
  deriving DecidableEq

/-- `isinstance(v, t)`; `bool` is a subclass of `int`. -/
def isinstance : PVal → PyType → Bool
  | _, .object => true
  | .bool _, .bool => true
  | .bool _, .int => true
  | .int _, .int => true
  | .float _, .float => true
  | .str _, .str => true
  | .list _, .list => true
  | .params .., .parameters => true
  | _, _ => false

mutual
/-- `_preprocess_dicts`, `parameters.py:1753-1779`, for one value.  (`bool` is a subclass of `int`; tuples are lists here.) -/
def preprocess (v : PVal) : Res PVal :=
  match v with
  | .path s => .ok (.str s)
  | .dict es => do
    let es' ← preprocessEntries es
    .ok (.dict es')
  | .str s => .ok (.str s)
  | .int i => .ok (.int i)
  | .bool b => .ok (.bool b)
  | .float q => .ok (.float q)
  | .bytes _ => .error .runtimeError
  | .list xs => do
    let xs' ← preprocessList xs
    .ok (.list xs')
  | .none => .error .runtimeError
  | .obj _ => .error .runtimeError
  | .params _ _ => .error .runtimeError
termination_by structural v
/-- `parameters.py:1767`, one item of the dict comprehension. -/
def preprocessEntry (e : Str × PVal) : Res (Str × PVal) :=
  match e with
  | (k, v) => do
    let v' ← preprocess v
    .ok (k, v')
termination_by structural e
/-- `parameters.py:1767`: the dict comprehension (the keys are distinct already). -/
def preprocessEntries (es : Entries) : Res Entries :=
  match es with
  | [] => .ok []
  | e :: rest => do
    let e' ← preprocessEntry e
    let r ← preprocessEntries rest
    .ok (e' :: r)
termination_by structural es
/-- `parameters.py:1775`: the list comprehension. -/
def preprocessList (xs : List PVal) : Res (List PVal) :=
  match xs with
  | [] => .ok []
  | x :: rest => do
    let x' ← preprocess x
    let r ← preprocessList rest
    .ok (x' :: r)
termination_by structural xs
end

/-- What a `raise` of `e` raises if the message has `str` of the value in it: for a `Parameters` object that writes it (`__str__`,
`parameters.py:1339-1342`), which may itself raise.  (`yaml.dump` does not raise for what `_preprocess_dicts` gives, and `str` of another value
does not raise.) -/
def raising (e : Exc) (v : PVal) : Exc :=
  match v with
  | .params pfx es =>
    match preprocess (.dict (asNestedDicts ⟨pfx, es⟩)) with
    | .ok _ => e
    | .error e' => e'
  | _ => e

/-- The exception for a value of the wrong type, `parameters.py:1104-1109, 1141-1146`; for a default likewise, `parameters.py:618, 799-801`. -/
def wrongType (v : PVal) : Exc := raising .parameterError v

/-- `Parameters.get`, `parameters.py:1087-1109`. -/
def get (p : Params) (name : Str) (t : PyType) (dflt : PVal := .none) : Res PVal := do
  let ret ← p.privateGet name false dflt
  if isinstance ret t then .ok ret else .error (wrongType ret)

/-- `Parameters.get_optional`, `parameters.py:1123-1148`. -/
def getOptional (p : Params) (name : Str) (t : PyType) (dflt : PVal := .none) : Res PVal := do
  let ret ← p.privateGet name true .none
  if !ret.isNone then
    if isinstance ret t then .ok ret else .error (wrongType ret)
  else .ok dflt

/-- `Parameters.string`, `parameters.py:466-483`.  (`valid_options` is a list.) -/
def string (p : Params) (name : Str) (valid : Option (List Str) := Option.none) (dflt : PVal := .none) : Res PVal := do
  let ret ← p.get name .str dflt
  match valid, ret with
  | some opts, .str s => if opts.contains s then .ok ret else .error .parameterError
  | _, _ => .ok ret

/-- `Parameters.optional_string`, `parameters.py:501-520`. -/
def optionalString (p : Params) (name : Str) (valid : Option (List Str) := Option.none) (dflt : PVal := .none) : Res PVal :=
  if p.contains name then p.string name valid else .ok dflt

/-- `Parameters.enum`, `parameters.py:439-464`, returning the name of the member chosen.  `members` are the names of the
members of the enum class; the default is a member (members of an `Enum` are truthy unless the class says otherwise). -/
def enum (p : Params) (name : Str) (members : List Str) (dflt : Option Str := Option.none) : Res Str := do
  match ← p.optionalString name with
  | .str s => if members.contains s then .ok s else .error .parameterError
  | .none =>
    match dflt with
    | some d => .ok d
    | none => match ← p.string name with
      | .str s => .ok s
      | _ => .error .parameterError
  | _ => .error .parameterError

/-- `Parameters.namespace`, `parameters.py:525-529`. -/
def «namespace» (p : Params) (name : Str) : Res Params := do
  match ← p.get name .parameters with
  | .params pfx es => .ok ⟨pfx, es⟩
  | _ => .error .parameterError

/-- `Parameters.has_namespace`, `parameters.py:531-537`. -/
def hasNamespace (p : Params) (name : Str) : Bool :=
  match p.privateGet name true .none with
  | .ok v => v.isParams
  | .error _ => false

/-- The integer a Python `int` (or `bool`) stands for. -/
def asInt : PVal → Option Int
  | .int i => some i
  | .bool b => some (if b then 1 else 0)
  | _ => Option.none

/-- `Parameters.integer`, `parameters.py:539-554`; `valid = none` is `Range.all()`. -/
def integer (p : Params) (name : Str) (valid : Option (Range Int) := Option.none) (dflt : PVal := .none) : Res PVal := do
  let ret ← p.get name .int dflt
  match valid, asInt ret with
  | some r, some i => if r.contains i then .ok ret else .error .parameterError
  | _, _ => .ok ret

/-- `Parameters.optional_integer`, `parameters.py:564-576`. -/
def optionalInteger (p : Params) (name : Str) (dflt : PVal := .none) : Res PVal :=
  if p.contains name then p.integer name else .ok dflt

/-- `Parameters.positive_integer`, `parameters.py:578-592`. -/
def positiveInteger (p : Params) (name : Str) (dflt : PVal := .none) : Res PVal := do
  let ret ← p.integer name Option.none dflt
  match asInt ret with
  | some i => if i > 0 then .ok ret else .error .parameterError
  | Option.none => .error .typeError

/-- `Parameters.optional_positive_integer`, `parameters.py:602-619`. -/
def optionalPositiveInteger (p : Params) (name : Str) (dflt : PVal := .none) : Res PVal :=
  if p.contains name then p.positiveInteger name
  else if dflt.truthy then
    match asInt dflt with
    | some i => if i > 0 then .ok dflt else .error (wrongType dflt)
    | Option.none => .error (wrongType dflt)
  else .ok .none

/-- `Parameters.floating_point`, `parameters.py:621-642`. -/
def floatingPoint (p : Params) (name : Str) (valid : Option (Range Rat) := Option.none) (dflt : PVal := .none) : Res PVal := do
  let ret ← p.get name .float dflt
  match valid, ret with
  | some r, .float q => if r.contains q then .ok ret else .error .parameterError
  | _, _ => .ok ret

/-- `Parameters.optional_floating_point`, `parameters.py:656-684` (and, without a default, its deprecated name `optional_float`,
`691-694`). -/
def optionalFloatingPoint (p : Params) (name : Str) (valid : Option (Range Rat) := Option.none) (dflt : PVal := .none) :
    Res PVal :=
  if p.contains name then p.floatingPoint name valid
  else if dflt.truthy then
    match valid, dflt with
    | some r, .float q => if r.contains q then .ok dflt else .error .parameterError
    | _, _ => .ok dflt
  else .ok .none

/-- `Parameters.boolean`, `parameters.py:696-700`. -/
def boolean (p : Params) (name : Str) (dflt : PVal := .none) : Res PVal := p.get name .bool dflt

/-- `Parameters.optional_boolean`, `parameters.py:710-719`. -/
def optionalBoolean (p : Params) (name : Str) (dflt : PVal := .none) : Res PVal := p.getOptional name .bool dflt

/-- `Parameters.optional_boolean_with_default`, `parameters.py:726-737`. -/
def optionalBooleanWithDefault (p : Params) (name : Str) (dflt : PVal) : Res PVal := do
  let ret ← p.optionalBoolean name dflt
  if !ret.isNone then .ok ret else .ok dflt

/-- `Parameters.optional_namespace`, `parameters.py:739-751`; Python `None` is `none`. -/
def optionalNamespace (p : Params) (name : Str) : Res (Option Params) := do
  match ← p.getOptional name .object with
  | .params pfx es => .ok (some ⟨pfx, es⟩)
  | _ => .ok Option.none

/-- `Parameters.namespace_or_empty`, `parameters.py:753-771`. -/
def namespaceOrEmpty (p : Params) (name : Str) : Res Params := do
  match ← p.getOptional name .object with
  | .params pfx es => .ok ⟨pfx, es⟩
  | .none => .ok (empty (p.pfx ++ [name]))
  | _ => .error .parameterError

/-- `Parameters.arbitrary_list`, `parameters.py:773-777`. -/
def arbitraryList (p : Params) (name : Str) (dflt : PVal := .none) : Res PVal := p.get name .list dflt

/-- `Parameters.optional_arbitrary_list`, `parameters.py:787-801`. -/
def optionalArbitraryList (p : Params) (name : Str) (dflt : PVal := .none) : Res PVal :=
  if !dflt.truthy then p.getOptional name .list
  else if isinstance dflt .list then p.getOptional name .list dflt
  else .error (wrongType dflt)

/-- `Parameters.assert_exactly_one_present`, `parameters.py:1150-1162`. -/
def assertExactlyOnePresent (p : Params) (names : List Str) : Res Unit :=
  let present := names.filter fun n => p.contains n
  if present.length > 0 then
    if present.length > 1 then .error .parameterError else .ok ()
  else .error .parameterError

mutual
/-- `hash(v)` does not raise: lists and dicts have no hash; the hash of a `Parameters` (generated by `attrs`, frozen) hashes the
items of its `immutabledict`, hence all the values inside (`parameters.py:55-82`). -/
def hashable (v : PVal) : Bool :=
  match v with
  | .list _ => false
  | .dict _ => false
  | .params _ es => hashableEntries es
  | _ => true
termination_by structural v
/-- For one item. -/
def hashableEntry (e : Str × PVal) : Bool :=
  match e with
  | (_, v) => hashable v
termination_by structural e
/-- For all items. -/
def hashableEntries (es : Entries) : Bool :=
  match es with
  | [] => true
  | e :: rest => hashableEntry e && hashableEntries rest
termination_by structural es
end

/-- `Parameters.sub_namespaces`, `parameters.py:1164-1172`: `immutableset` hashes each namespace.  Equal namespaces (which would
have to have the same prefix) are listed once by the code; the model lists the items before that. -/
def subNamespaces (p : Params) : Res (List Params) := do
  let qs ← ((p.data.map (·.1)).filter fun n => p.hasNamespace n).mapM fun n => p.namespace n
  if qs.all fun q => hashable q.toVal then .ok qs else .error .typeError

end Params
end Vista
