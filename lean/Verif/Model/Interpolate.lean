import Verif.Model.Params
import Verif.Model.Graph

/-!
# `vistautils/parameters.py`: interpolation of `%name%` placeholders (`YAMLParametersLoader._interpolate`)

The interpolation works on a mutable copy of the parameters as nested Python dicts, in which one dict object can come to be
stored in several places (a parameter that is just `%name%` of a namespace gets the very dict of that namespace).  The model
therefore keeps dict *identities*: every mutable dict is identified by the path of the namespace it was made from, and the
state maps (dict, key) - written as the path of the dict followed by the key - to the object stored there.
-/
namespace Vista
namespace Interp

/-- An object stored in the mutable nested dicts: a value that is not one of these dicts, or (a reference to) the dict made from
the namespace at the given path. -/
inductive Cell
  | val (v : PVal)
  | ns (path : List Str)

/-- The state of all the dicts: at `path ++ [key]`, what the dict of `path` stores under `key`; in insertion order. -/
abbrev Store := List (List Str × Cell)

mutual
/-- `parameters.py:1622` with `as_nested_dicts` (`parameters.py:153-169`): the dicts made for one value stored at `path`.
(A `Parameters` made by `from_mapping` contains no other mappings, so `dictify` creates a new dict for every namespace.) -/
def storeOfVal (path : List Str) (v : PVal) : Store :=
  match v with
  | .params _ es => (path, .ns path) :: storeOfEntries path es
  | v => [(path, .val v)]
termination_by structural v
/-- For one item of the dict of `path`. -/
def storeOfEntry (path : List Str) (e : Str × PVal) : Store :=
  match e with
  | (k, v) => storeOfVal (path ++ [k]) v
termination_by structural e
/-- For the items of the dict of `path`. -/
def storeOfEntries (path : List Str) (es : Entries) : Store :=
  match es with
  | [] => []
  | e :: rest => storeOfEntry path e ++ storeOfEntries path rest
termination_by structural es
end

/-- `bool(x)` for a stored object: a dict is true iff it is not empty. -/
def truthy (σ : Store) : Cell → Bool
  | .val v => v.truthy
  | .ns p => σ.any fun e => decide (e.1.dropLast = p)

/-- `k in s` for two strings. -/
def isSubstring (k s : Str) : Bool := s.tails.any fun t => k.isPrefixOf t

/-- `part in cur_dict` followed by `cur_dict[part]` for a `cur_dict` that is not one of the dicts (`parameters.py:1598-1602`):
`none` when the membership test says no, an exception otherwise.  A string is searched as a string, a list by equality; a
`Parameters` object can be asked but not indexed; other objects cannot be asked. -/
def stepIntoOther (part : Str) : PVal → Option Exc
  | .str s => if isSubstring part s then some .typeError else none
  | .list xs => if xs.any (fun x => match x with | .str t => decide (t = part) | _ => false) then some .typeError else none
  | .params pfx es => if (Params.mk pfx es).contains part then some .typeError else none
  | _ => some .typeError

/-- `cur_dict.get(param_name, None)` for a `cur_dict` that is not one of the dicts (`parameters.py:1604`): always an exception
(`Parameters.get` is called with the type `None`). -/
def getOnOther (part : Str) : PVal → Exc
  | .params pfx es =>
    match (Params.mk pfx es).privateGet part false .none with
    | .ok _ => .typeError
    | .error e => e
  | _ => .attributeError

/-- `get_from_nested_dict`, `parameters.py:1593-1604`, from an object; Python `None` is `.val .none`. -/
def getFrom (σ : Store) : Cell → List Str → Res Cell
  | _, [] => .error .indexError
  | .ns p, [k] => .ok ((dictGet σ (p ++ [k])).getD (.val .none))
  | .val v, [k] => .error (getOnOther k v)
  | .ns p, k :: k' :: ks =>
    match dictGet σ (p ++ [k]) with
    | some c => getFrom σ c (k' :: ks)
    | none => .ok (.val .none)
  | .val v, k :: _ :: _ =>
    match stepIntoOther k v with
    | some e => .error e
    | none => .ok (.val .none)

/-- `set_in_nested_dict`, `parameters.py:1606-1617`, from an object. -/
def setIn (σ : Store) : Cell → List Str → Cell → Res Store
  | _, [], _ => .error .indexError
  | .ns p, [k], c => .ok (dictSet (p ++ [k]) c σ)
  | .val _, [_], _ => .error .typeError
  | .ns p, k :: k' :: ks, c =>
    match dictGet σ (p ++ [k]) with
    | some d => setIn σ d (k' :: ks) c
    | none => .ok σ
  | .val v, k :: _ :: _, _ =>
    match stepIntoOther k v with
    | some e => .error e
    | none => .ok σ

/-- `mutable_parameters` itself. -/
def root : Cell := .ns []

section regex
/-! `word` is the class `\w`, the Unicode word characters: a parameter of the model. -/
variable (word : Char → Bool)

/-- `[\w.\-]`, `parameters.py:1554`. -/
def nameChar (c : Char) : Bool := word c || decide (c = '.') || decide (c = '-')

/-- The regular expression `%([\w.\-]+)%` (`parameters.py:1554`) matched at the start of a string: the group, and what follows
the match.  (`%` is not a word character, so there is at most one way to match.) -/
def matchHere : Str → Option (Str × Str)
  | [] => none
  | c :: rest =>
    if c = '%' then
      match rest.takeWhile (nameChar word), rest.dropWhile (nameChar word) with
      | n :: ns, '%' :: after => some (n :: ns, after)
      | _, _ => none
    else none

theorem matchHere_shorter {s : Str} {r : Str × Str} (h : matchHere word s = some r) : r.2.length < s.length := by
  cases s with
  | nil => simp [matchHere] at h
  | cons c rest =>
    have hlen : (rest.dropWhile (nameChar word)).length ≤ rest.length := (List.dropWhile_suffix _).length_le
    simp only [matchHere] at h
    split at h
    · split at h
      · rename_i heq
        simp only [Option.some.injEq] at h
        subst h
        rw [heq] at hlen
        simp only [List.length_cons] at hlen ⊢
        omega
      · simp at h
    · simp at h

/-- A piece of a string as the regular expression sees it: a character outside the matches, or a match with its group. -/
inductive Tok
  | char (c : Char)
  | placeholder (name : Str)

/-- The successive non-overlapping matches, left to right, and the characters between them (`findall`, `re.sub`). -/
def tokens (s : Str) : List Tok :=
  match _h : matchHere word s with
  | some r => .placeholder r.1 :: tokens r.2
  | none =>
    match s with
    | [] => []
    | c :: rest => .char c :: tokens rest
termination_by s.length
decreasing_by
  · exact matchHere_shorter word _h
  · simp

/-- `_INTERPOLATION_REGEX.findall(val)`. -/
def placeholders (s : Str) : List Str := (tokens word s).filterMap fun t => match t with
  | .placeholder n => some n
  | .char _ => none

/-- `_INTERPOLATION_REGEX.fullmatch(val)`, then `val[1:-1]`. -/
def fullMatch (s : Str) : Option Str :=
  match matchHere word s with
  | some (n, []) => some n
  | _ => none

/-- `parameters.py:1637-1648`: the loop over the placeholders of one value. -/
def gatherFrom (σ : Store) (key : Str) : List Str → Res (List Str × List (Str × Str))
  | [] => .ok ([], [])
  | m :: ms => do
    let c ← getFrom σ root (splitOn '.' m)
    let (nodes, edges) ← gatherFrom σ key ms
    if truthy σ c then .ok (key :: m :: nodes, (key, m) :: edges) else .ok (key :: nodes, edges)

/-- `gather_interpolation_edges`, `parameters.py:1634-1649`, over the items listed by `namespaced_items` (which lists no
`Parameters`, so the last branch of the code is never taken). -/
def gather (σ : Store) : List (Str × PVal) → Res (List Str × List (Str × Str))
  | [] => .ok ([], [])
  | (key, .str s) :: rest => do
    let (n, e) ← gatherFrom σ key (placeholders word s)
    let (n', e') ← gather σ rest
    .ok (n ++ n', e ++ e')
  | (_, _) :: rest => gather σ rest

/-- `get_backing_off_to_context`, `parameters.py:1658-1670`. -/
def resolve (σ : Store) (ctx : Params) (name : Str) : Res Cell := do
  let c ← getFrom σ root (splitOn '.' name)
  if truthy σ c then .ok c
  else do
    let v ← ctx.privateGet name false .none
    .ok (.val v)

/-- `re.sub` with `replace_param`, `parameters.py:1699-1719`. -/
def expand (σ : Store) (ctx : Params) : List Tok → Res Str
  | [] => .ok []
  | .char c :: ts => do
    let r ← expand σ ctx ts
    .ok (c :: r)
  | .placeholder n :: ts => do
    match ← resolve σ ctx n with
    | .val (.str w) =>
      let r ← expand σ ctx ts
      .ok (w ++ r)
    | _ => .error .parameterError

/-- `parameters.py:1686-1719`: the interpolated value of a string. -/
def interpolated (σ : Store) (ctx : Params) (s : Str) : Res Cell :=
  match fullMatch word s with
  | some n => resolve σ ctx n
  | none => do
    let t ← expand σ ctx (tokens word s)
    .ok (.val (.str t))

/-- `parameters.py:1672-1722`: the body of the loop over the parameters to interpolate. -/
def stepNode (ctx : Params) (σ : Store) (name : Str) : Res Store := do
  let c ← getFrom σ root (splitOn '.' name)
  if truthy σ c then
    match c with
    | .val (.str s) => do
      let w ← interpolated word σ ctx s
      setIn σ root (splitOn '.' name) w
    | _ => .ok σ
  else .error .runtimeError

/-- The nested dicts reachable from a stored object, unrolled; the recursion of `from_mapping` over them ends in a
`RecursionError` if a dict contains itself (`fuel` is the number of dicts that may be nested).  Simplification: Python's
recursion limit is otherwise not modelled. -/
def unroll (σ : Store) : Nat → Cell → Res PVal
  | _, .val v => .ok v
  | 0, .ns _ => .error .recursionError
  | fuel + 1, .ns p => do
    let es ← (σ.filter fun e => decide (e.1.dropLast = p)).mapM fun e => (unroll σ fuel e.2).map fun v => (e.1.getLastD [], v)
    .ok (.dict es)

/-- `parameters.py:1727`: one item `(key, mutable_parameters[key])` of the final mapping, unrolled. -/
def finalEntry (σ : Store) (e : Str × PVal) : Res (Str × PVal) :=
  match dictGet σ [e.1] with
  | none => .error .keyError
  | some c => (unroll σ (σ.length + 1) c).map fun v => (e.1, v)

/-- `parameters.py:1724-1731`: back to immutable `Parameters`. -/
def finish (file : Params) (σ : Store) : Res Params := do
  let es ← file.data.mapM (finalEntry σ)
  Params.fromMapping es file.pfx

/-- `YAMLParametersLoader._interpolate`, `parameters.py:1557-1731`. -/
def interpolate (file ctx : Params) : Res Params := do
  checkArg file.pfx.isEmpty
  checkArg ctx.pfx.isEmpty
  let σ₀ := storeOfEntries [] file.data
  let (nodes, edges) ← gather word σ₀ file.namespacedItems
  let g ← Digraph.new nodes edges
  match g.topologicalSort.raised with
  | some (e, _) => .error e
  | none => do
    let σ ← g.topologicalSort.yielded.reverse.foldlM (stepNode word ctx) σ₀
    finish file σ

end regex
end Interp
end Vista
