import Verif.Model.Interpolate

/-!
# `vistautils/parameters.py`: `YAMLParametersLoader`

The YAML parser and the file system are parameters of the model (`World`): the parser turns a text into an arbitrary YAML value
or raises; reading a file gives an arbitrary text or raises.  They do not change while parameters are being loaded.
-/
namespace Vista
namespace Loader

/-- A key of a YAML mapping: a string or something else. -/
inductive YKey
  | str (s : Str)
  | other (n : Nat)
  deriving DecidableEq

/-- What `yaml.safe_load` returns: a mapping (a Python `dict`), or any other value (lists included). -/
inductive Yaml
  | value (v : PVal)
  | map (es : List (YKey × Yaml))

/-- The surroundings of a loader. -/
structure World where
  /-- The word characters `\w` of the interpolation regular expression. -/
  word : Char → Bool
  /-- `yaml.safe_load`. -/
  parse : Str → Res Yaml
  /-- `path.read_text(encoding="utf-8")`. -/
  read : Str → Res Str
  /-- `os.path.isabs`. -/
  isAbs : Str → Bool
  /-- `Path(directory, name).resolve(strict=True)`. -/
  resolve : Str → Str → Res Str
  /-- `path.parent`. -/
  parent : Str → Str
  /-- `os.environ.items()`: distinct names. -/
  env : List (Str × Str)

/-- `isinstance(k, str)`. -/
def YKey.isStr : YKey → Bool
  | .str _ => true
  | .other _ => false

mutual
/-- `_check_all_keys_strings`, `parameters.py:1538-1552`, for a value of a mapping (only mappings are looked into). -/
def checkKeys (y : Yaml) : Res Unit :=
  match y with
  | .value _ => .ok ()
  | .map es => if es.all fun e => e.1.isStr then checkKeysAll es else .error .ioError
termination_by structural y
/-- For one item. -/
def checkKeysItem (e : YKey × Yaml) : Res Unit :=
  match e with
  | (_, y) => checkKeys y
termination_by structural e
/-- `parameters.py:1550-1552`: the loop over the values. -/
def checkKeysAll (es : List (YKey × Yaml)) : Res Unit :=
  match es with
  | [] => .ok ()
  | e :: rest => do
    checkKeysItem e
    checkKeysAll rest
termination_by structural es
end

/-- `_validate`, `parameters.py:1529-1536`; returns the top-level mapping. -/
def validate : Yaml → Res (List (YKey × Yaml))
  | .value _ => .error .valueError
  | .map es => do
    checkKeys (.map es)
    .ok es

mutual
/-- The YAML value as a Python value, once all keys are known to be strings (a key that is not is dropped here; `validate` has
already rejected it). -/
def toVal (y : Yaml) : PVal :=
  match y with
  | .value v => v
  | .map es => .dict (toEntries es)
termination_by structural y
/-- For one item. -/
def toEntry (e : YKey × Yaml) : Entries :=
  match e with
  | (.str s, y) => [(s, toVal y)]
  | (.other _, _) => []
termination_by structural e
/-- For a mapping. -/
def toEntries (es : List (YKey × Yaml)) : Entries :=
  match es with
  | [] => []
  | e :: rest => toEntry e ++ toEntries rest
termination_by structural es
end

/-- The special key. -/
def includesKey : Str := "_includes".toList

/-- `for included_file in raw_yaml["_includes"]` (`parameters.py:1485`): what a loop over the value sees.  A string is a sequence
of one-character strings, a mapping gives its keys, bytes give integers. -/
def iterate : PVal → Res (List PVal)
  | .list xs => .ok xs
  | .str s => .ok (s.map fun c => .str [c])
  | .bytes s => .ok (s.map fun c => .int c.toNat)
  | .dict es => .ok (es.map fun e => .str e.1)
  | _ => .error .typeError

/-- `parameters.py:1484-1485`: the items of `_includes`, if there is one. -/
def includedItems (all : Entries) : Res (List PVal) :=
  match dictGet all includesKey with
  | none => .ok []
  | some v => iterate v

variable (W : World)

/-- `parameters.py:1487-1499`: the path of an included file; `dir` is `includes_are_relative_to`. -/
def locate (dir : Option Str) : PVal → Res Str
  | .str s =>
    if W.isAbs s then .ok s
    else match dir with
      | some d => W.resolve d s
      | none => .error .parameterError
  | _ => .error .typeError

/-- `parameters.py:1510-1515`: environment variables are added where there is no explicit top-level parameter. -/
def addEnv : List (Str × Str) → Entries → Entries
  | [], ctx => ctx
  | (k, v) :: rest, ctx => addEnv rest (if (dictGet ctx k).isSome then ctx else dictSet k (.str v) ctx)

/-- `parameters.py:1509-1515`: `interpolation_context`. -/
def interpolationContext (useEnv : Bool) (prev : Params) : Entries :=
  if useEnv then addEnv W.env prev.asNestedDicts else prev.asNestedDicts

/-- `except Exception as e: raise IOError(...)`, `parameters.py:1526-1527`. -/
def asIOError {α : Type} : Res α → Res α
  | .ok a => .ok a
  | .error _ => .error .ioError

/-- `_inner_load_from_string`, `parameters.py:1466-1527`.  `depth` is the number of nested calls Python's recursion limit still
allows; running out of it is a `RecursionError` in the caller. -/
def innerLoad (useEnv : Bool) : Nat → Str → Option Str → Params → List Str → Res Params
  | 0, _, _, _, _ => .error .recursionError
  | depth + 1, content, dir, ctx, pfx => asIOError do
    let raw ← W.parse content
    let es ← validate raw
    let all := toEntries es
    let files ← includedItems all
    let prev ← files.foldlM (init := ctx) fun prev file => do
      let path ← locate W dir file
      let text ← W.read path
      let inc ← innerLoad useEnv depth text (some (W.parent path)) prev []
      prev.unify inc
    let own := all.filter fun e => decide (e.1 ≠ includesKey)
    let f ← Params.fromMapping own
    let c ← Params.fromMapping (interpolationContext W useEnv prev)
    let q ← Interp.interpolate W.word f c
    prev.unify q pfx

/-- `YAMLParametersLoader.load`, `parameters.py:1404-1444`. -/
def load (useEnv : Bool) (depth : Nat) (f : Str) (context includedContext : Option Params) (pfx : List Str) : Res Params := do
  let ctx ← match context, includedContext with
    | some _, some _ => .error .parameterError
    | some c, none => .ok c
    | none, some c => .ok c
    | none, none => .ok Params.empty
  let text ← W.read f
  innerLoad W useEnv (depth + 1) text (some (W.parent f)) ctx pfx

/-- `YAMLParametersLoader.load_string`, `parameters.py:1446-1464`. -/
def loadString (useEnv : Bool) (depth : Nat) (content : Str) (ctx : Params) (pfx : List Str) : Res Params :=
  innerLoad W useEnv (depth + 1) content none ctx pfx

end Loader
end Vista
