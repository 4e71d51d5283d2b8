import Verif.Model.Objects

/-!
# `eval_in_context_of_modules`, `vistautils/misc_utils.py:43-81`, with its effects

`Params.evalInContext` gives the result; here the dictionaries are objects and the imports are recorded in the order they are made.
Importing is assumed to have no other effect, and evaluating may change the dictionary it is given as globals (`eval` itself adds
`__builtins__`) but no other.
-/
namespace Vista
namespace Params

/-- The dictionaries there are (a dictionary is referred to by its index), and the names given to `importlib.import_module` so far. -/
structure EvalWorld where
  dicts : List Entries
  imported : List Str

/-- The content of a dictionary. -/
def EvalWorld.at (w : EvalWorld) (d : Nat) : Entries := (w.dicts[d]?).getD []

/-- `context = dict(context)`, `misc_utils.py:63`: a new dictionary. -/
def EvalWorld.copy (w : EvalWorld) (d : Nat) : Nat × EvalWorld := (w.dicts.length, { w with dicts := w.dicts ++ [w.at d] })

/-- `misc_utils.py:70-72`. -/
def importPackageIn (py : Py) (d : Nat) (package : Str) (w : EvalWorld) : Res Unit × EvalWorld :=
  if (dictGet (w.at d) package).isSome then (.ok (), w)
  else
    match py.importModule package with
    | .error e => (.error e, { w with imported := w.imported ++ [package] })
    | .ok m => (.ok (), { dicts := w.dicts.set d (dictSet package m (w.at d)), imported := w.imported ++ [package] })

/-- The inner loop, `misc_utils.py:69-72`. -/
def importPackagesIn (py : Py) (d : Nat) : List Str → EvalWorld → Res Unit × EvalWorld
  | [], w => (.ok (), w)
  | k :: ks, w =>
    match importPackageIn py d k w with
    | (.ok _, w') => importPackagesIn py d ks w'
    | (.error e, w') => (.error e, w')

/-- The outer loop, `misc_utils.py:66-72`. -/
def importModulesIn (py : Py) (d : Nat) : List PVal → EvalWorld → Res Unit × EvalWorld
  | [], w => (.ok (), w)
  | .str s :: rest, w =>
    match importPackagesIn py d (dottedPrefixes (splitOn '.' s)) w with
    | (.ok _, w') => importModulesIn py d rest w'
    | (.error e, w') => (.error e, w')
  | .bytes _ :: _, w => (.error .typeError, w)
  | _ :: _, w => (.error .attributeError, w)

/-- `eval_in_context_of_modules`, `misc_utils.py:43-81`; `after` is what evaluating does to its globals. -/
def evalInModules (py : Py) (after : PVal → Entries → Entries) (toEval : PVal) (context : Nat) (modules : List PVal) (expected : PVal → Bool)
    (w : EvalWorld) : Res PVal × EvalWorld :=
  match importModulesIn py (w.copy context).1 modules (w.copy context).2 with
  | (.error e, w1) => (.error e, w1)
  | (.ok _, w1) =>
    let w2 : EvalWorld := { w1 with dicts := w1.dicts.set (w.copy context).1 (after toEval (w1.at (w.copy context).1)) }
    match py.eval toEval (dictGet (w1.at (w.copy context).1)) with
    | .error e => (.error e, w2)
    | .ok ret => (if expected ret then .ok ret else .error (raising .typeError ret), w2)

end Params
end Vista
