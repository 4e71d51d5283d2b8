import Verif.Model.ParamsFiles
import Verif.Model.Loader

/-!
# `vistautils/logging_utils.py` and `vistautils/parameters_only_entrypoint.py`

Of the standard library's logging: the level of the root logger, the handlers of the root logger that print on the standard output (by their
levels), and what they printed (without time and names).  `logging.config.fileConfig` and the conversion of parameters to text are
parameters of the model.
-/
namespace Vista
namespace Logging

/-- The state of logging; `disabled`: the loggers of this package are disabled (as `fileConfig` does by default with all existing ones). -/
structure State where
  rootLevel : Nat
  handlers : List Nat
  disabled : Bool
  printed : List Str
  deriving DecidableEq

/-- `log.log(level, …)` (standard library) for a logger of this package without a level of its own: every handler of the root logger prints
it, unless the level is below that of the root logger or of the handler; a message that cannot be formatted is not printed, and nothing
is raised.  The message is formatted only if needed. -/
def emit (level : Nat) (msg : Res Str) (st : State) : State :=
  if st.disabled ∨ level < st.rootLevel then st
  else
    match msg with
    | .error _ => st
    | .ok s => { st with printed := st.printed ++ (st.handlers.filter fun h => decide (h ≤ level)).map fun _ => s }

/-- `_LEVEL_STRINGS_TO_LEVELS`, `logging_utils.py:12-20`. -/
def levels : List (Str × Nat) :=
  [("CRITICAL".toList, 50), ("FATAL".toList, 50), ("ERROR".toList, 40), ("WARNING".toList, 30), ("WARN".toList, 30), ("INFO".toList, 20),
   ("DEBUG".toList, 10)]

/-- `logging_utils.py:47-52`: the name of the level. -/
def rootLevelName (p : Params) : Res PVal :=
  if p.contains "logging.root_level".toList then p.string "logging.root_level".toList else .ok (.str "INFO".toList)

/-- `_config_logging_from_params`, `logging_utils.py:44-73`. -/
def configRoot (p : Params) (st : State) : Res Unit × State :=
  match rootLevelName p with
  | .error e => (.error e, st)
  | .ok (.str s) =>
    match levels.lookup s with
    | none => (.error .parameterError, st)
    | some l => (.ok (), { st with rootLevel := l, handlers := st.handlers ++ [l] })
  | .ok _ => (.error .parameterError, st)

/-- What the model leaves open. -/
structure Env where
  cwd : PyPath
  /-- `logging.config.fileConfig`. -/
  fileConfig : FS → Loc → State → Res Unit × State
  /-- `str(params)`. -/
  text : Params → Res Str

/-- `configure_logging_from`, `logging_utils.py:35-38`, without logging the parameters. -/
def configureOnly (E : Env) (p : Params) (fs : FS) (st : State) : Res Unit × State :=
  if p.contains "logging.config_file".toList then
    match (p.existingFile E.cwd "logging.config_file".toList fs).1 with
    | .error e => (.error e, st)
    | .ok l => E.fileConfig fs l st
  else configRoot p st

/-- `configure_logging_from`, `logging_utils.py:25-41`; the text of the parameters is made whether or not it is printed. -/
def configure (E : Env) (p : Params) (logParams : Bool) (fs : FS) (st : State) : Res Unit × State :=
  match configureOnly E p fs st with
  | (.error e, st') => (.error e, st')
  | (.ok _, st') =>
    if logParams then
      match E.text p with
      | .error e => (.error e, st')
      | .ok s => (.ok (), emit 20 (.ok s) st')
    else (.ok (), st')

/-- `params.unify(params.from_key_value_pairs(parsed_args.p))` if there are any, `parameters_only_entrypoint.py:69-70`; the values are
strings. -/
def override (params : Params) (pairs : List (Str × Str)) : Res Params :=
  if pairs = [] then .ok params
  else do
    let new ← Params.fromKeyValuePairs (pairs.map fun e => (e.1, .str e.2))
    params.unify new

/-- `parameters_only_entry_point` and `_real_parameters_only_entry_point`, `parameters_only_entrypoint.py:14-44, 47-73`, once the arguments are parsed: `file` is the parameter
file and `pairs` those given by `-p`.  If `parameters` are given, `param_file` is no argument, and `parsed_args.param_file` is an
`AttributeError`.  `main` may change files and logging. -/
def entryPoint (E : Env) (W : Loader.World) (depth : Nat) (main : Params → FS → State → Res Unit × FS × State) (parameters : Option Params) (file : Str)
    (pairs : List (Str × Str)) (fs : FS) (st : State) : Res Unit × FS × State :=
  if parameters.isSome then (.error .attributeError, fs, st)
  else
    match Loader.load W true depth file none none [] with
    | .error e => (.error e, fs, st)
    | .ok loaded =>
      match override loaded pairs with
      | .error e => (.error e, fs, st)
      | .ok params =>
        match configure E params false fs st with
        | (.error e, st') => (.error e, fs, st')
        | (.ok _, st') => main params fs (emit 20 ((E.text params).map ("Ran with parameters:\n".toList ++ ·)) st')

end Logging
end Vista
