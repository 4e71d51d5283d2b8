/-!
# Shared vocabulary of the model

Python exceptions are modelled as values of `Exc` (the class only, not the message text); a function that may raise
returns `Res α`.
-/
namespace Vista

/-- Python exception classes raised by the modelled code (messages are not modelled).
`parameterInterpolationError` is the subclass of `ParameterError` of `vistautils/parameters.py`. -/
inductive Exc
  | valueError
  | typeError
  | keyError
  | indexError
  | runtimeError
  | assertionError
  | ioError
  | notImplementedError
  | attributeError
  | parameterError
  | parameterInterpolationError
  | stopIteration
  | recursionError
  | other
  deriving DecidableEq, Repr

/-- Outcome of a Python call: a value, or the class of the exception raised. -/
abbrev Res (α : Type) := Except Exc α

/-- Python `str` as a list of code points. -/
abbrev Str := List Char

/-- `vistautils/preconditions.py:32-37` `check_arg`: raise `ValueError` when the condition is false.
(The message formatting is not modelled.) -/
def checkArg (b : Bool) : Res Unit := if b then .ok () else .error .valueError

end Vista
