import Verif.Model.PyStr

/-!
# `vistautils/class_utils.py`

What the functions look at: the `__name__` of a module; the `__module__` (which may be `None`) and the `__qualname__` of a class.
-/
namespace Vista
namespace ClassUtils

/-- A module or a class, as far as the functions look at it. -/
inductive Named
  | module (name : Str)
  | cls (module : Option Str) (qualname : Str)
deriving DecidableEq

/-- `fully_qualified_name`, `class_utils.py:6-28`; `str.__class__.__module__` is `"builtins"`. -/
def fullyQualifiedName : Named → Str
  | .module n => n
  | .cls Option.none q => q
  | .cls (some m) q => if m = "builtins".toList then q else m ++ ".".toList ++ q

/-- `fully_qualified_name_of_type`, `class_utils.py:31-41`; `classOf` is `__class__`. -/
def fullyQualifiedNameOfType {O : Type} (classOf : O → Named) (obj : O) : Str := fullyQualifiedName (classOf obj)

end ClassUtils
end Vista
