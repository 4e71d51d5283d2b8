import Verif.Model.Params

/-!
# `vistautils/parameters.py`: `YAMLParametersWriter`

`yaml.dump` is a parameter of the model.
-/
namespace Vista
namespace Params

/-- `YAMLParametersWriter.write` to a string sink, `parameters.py:1736-1751`, and `Parameters.__str__`, `parameters.py:1339-1342`. -/
def write (dump : PVal → Res Str) (p : Params) : Res Str := do
  let v ← preprocess (.dict p.asNestedDicts)
  dump v

end Params
end Vista
