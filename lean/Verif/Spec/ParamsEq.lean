import Verif.Model.ParamsEq
import Verif.Spec.Params

/-!
# When values are the same to Python
-/
namespace Vista
namespace ParamsEq

/-- The number a value is: `True` and `False` are 1 and 0. -/
inductive IsNumber : PVal → Rat → Prop
  | true : IsNumber (.bool true) 1
  | false : IsNumber (.bool false) 0
  | int (i : Int) : IsNumber (.int i) i
  | float (q : Rat) : IsNumber (.float q) q

/-- The same up to the type of numbers and the order of the items of dictionaries and parameters. -/
inductive Same : PVal → PVal → Prop
  | number {v w : PVal} {q : Rat} : IsNumber v q → IsNumber w q → Same v w
  | none : Same .none .none
  | str (s : Str) : Same (.str s) (.str s)
  | path (s : Str) : Same (.path s) (.path s)
  | bytes (s : Str) : Same (.bytes s) (.bytes s)
  | obj (n : Nat) : Same (.obj n) (.obj n)
  | list {xs ys : List PVal} : xs.length = ys.length → (∀ (i : Nat) x y, xs[i]? = some x → ys[i]? = some y → Same x y) → Same (.list xs) (.list ys)
  | dict {es fs : Entries} : (∀ k, k ∈ es.map (·.1) ↔ k ∈ fs.map (·.1)) → (∀ k v w, (k, v) ∈ es → (k, w) ∈ fs → Same v w) → Same (.dict es) (.dict fs)
  | params {pfx : List Str} {es fs : Entries} : (∀ k, k ∈ es.map (·.1) ↔ k ∈ fs.map (·.1)) → (∀ k v w, (k, v) ∈ es → (k, w) ∈ fs → Same v w) →
      Same (.params pfx es) (.params pfx fs)

/-- Dictionaries and parameters in the value have each key once, at every depth (as Python has it). -/
inductive Proper : PVal → Prop
  | leaf {v : PVal} : v.Leaf → (∀ xs, v ≠ .list xs) → Proper v
  | list {xs : List PVal} : (∀ x ∈ xs, Proper x) → Proper (.list xs)
  | dict {es : Entries} : (es.map (·.1)).Nodup → (∀ e ∈ es, Proper e.2) → Proper (.dict es)
  | params {pfx : List Str} {es : Entries} : (es.map (·.1)).Nodup → (∀ e ∈ es, Proper e.2) → Proper (.params pfx es)

/-- There is a list or a dictionary in the value, possibly inside parameters. -/
inductive Unhashable : PVal → Prop
  | list (xs : List PVal) : Unhashable (.list xs)
  | dict (es : Entries) : Unhashable (.dict es)
  | params {pfx : List Str} {es : Entries} {e : Str × PVal} : e ∈ es → Unhashable e.2 → Unhashable (.params pfx es)

end ParamsEq
end Vista
