import Verif.Spec.ParamsHeap
import Verif.Spec.ParamsLists

/-!
# Dictionaries and lists of the program, at once

Dictionaries are the objects `.ref a`, lists the objects `.leaf (.obj n)`.  Both may be in each other, be reachable in several ways, and be
changed at any time.
-/
namespace Vista
namespace ParamsShared
open ParamsHeap ParamsLists

/-- What all dictionaries and lists hold at some moment. -/
structure Moment where
  dicts : Heap
  lists : Nat → List HVal

/-- What a value looks like at a moment: with the content that every dictionary and every list in it then has, at every depth.  (A value that
contains itself looks like nothing.) -/
inductive Looks (m : Moment) : HVal → PVal → Prop
  | plain {v : PVal} : v.Leaf → (∀ n, v ≠ .obj n) → Looks m (.leaf v) v
  | list {n : Nat} {ts : List PVal} : (m.lists n).length = ts.length →
      (∀ (i : Nat) (x : HVal) (t : PVal), (m.lists n)[i]? = some x → ts[i]? = some t → Looks m x t) → Looks m (.leaf (.obj n)) (.list ts)
  | ref {a : Nat} {es : HEntries} {ts : Entries} : m.dicts[a]? = some es → es.map (·.1) = ts.map (·.1) →
      (∀ (i : Nat) (x : HVal) (t : PVal), (es.map (·.2))[i]? = some x → (ts.map (·.2))[i]? = some t → Looks m x t) → Looks m (.ref a) (.dict ts)
  | params {pfx : List Str} {es : HEntries} {ts : Entries} : es.map (·.1) = ts.map (·.1) →
      (∀ (i : Nat) (x : HVal) (t : PVal), (es.map (·.2))[i]? = some x → (ts.map (·.2))[i]? = some t → Looks m x t) →
      Looks m (.params pfx es) (.params pfx ts)

/-- The list object `n` is in the value, at some depth, but not within another list. -/
inductive ListIn (n : Nat) : PVal → Prop
  | here : ListIn n (.obj n)
  | dict {es : Entries} {k : Str} {v : PVal} : (k, v) ∈ es → ListIn n v → ListIn n (.dict es)
  | params {pfx : List Str} {es : Entries} {k : Str} {v : PVal} : (k, v) ∈ es → ListIn n v → ListIn n (.params pfx es)

/-- The lists in the value hold, at the moment, what looks like `c`. -/
def Hold (m : Moment) (c : Contents) (t : PVal) : Prop := ∀ n, ListIn n t → Looks m (.leaf (.obj n)) (.list (c.at' n))

/-- The outcome is, at the moment, what `p` says: the exception, or an object that looks like that `Parameters` object. -/
def AgreesAt (m : Moment) (r : Res HVal) (p : Res Params) : Prop :=
  match p with
  | .ok q => ∃ v, r = .ok v ∧ Looks m v q.toVal
  | .error e => r = .error e

end ParamsShared
end Vista
