import Verif.Model.ParamsHeap
import Verif.Spec.Params
import Mathlib.Logic.Relation

/-!
# What `Parameters` have to do with the dictionaries of the program
-/
namespace Vista
namespace ParamsHeap

/-- What a value looks like now: `t` is the value with the present content of every dictionary in it, at every depth. -/
inductive Shows (h : Heap) : HVal → PVal → Prop
  | leaf {v : PVal} : v.Leaf → Shows h (.leaf v) v
  | ref {a : Nat} {es : HEntries} {ts : Entries} : h[a]? = some es → es.map (·.1) = ts.map (·.1) →
      (∀ (i : Nat) (x : HVal) (t : PVal), (es.map (·.2))[i]? = some x → (ts.map (·.2))[i]? = some t → Shows h x t) → Shows h (.ref a) (.dict ts)
  | params {pfx : List Str} {es : HEntries} {ts : Entries} : es.map (·.1) = ts.map (·.1) →
      (∀ (i : Nat) (x : HVal) (t : PVal), (es.map (·.2))[i]? = some x → (ts.map (·.2))[i]? = some t → Shows h x t) →
      Shows h (.params pfx es) (.params pfx ts)

/-- Whatever is done to any dictionaries, now or later, the value looks like `t`. -/
def Always (v : HVal) (t : PVal) : Prop := ∀ h, Shows h v t

/-- `w` is the value itself, or in it at some depth. -/
inductive Within (h : Heap) (w : HVal) : HVal → Prop
  | here : Within h w w
  | ref {b : Nat} {es : HEntries} {k : Str} {v : HVal} : h[b]? = some es → (k, v) ∈ es → Within h w v → Within h w (.ref b)
  | params {pfx : List Str} {es : HEntries} {k : Str} {v : HVal} : (k, v) ∈ es → Within h w v → Within h w (.params pfx es)

/-- The dictionary `a` has the dictionary `b` as one of its values. -/
def Holds (h : Heap) (a b : Nat) : Prop := ∃ es k, h[a]? = some es ∧ (k, HVal.ref b) ∈ es

/-- No `Parameters` object in the value has a dictionary in it. -/
def Frozen (h : Heap) (v : HVal) : Prop := ∀ pfx es a, Within h (.params pfx es) v → ¬ Within h (.ref a) (.params pfx es)

/-- The outcome `r` is the `Parameters` object or the exception that `p` says, and the object looks like that forever. -/
def Agrees (r : Res HVal) (p : Res Params) : Prop :=
  match p with
  | .ok q => ∃ v, r = .ok v ∧ Always v q.toVal
  | .error e => r = .error e

/-- No pair assigns a name below that of an earlier pair whose value is a dictionary. -/
def NoneBelowDict (sep : Char) (pairs : List (Str × HVal)) : Prop :=
  ∀ before name a rest, pairs = before ++ (name, .ref a) :: rest → ∀ e ∈ rest,
    ∀ tail, e.1 ≠ name ++ sep :: tail

end ParamsHeap
end Vista
