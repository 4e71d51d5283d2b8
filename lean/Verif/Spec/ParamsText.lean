import Verif.Model.Params

/-!
# Parameters as text: what can be written
-/
namespace Vista
namespace Params
open PVal

/-- `w` occurs in `v`: it is `v`, or occurs in an item of a list or a value of a dict. -/
inductive Occurs : PVal → PVal → Prop
  | here (v : PVal) : Occurs v v
  | list {xs : List PVal} {x w : PVal} : x ∈ xs → Occurs w x → Occurs w (.list xs)
  | dict {es : Entries} {e : Str × PVal} {w : PVal} : e ∈ es → Occurs w e.2 → Occurs w (.dict es)

/-- A value that can be written by itself: not `None`, bytes, an object of another class, or a `Parameters` (inside a list). -/
inductive Writable : PVal → Prop
  | bool (b : Bool) : Writable (.bool b)
  | int (i : Int) : Writable (.int i)
  | float (q : Rat) : Writable (.float q)
  | str (s : Str) : Writable (.str s)
  | path (s : Str) : Writable (.path s)
  | list (xs : List PVal) : Writable (.list xs)
  | dict (es : Entries) : Writable (.dict es)

mutual
/-- The value with every path inside replaced by its text. -/
def pathsAsText (v : PVal) : PVal :=
  match v with
  | .path s => .str s
  | .list xs => .list (pathsAsTextList xs)
  | .dict es => .dict (pathsAsTextEntries es)
  | v => v
termination_by structural v
def pathsAsTextEntry (e : Str × PVal) : Str × PVal :=
  match e with
  | (k, v) => (k, pathsAsText v)
termination_by structural e
def pathsAsTextEntries (es : Entries) : Entries :=
  match es with
  | [] => []
  | e :: rest => pathsAsTextEntry e :: pathsAsTextEntries rest
termination_by structural es
def pathsAsTextList (xs : List PVal) : List PVal :=
  match xs with
  | [] => []
  | x :: rest => pathsAsText x :: pathsAsTextList rest
termination_by structural xs
end

/-- `str` of the value raises: it is a namespace, and something in it cannot be written. -/
def Unprintable (v : PVal) : Prop :=
  ∃ q : Params, v = .params q.pfx q.data ∧ ∃ w, Occurs w (.dict q.asNestedDicts) ∧ ¬ Writable w

/-- What is raised in place of `e`, if the message has `str` of `v` in it. -/
def RaisedWith (e : Exc) (v : PVal) (e' : Exc) : Prop :=
  (Unprintable v → e' = .runtimeError) ∧ (¬ Unprintable v → e' = e)

end Params
end Vista
