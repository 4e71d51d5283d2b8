import Verif.Model.Params

/-!
# Lists as objects

A list that the program may change is an object: here `.obj n` stands for the `n`-th list object.  What the lists hold at some moment is a
function `c` from objects to lists; `look c` is a value as it looks at that moment.  (The values in a list at that moment may be anything.)
-/
namespace Vista
namespace ParamsLists

/-- What the list objects hold at some moment. -/
structure Contents where
  at' : Nat → List PVal

mutual
/-- A value as it looks when the list objects hold `c`. -/
def look (c : Contents) (v : PVal) : PVal :=
  match v with
  | .obj n => .list (c.at' n)
  | .dict es => .dict (lookEntries c es)
  | .params pfx es => .params pfx (lookEntries c es)
  | v => v
termination_by structural v
/-- An entry. -/
def lookEntry (c : Contents) (e : Str × PVal) : Str × PVal :=
  match e with
  | (k, v) => (k, look c v)
termination_by structural e
/-- The entries of a mapping. -/
def lookEntries (c : Contents) (es : Entries) : Entries :=
  match es with
  | [] => []
  | e :: es => lookEntry c e :: lookEntries c es
termination_by structural es
end

/-- A `Parameters` object as it looks. -/
def lookParams (c : Contents) (p : Params) : Params := ⟨p.pfx, lookEntries c p.data⟩

/-- An outcome as it looks; exceptions stay as they are. -/
def lookRes {α : Type} (g : Contents → α → α) (c : Contents) : Res α → Res α
  | .ok a => .ok (g c a)
  | .error e => .error e

end ParamsLists
end Vista
