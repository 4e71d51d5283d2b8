import Verif.Spec.ParamsLists
import Verif.Proofs.Params

/-!
# C104: lists in parameters are shared with the program, never copied, read or changed
-/
set_option linter.unusedSimpArgs false
namespace Vista
namespace ParamsLists
open Params

variable (c : Contents)

theorem lookEntries_eq (es : Entries) : lookEntries c es = es.map fun e => (e.1, look c e.2) := by
  induction es with
  | nil => rfl
  | cons e es ih => obtain ⟨k, v⟩ := e; rw [lookEntries, ih]; rfl

theorem lookEntries_cons (k : Str) (v : PVal) (es : Entries) : lookEntries c ((k, v) :: es) = (k, look c v) :: lookEntries c es := rfl

theorem dictSet_look (k : Str) (v : PVal) (es : Entries) :
    dictSet k (look c v) (lookEntries c es) = lookEntries c (dictSet k v es) := by
  induction es with
  | nil => rfl
  | cons e es ih =>
    obtain ⟨k', v'⟩ := e
    simp only [lookEntries_cons, dictSet]
    split
    · rfl
    · rw [ih]; rfl

theorem dictOf_look (es : Entries) : dictOf (lookEntries c es) = lookEntries c (dictOf es) := by
  have : ∀ (es ret : Entries), (lookEntries c es).foldl (fun d e => dictSet e.1 e.2 d) (lookEntries c ret) =
      lookEntries c (es.foldl (fun d e => dictSet e.1 e.2 d) ret) := by
    intro es
    induction es with
    | nil => exact fun _ => rfl
    | cons e es ih =>
      intro ret
      obtain ⟨k, v⟩ := e
      simp only [lookEntries_cons, List.foldl_cons, dictSet_look, ih]
  exact this es []

theorem dictGet_look (es : Entries) (k : Str) : dictGet (lookEntries c es) k = (dictGet es k).map (look c) := by
  induction es with
  | nil => rfl
  | cons e es ih =>
    obtain ⟨k', v'⟩ := e
    simp only [dictGet, lookEntries_cons, List.lookup] at ih ⊢
    rw [ih]
    split <;> rfl

theorem all_look (es : Entries) (f : Str → Bool) : (lookEntries c es).all (fun e => f e.1) = es.all fun e => f e.1 := by
  rw [lookEntries_eq, List.all_map]; rfl

theorem new_look (es : Entries) (pfx : List Str) : Params.new (lookEntries c es) pfx = lookRes lookParams c (Params.new es pfx) := by
  unfold Params.new
  rw [dictOf_look]
  simp only [all_look c _ (fun k => !(k.contains '.'))]
  cases h : (dictOf es).all (fun e => !(e.1.contains '.')) <;> rfl

mutual
theorem fromVal_look (pfx : List Str) (v : PVal) : fromVal pfx (look c v) = lookRes look c (fromVal pfx v) := by
  match v with
  | .none | .bool _ | .int _ | .float _ | .str _ | .path _ | .bytes _ | .list _ | .obj _ => rfl
  | .params _ _ => rfl
  | .dict es =>
    have h := fromEntries_look pfx es
    simp only [look, fromVal, h, bind, Except.bind]
    cases fromEntries pfx es with
    | error e => rfl
    | ok ret =>
      simp only [lookRes, new_look]
      cases Params.new ret pfx <;> rfl
termination_by structural v
theorem fromEntry_look (pfx : List Str) (e : Str × PVal) : fromEntry pfx (lookEntry c e) = lookRes lookEntry c (fromEntry pfx e) := by
  match e with
  | (k, v) =>
    have h := fromVal_look (pfx ++ [k]) v
    simp only [lookEntry, fromEntry, h, bind, Except.bind]
    cases fromVal (pfx ++ [k]) v <;> rfl
termination_by structural e
theorem fromEntries_look (pfx : List Str) (es : Entries) : fromEntries pfx (lookEntries c es) = lookRes lookEntries c (fromEntries pfx es) := by
  match es with
  | [] => rfl
  | e :: es =>
    have h := fromEntry_look pfx e
    have h' := fromEntries_look pfx es
    simp only [lookEntries, fromEntries, h, h', bind, Except.bind]
    cases fromEntry pfx e with
    | error e => rfl
    | ok e' => cases fromEntries pfx es <;> rfl
termination_by structural es
end

/-- `from_mapping`: the object made has the list objects of the mapping in the same places; whatever they hold, now or later, it looks like
what would be made from the mapping as it looks then; no list is read or changed. -/
theorem C104_from_mapping (es : Entries) (pfx : List Str) :
    fromMapping (lookEntries c es) pfx = lookRes lookParams c (fromMapping es pfx) := by
  simp only [fromMapping, fromEntries_look, bind, Except.bind]
  cases fromEntries pfx es with
  | error e => rfl
  | ok ret => exact new_look c ret pfx

mutual
theorem dictify_look (v : PVal) : dictify (look c v) = look c (dictify v) := by
  match v with
  | .none | .bool _ | .int _ | .float _ | .str _ | .path _ | .bytes _ | .list _ | .obj _ | .dict _ => rfl
  | .params pfx es => simp only [look, dictify, dictifyEntries_look es]
termination_by structural v
theorem dictifyEntry_look (e : Str × PVal) : dictifyEntry (lookEntry c e) = lookEntry c (dictifyEntry e) := by
  match e with
  | (k, v) => simp only [lookEntry, dictifyEntry, dictify_look v]
termination_by structural e
theorem dictifyEntries_look (es : Entries) : dictifyEntries (lookEntries c es) = lookEntries c (dictifyEntries es) := by
  match es with
  | [] => rfl
  | e :: es => simp only [lookEntries, dictifyEntries, dictifyEntry_look e, dictifyEntries_look es]
termination_by structural es
end

/-- `as_nested_dicts` puts the list objects of the parameters in the new dictionaries. -/
theorem C104_nested_dicts (p : Params) : (lookParams c p).asNestedDicts = lookEntries c p.asNestedDicts := dictifyEntries_look c p.data

theorem lookEntries_append (es es' : Entries) : lookEntries c (es ++ es') = lookEntries c es ++ lookEntries c es' := by
  simp [lookEntries_eq]

mutual
theorem itemsOfVal_look (pfx : List Str) (k : Str) (v : PVal) : itemsOfVal pfx k (look c v) = lookEntries c (itemsOfVal pfx k v) := by
  match v with
  | .none | .bool _ | .int _ | .float _ | .str _ | .path _ | .bytes _ | .list _ | .obj _ | .dict _ => rfl
  | .params pfx' es => simp only [look, itemsOfVal, itemsOfEntries_look pfx' es]
termination_by structural v
theorem itemsOfEntry_look (pfx : List Str) (e : Str × PVal) : itemsOfEntry pfx (lookEntry c e) = lookEntries c (itemsOfEntry pfx e) := by
  match e with
  | (k, v) => simp only [lookEntry, itemsOfEntry, itemsOfVal_look pfx k v]
termination_by structural e
theorem itemsOfEntries_look (pfx : List Str) (es : Entries) : itemsOfEntries pfx (lookEntries c es) = lookEntries c (itemsOfEntries pfx es) := by
  match es with
  | [] => rfl
  | e :: es => simp only [lookEntries, itemsOfEntries, itemsOfEntry_look pfx e, itemsOfEntries_look pfx es, lookEntries_append]
termination_by structural es
end

/-- `namespaced_items` lists the list objects of the parameters. -/
theorem C104_items (p : Params) : (lookParams c p).namespacedItems = lookEntries c p.namespacedItems := itemsOfEntries_look c p.pfx p.data

theorem setPath_look (v : PVal) : ∀ (ks : List Str) (d : PVal), setPath ks (look c v) (look c d) = lookRes look c (setPath ks v d)
  | [], _ => by simp [setPath, lookRes]
  | [k], d => by
    cases d <;> simp [setPath, look, lookRes, dictSet_look]
  | k :: k' :: ks, d => by
    cases d with
    | dict es =>
      have h := setPath_look v (k' :: ks) ((dictGet es k).getD (.dict []))
      have h0 : look c ((dictGet es k).getD (.dict [])) = (dictGet (lookEntries c es) k).getD (.dict []) := by
        rw [dictGet_look]; cases dictGet es k <;> rfl
      simp only [look, setPath, ← h0, h, bind, Except.bind]
      cases setPath (k' :: ks) v ((dictGet es k).getD (.dict [])) with
      | error e => rfl
      | ok sub => simp only [lookRes, look, dictSet_look]
    | _ => simp [setPath, look, lookRes]

theorem setPairs_look (sep : Char) (pairs : List (Str × PVal)) (d : PVal) :
    setPairs sep (lookEntries c pairs) (look c d) = lookRes look c (setPairs sep pairs d) := by
  induction pairs generalizing d with
  | nil => rfl
  | cons e pairs ih =>
    obtain ⟨k, v⟩ := e
    simp only [lookEntries_cons, setPairs, setPath_look, bind, Except.bind]
    split
    · rfl
    · cases setPath (splitOn sep k) v d with
      | error e => rfl
      | ok ret => exact ih ret

/-- `from_key_value_pairs` puts the list objects among the values in the parameters. -/
theorem C104_pairs (pairs : List (Str × PVal)) (sep : Char) :
    fromKeyValuePairs (lookEntries c pairs) sep = lookRes lookParams c (fromKeyValuePairs pairs sep) := by
  have h : setPairs sep (lookEntries c pairs) (.dict []) = _ := setPairs_look c sep pairs (.dict [])
  simp only [fromKeyValuePairs, bind, Except.bind]
  rw [h]
  cases setPairs sep pairs (.dict []) with
  | error e => rfl
  | ok ret =>
    cases ret with
    | dict es => exact C104_from_mapping c es []
    | _ => rfl

theorem isNone_look (v : PVal) : (look c v).isNone = v.isNone := by cases v <;> rfl
theorem isParams_look (v : PVal) : (look c v).isParams = v.isParams := by cases v <;> rfl

theorem missing_look (o : Bool) (d : PVal) : missing o (look c d) = lookRes look c (missing o d) := by
  unfold missing
  rw [isNone_look]
  cases d.isNone <;> cases o <;> rfl

theorem follow_look (o : Bool) (d : PVal) (ks : List Str) (v : PVal) : follow o (look c d) (look c v) ks = lookRes look c (follow o d v ks) := by
  induction ks generalizing v with
  | nil => cases v <;> rfl
  | cons k ks ih =>
    cases v with
    | params pfx es =>
      simp only [look, follow, dictGet_look]
      cases dictGet es k with
      | none => exact missing_look c o d
      | some w => exact ih w
    | _ => exact missing_look c o d

/-- Looking up a name gives the list object that is in the parameters, or in the default given. -/
theorem C104_lookup (p : Params) (name : Str) (optional : Bool) (dflt : PVal) :
    (lookParams c p).privateGet name optional (look c dflt) = lookRes look c (p.privateGet name optional dflt) :=
  follow_look c optional dflt (splitOn '.' name) p.toVal

/-- `in` does not depend on what the lists hold. -/
theorem C104_contains (p : Params) (name : Str) : (lookParams c p).contains name = p.contains name := by
  have h : (lookParams c p).privateGet name true .none = _ := C104_lookup c p name true .none
  simp only [Params.contains]
  rw [h]
  cases p.privateGet name true .none with
  | error e => rfl
  | ok v => simp only [lookRes, isNone_look, look]

theorem addNew_look (p : Params) (es ret : Entries) :
    addNew (lookParams c p) (lookEntries c es) (lookEntries c ret) = lookEntries c (addNew p es ret) := by
  induction es generalizing ret with
  | nil => rfl
  | cons e es ih =>
    obtain ⟨k, v⟩ := e
    simp only [lookEntries_cons, addNew, C104_contains]
    split
    · exact ih ret
    · rw [dictSet_look]; exact ih _

mutual
theorem unifyVal_look (pfx : List Str) (old new : PVal) : unifyVal pfx (look c old) (look c new) = lookRes look c (unifyVal pfx old new) := by
  match old with
  | .none | .bool _ | .int _ | .float _ | .str _ | .path _ | .bytes _ | .list _ | .obj _ | .dict _ =>
    all_goals
      simp only [look, unifyVal, isParams_look]
      split <;> rfl
  | .params pfx' es =>
    match new with
    | .none | .bool _ | .int _ | .float _ | .str _ | .path _ | .bytes _ | .list _ | .obj _ | .dict _ => all_goals simp [look, unifyVal, lookRes]
    | .params npfx nes =>
      have h := unifyEntries_look pfx ⟨npfx, nes⟩ es []
      simp only [lookParams, lookEntries] at h
      simp only [look, unifyVal, h, bind, Except.bind]
      cases unifyEntries pfx ⟨npfx, nes⟩ es [] with
      | error e => rfl
      | ok ret =>
        have h2 := addNew_look c ⟨pfx', es⟩ nes ret
        simp only [lookParams] at h2
        simp only [lookRes, h2, C104_from_mapping]
        cases fromMapping (addNew ⟨pfx', es⟩ nes ret) pfx <;> rfl
termination_by structural old
theorem unifyEntry_look (pfx : List Str) (new : Params) (e : Str × PVal) :
    unifyEntry pfx (lookParams c new) (lookEntry c e) = lookRes lookEntry c (unifyEntry pfx new e) := by
  match e with
  | (k, old) =>
    have h0 : dictGet (lookParams c new).data k = (dictGet new.data k).map (look c) := dictGet_look c new.data k
    simp only [lookEntry, unifyEntry, C104_contains, h0]
    split
    · cases dictGet new.data k with
      | none => rfl
      | some nv =>
        have h := unifyVal_look (pfx ++ [k]) old nv
        simp only [Option.map_some, h, bind, Except.bind]
        cases unifyVal (pfx ++ [k]) old nv <;> rfl
    · rfl
termination_by structural e
theorem unifyEntries_look (pfx : List Str) (new : Params) (es ret : Entries) :
    unifyEntries pfx (lookParams c new) (lookEntries c es) (lookEntries c ret) = lookRes lookEntries c (unifyEntries pfx new es ret) := by
  match es with
  | [] => rfl
  | e :: es =>
    have h := unifyEntry_look pfx new e
    have h' := fun ret => unifyEntries_look pfx new es ret
    simp only [lookEntries, unifyEntries, h, bind, Except.bind]
    cases unifyEntry pfx new e with
    | error e => rfl
    | ok e' =>
      obtain ⟨k, v⟩ := e'
      simp only [lookRes, lookEntry, dictSet_look]
      exact h' _
termination_by structural es
end

/-- `unify` puts the list objects of the two in the result. -/
theorem C104_unify (p new : Params) (pfx : List Str) :
    (lookParams c p).unify (lookParams c new) pfx = lookRes lookParams c (p.unify new pfx) := by
  have h := unifyEntries_look c pfx new p.data []
  simp only [lookEntries] at h
  have h1 : unifyEntries pfx (lookParams c new) (lookParams c p).data [] = lookRes lookEntries c (unifyEntries pfx new p.data []) := h
  simp only [Params.unify, h1, bind, Except.bind]
  cases unifyEntries pfx new p.data [] with
  | error e => rfl
  | ok ret =>
    simp only [lookRes]
    rw [show (lookParams c new).data = lookEntries c new.data from rfl, addNew_look]
    exact C104_from_mapping c _ pfx

/-- Also with a mapping. -/
theorem C104_unify_mapping (p : Params) (new : Entries) (pfx : List Str) :
    (lookParams c p).unifyMapping (lookEntries c new) pfx = lookRes lookParams c (p.unifyMapping new pfx) := by
  simp only [Params.unifyMapping, C104_from_mapping, bind, Except.bind]
  cases fromMapping new with
  | error e => rfl
  | ok n => exact C104_unify c p n pfx

/-- `namespace`: the list objects are those of the parameters. -/
theorem C104_namespace (p : Params) (name : Str) : (lookParams c p).namespace name = lookRes lookParams c (p.namespace name) := by
  have h := C104_lookup c p name false .none
  rw [show look c .none = .none from rfl] at h
  simp only [Params.namespace, Params.get, h, bind, Except.bind]
  cases p.privateGet name false .none with
  | error e => rfl
  | ok v => cases v <;> rfl

/-- `arbitrary_list` and `optional_arbitrary_list` give the list object itself that is in the parameters under the name: whatever it
holds, now or later, the result looks like it. -/
theorem C104_arbitrary_list (p : Params) (name : Str) (n : Nat) (h : p.privateGet name true .none = .ok (.obj n)) (dflt : PVal) :
    (lookParams c p).arbitraryList name dflt = .ok (.list (c.at' n)) ∧
    ((dflt.truthy = true → isinstance dflt .list = true) → (lookParams c p).optionalArbitraryList name dflt = .ok (.list (c.at' n))) := by
  have hl := C104_lookup c p name true .none
  rw [h, show look c .none = .none from rfl] at hl
  have hd : ∀ o d, (lookParams c p).privateGet name o d = .ok (.list (c.at' n)) := by
    have : ∀ (o : Bool) (d v : PVal) (ks : List Str) (xs : List PVal), follow true .none v ks = .ok (.list xs) → follow o d v ks = .ok (.list xs) := by
      intro o d v ks xs
      induction ks generalizing v with
      | nil => cases v <;> exact id
      | cons k ks ih =>
        cases v with
        | params pfx es =>
          simp only [follow]
          cases dictGet es k with
          | none => simp [missing, PVal.isNone]
          | some w => exact ih w
        | _ => simp [follow, missing, PVal.isNone]
    exact fun o d => this o d _ _ _ hl
  refine ⟨by simp [Params.arbitraryList, Params.get, hd, bind, Except.bind, isinstance], fun ht => ?_⟩
  simp only [Params.optionalArbitraryList, Params.getOptional, hd, bind, Except.bind]
  cases hdt : dflt.truthy with
  | false => rfl
  | true => rw [ht hdt]; rfl

/-- The parameters made are no snapshot: `params = Parameters.from_mapping({"a": l}); l.append(1)` changes what `params` says under `a`, and
appending to what `arbitrary_list` gave changes it too. -/
theorem C104_not_a_snapshot_counterexample : ∃ (es : Entries) (p : Params) (now later : Contents),
    fromMapping (lookEntries now es) [] = .ok (lookParams now p) ∧
    (lookParams now p).arbitraryList "a".toList = .ok (.list []) ∧ (lookParams later p).arbitraryList "a".toList = .ok (.list [.int 1]) :=
  ⟨[("a".toList, .obj 0)], ⟨[], [("a".toList, .obj 0)]⟩, ⟨fun _ => []⟩, ⟨fun _ => [.int 1]⟩, rfl, rfl, rfl⟩

/-- A value as it looks at every moment decides which list objects are in it: two values that look the same whatever the lists hold are the
same, if no list in them is one that the program cannot reach. -/
theorem look_injective_obj {n m : Nat} (h : ∀ c : Contents, look c (.obj n) = look c (.obj m)) : n = m := by
  by_contra hn
  have h1 := h ⟨fun i => if i = n then [.none] else []⟩
  have hm : m ≠ n := fun e => hn e.symm
  simp [look, hm] at h1

namespace Example

/-- Two parameters with lists, one of them in a namespace, and a change of one list after `unify`. -/
def old : Params := ⟨[], [("a".toList, .obj 0), ("n".toList, .params ["n".toList] [("b".toList, .obj 1)])]⟩
/-- The new ones. -/
def new : Params := ⟨[], [("a".toList, .obj 2)]⟩

example : old.unify new = .ok ⟨[], [("a".toList, .obj 2), ("n".toList, .params ["n".toList] [("b".toList, .obj 1)])]⟩ := rfl
example : old.privateGet "n.b".toList true .none = .ok (.obj 1) := rfl

end Example
end ParamsLists
end Vista
