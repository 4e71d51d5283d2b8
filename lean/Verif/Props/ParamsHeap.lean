import Verif.Proofs.ParamsHeapPairs

/-!
# C99: `Parameters` and the dictionaries of the program
-/
set_option linter.unusedSimpArgs false
namespace Vista
namespace ParamsHeap

/-- `from_mapping` on a nested dictionary: the outcome is the one for the nested dictionary as it looks now (unless Python's limit of recursion
is met), and the object looks like that forever, whatever is done to the dictionaries afterwards. -/
theorem C99_from_mapping {h : Heap} {a : Nat} {ts : Entries} (hs : Shows h (.ref a) (.dict ts)) (hf : Frozen h (.ref a)) (pfx : List Str) :
    (∀ limit, fromMapping h limit pfx a = .error .recursionError ∨ Agrees (fromMapping h limit pfx a) (Params.fromMapping ts pfx)) ∧
    ∃ N, ∀ limit, N ≤ limit → fromMapping h limit pfx a ≠ .error .recursionError := by
  refine ⟨fun limit => fromMapping_agrees h limit pfx a ts hs hf, ?_⟩
  obtain ⟨N, hN⟩ := fromMapping_limit hs
  exact ⟨N, fun limit hl => hN a rfl limit hl pfx⟩

/-- A dictionary that contains itself, at some depth, cannot be converted. -/
theorem C99_cycle {h : Heap} {a : Nat} (hc : Relation.TransGen (Holds h) a a) (limit : Nat) (pfx : List Str) (v : HVal) :
    fromMapping h limit pfx a ≠ .ok v := fromMapping_cycle h limit pfx a hc v

/-- `from_key_value_pairs`: no dictionary of the caller is changed, the outcome is the one for the values as they look now, and the object looks
like that forever — when no name is assigned below the name of an earlier pair whose value is a dictionary. -/
theorem C99_pairs {h : Heap} {sep : Char} {pairs : List (Str × HVal)} {shown : List (Str × PVal)}
    (hs : List.Forall₂ (fun e t => e.1 = t.1 ∧ Shows h e.2 t.2) pairs shown) (hf : ∀ e ∈ pairs, Frozen h e.2) (hb : NoneBelowDict sep pairs) :
    (∀ limit, h <+: (fromKeyValuePairs limit pairs sep h).2 ∧
      ((fromKeyValuePairs limit pairs sep h).1 = .error .recursionError ∨
        Agrees (fromKeyValuePairs limit pairs sep h).1 (Params.fromKeyValuePairs shown sep))) ∧
    ∃ N, ∀ limit, N ≤ limit → (fromKeyValuePairs limit pairs sep h).1 ≠ .error .recursionError :=
  fromKeyValuePairs_spec hs hf hb

/-- `as_nested_dicts`: the dictionaries there were are not changed, all dictionaries in the result are new, and it looks like the nested dictionary
of the parameters; the parameters look as before forever, whatever is done to the result. -/
theorem C99_nested_dicts {v : HVal} {p : Params} (hv : Always v p.toVal) (h : Heap) :
    h <+: (dictify v h).2 ∧ Shows (dictify v h).2 (dictify v h).1 (.dict p.asNestedDicts) ∧
    (∃ a, (dictify v h).1 = .ref a) ∧ ∀ b, Within (dictify v h).2 (.ref b) (dictify v h).1 → h.length ≤ b := by
  obtain ⟨h1, h2, h3⟩ := dictify_fresh hv h
  have h2' : Shows (dictify v h).2 (dictify v h).1 (.dict p.asNestedDicts) := h2
  refine ⟨h1, h2', ?_, h3⟩
  cases hr : (dictify v h).1 with
  | ref a => exact ⟨a, rfl⟩
  | leaf x => rw [hr] at h2'; cases h2' with | leaf hl => exact absurd hl.2 (by simp [PVal.isMapping])
  | params q es => rw [hr] at h2'; cases h2'

namespace Example

def one : HVal := .leaf (.int 1)
def a : Str := ['a']
def b : Str := ['b']
def x : Str := ['x']

/-- A dictionary `{"x": 1}`, and `{"a": that one, "b": that one}`. -/
def heap : Heap := [[(x, one)], [(a, .ref 0), (b, .ref 0)]]

def inner : PVal := .dict [(x, .int 1)]

theorem shows_inner : Shows heap (.ref 0) inner := shows_ref rfl (.cons ⟨rfl, .leaf ⟨rfl, rfl⟩⟩ .nil)

theorem shows_outer : Shows heap (.ref 1) (.dict [(a, inner), (b, inner)]) := shows_ref rfl (.cons ⟨rfl, shows_inner⟩ (.cons ⟨rfl, shows_inner⟩ .nil))

theorem no_params {v : HVal} {pfx : List Str} {es : HEntries} (hv : v = .leaf (.int 1) ∨ v = .ref 0 ∨ v = .ref 1) : ¬ Within heap (.params pfx es) v := by
  intro hw
  generalize hw' : HVal.params pfx es = w at hw
  induction hw with
  | here => subst hw'; simp at hv
  | ref h1 h2 _ ih =>
    refine ih ?_
    rcases hv with hv | hv | hv <;> cases hv
    · simp only [heap, List.getElem?_cons_zero, Option.some.injEq] at h1
      subst h1
      simp only [List.mem_singleton, Prod.mk.injEq] at h2
      exact .inl h2.2
    · simp only [heap, List.getElem?_cons_succ, List.getElem?_cons_zero, Option.some.injEq] at h1
      subst h1
      simp only [List.mem_cons, Prod.mk.injEq, List.not_mem_nil, or_false] at h2
      rcases h2 with h2 | h2 <;> exact .inr (.inl h2.2)
  | params _ _ _ => simp at hv

theorem frozen (n : Nat) (hn : n = 0 ∨ n = 1) : Frozen heap (.ref n) := fun _ _ _ hw =>
  absurd hw (no_params (by rcases hn with rfl | rfl <;> simp))

/-- The hypotheses of `C99_from_mapping` hold for a dictionary that has another one twice; and the outcome. -/
example : Shows heap (.ref 1) (.dict [(a, inner), (b, inner)]) ∧ Frozen heap (.ref 1) ∧
    fromMapping heap 2 [] 1 = .ok (.params [] [(a, .params [a] [(x, one)]), (b, .params [b] [(x, one)])]) ∧
    fromMapping heap 1 [] 1 = .error .recursionError := ⟨shows_outer, frozen 1 (.inr rfl), rfl, rfl⟩

/-- The hypotheses of `C99_pairs` hold for `[("x.a", d), ("x.b", 1)]`; and the outcome. -/
example : List.Forall₂ (fun e t => e.1 = t.1 ∧ Shows heap e.2 t.2) [(['x', '.', 'a'], HVal.ref 0), (['x', '.', 'b'], one)]
      [(['x', '.', 'a'], inner), (['x', '.', 'b'], .int 1)] ∧
    (∀ e ∈ [(['x', '.', 'a'], HVal.ref 0), (['x', '.', 'b'], one)], Frozen heap e.2) ∧
    NoneBelowDict '.' [(['x', '.', 'a'], HVal.ref 0), (['x', '.', 'b'], one)] ∧
    (fromKeyValuePairs 3 [(['x', '.', 'a'], HVal.ref 0), (['x', '.', 'b'], one)] '.' heap).1 =
      .ok (.params [] [(x, .params [x] [(a, .params [x, a] [(x, one)]), (b, one)])]) := by
  refine ⟨.cons ⟨rfl, shows_inner⟩ (.cons ⟨rfl, .leaf ⟨rfl, rfl⟩⟩ .nil), ?_, ?_, rfl⟩
  · intro e he
    simp only [List.mem_cons, List.not_mem_nil, or_false] at he
    rcases he with rfl | rfl
    · exact frozen 0 (.inl rfl)
    · exact fun _ _ _ hw => absurd hw (no_params (.inl rfl))
  · intro before name n rest heq e he tail ht
    rcases before with - | ⟨e1, - | ⟨e2, before⟩⟩
    · simp only [List.nil_append, List.cons.injEq, Prod.mk.injEq] at heq
      obtain ⟨⟨rfl, -⟩, rfl⟩ := heq
      simp only [List.mem_singleton] at he
      subst he
      simp at ht
    · simp [one] at heq
    · simp at heq

/-- A dictionary that contains itself. -/
example : Relation.TransGen (Holds [[(a, .ref 1)], [(b, .ref 0)]]) 0 0 :=
  .tail (b := 1) (.single ⟨[(a, .ref 1)], a, rfl, List.mem_singleton.2 rfl⟩) ⟨[(b, .ref 0)], b, rfl, List.mem_singleton.2 rfl⟩

/-- The hypothesis of `C99_nested_dicts` holds for parameters in parameters; and the outcome. -/
example : Always (.params [] [(a, .params [a] [(x, one)]), (b, one)]) (Params.mk [] [(a, .params [a] [(x, .int 1)]), (b, .int 1)]).toVal ∧
    dictify (.params [] [(a, .params [a] [(x, one)]), (b, one)]) heap =
      (.ref 3, heap ++ [[(x, one)], [(a, .ref 2), (b, one)]]) :=
  ⟨always_params (.cons ⟨rfl, always_params (.cons ⟨rfl, fun _ => .leaf ⟨rfl, rfl⟩⟩ .nil)⟩ (.cons ⟨rfl, fun _ => .leaf ⟨rfl, rfl⟩⟩ .nil)), rfl⟩

/-- `from_key_value_pairs([("a", d), ("a.b", 1)])` changes the dictionary `d` of the caller. -/
theorem _root_.Vista.ParamsHeap.C99_caller_changed_counterexample :
    ∃ (h : Heap) (pairs : List (Str × HVal)), h[0]? = some [] ∧ (fromKeyValuePairs 3 pairs '.' h).2[0]? = some [(b, one)] ∧
      ∃ v, (fromKeyValuePairs 3 pairs '.' h).1 = .ok v :=
  ⟨[[]], [(a, .ref 0), (['a', '.', 'b'], one)], rfl, rfl, _, rfl⟩

/-- In `from_key_value_pairs([("a", d), ("b", d), ("a.x", 1)])` the last pair also sets `b.x`. -/
theorem _root_.Vista.ParamsHeap.C99_set_twice_counterexample :
    ∃ (h : Heap) (pairs : List (Str × HVal)) (shown : List (Str × PVal)),
      List.Forall₂ (fun e t => e.1 = t.1 ∧ Shows h e.2 t.2) pairs shown ∧
      Params.fromKeyValuePairs shown '.' = .ok ⟨[], [(a, .params [a] [(x, .int 1)]), (b, .params [b] [])]⟩ ∧
      (fromKeyValuePairs 3 pairs '.' h).1 = .ok (.params [] [(a, .params [a] [(x, one)]), (b, .params [b] [(x, one)])]) :=
  ⟨[[]], [(a, .ref 0), (b, .ref 0), (['a', '.', 'x'], one)], [(a, .dict []), (b, .dict []), (['a', '.', 'x'], .int 1)],
    .cons ⟨rfl, shows_ref rfl .nil⟩ (.cons ⟨rfl, shows_ref rfl .nil⟩ (.cons ⟨rfl, .leaf ⟨rfl, rfl⟩⟩ .nil)), rfl, rfl⟩

end Example
end ParamsHeap
end Vista
