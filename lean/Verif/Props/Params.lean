import Verif.Proofs.Params

/-!
# Properties C41-C43: looking up parameters; nested dictionaries; listing

`Reaches`, `WF`, `Plain`, `DotFree` and `Loaded` are in `Verif/Spec/Params.lean`.
-/
set_option linter.unusedSectionVars false
set_option linter.unusedSimpArgs false
namespace Vista
namespace Params
open PVal

/-! ## C41 -/

/-- Looking a name up returns the value its dotted path leads to; if the path leads nowhere, `ParameterError`. -/
theorem C41_lookup (p : Params) (h : p.WF) (name : Str) :
    (∀ v, p.get name .object = .ok v ↔ p.toVal.Reaches (splitOn '.' name) v) ∧
    (∀ e, p.get name .object = .error e ↔ e = .parameterError ∧ ¬ ∃ v, p.toVal.Reaches (splitOn '.' name) v) := by
  unfold get privateGet
  by_cases hr : ∃ w, p.toVal.Reaches (splitOn '.' name) w
  · obtain ⟨w, hw⟩ := hr
    simp only [follow_ok h hw, bind, Except.bind, isinstance, if_true, Except.ok.injEq, reduceCtorEq, false_iff]
    refine ⟨fun v => ⟨fun e => e ▸ hw, fun hv => reaches_unique h hw hv⟩, ?_⟩
    rintro e ⟨-, hn⟩; exact hn ⟨w, hw⟩
  · simp only [follow_missing h hr, missing, PVal.isNone, Bool.not_true, Bool.false_eq_true, if_false, bind, Except.bind,
      reduceCtorEq, false_iff, Except.error.injEq]
    exact ⟨fun v hv => hr ⟨v, hv⟩, fun e => ⟨fun he => ⟨he.symm, hr⟩, fun he => he.1.symm⟩⟩

/-- With a default other than `None`: the value if the path leads somewhere, the default otherwise. -/
theorem C41_default (p : Params) (h : p.WF) (name : Str) (d : PVal) (hd : d ≠ .none) (v : PVal) :
    p.get name .object d = .ok v ↔
      p.toVal.Reaches (splitOn '.' name) v ∨ (¬ ∃ w, p.toVal.Reaches (splitOn '.' name) w) ∧ v = d := by
  have hd' : d.isNone = false := by
    cases hh : d.isNone with
    | false => rfl
    | true => exact absurd ((isNone_iff d).1 hh) hd
  unfold get privateGet
  by_cases hr : ∃ w, p.toVal.Reaches (splitOn '.' name) w
  · obtain ⟨w, hw⟩ := hr
    simp only [follow_ok h hw, bind, Except.bind, isinstance, if_true, Except.ok.injEq]
    refine ⟨fun e => .inl (e ▸ hw), ?_⟩
    rintro (hv | ⟨hn, -⟩)
    · exact reaches_unique h hw hv
    · exact absurd ⟨w, hw⟩ hn
  · simp only [follow_missing h hr, missing, hd', Bool.not_false, if_true, bind, Except.bind, isinstance, Except.ok.injEq]
    constructor
    · intro e; exact .inr ⟨hr, e.symm⟩
    · rintro (hv | ⟨-, e⟩)
      · exact absurd ⟨v, hv⟩ hr
      · exact e.symm

/-- `name in p`: the path leads to something other than `None`. -/
theorem C41_in (p : Params) (h : p.WF) (name : Str) :
    p.contains name = true ↔ ∃ v, v ≠ .none ∧ p.toVal.Reaches (splitOn '.' name) v := by
  rw [contains_iff h]
  constructor
  · rintro ⟨v, hn, hr⟩; exact ⟨v, by rintro rfl; simp [isNone] at hn, hr⟩
  · rintro ⟨v, hn, hr⟩
    refine ⟨v, ?_, hr⟩
    cases hh : v.isNone with
    | false => rfl
    | true => exact absurd ((isNone_iff v).1 hh) hn

/-- Looking `b` up in the namespace `a` is looking `a.b` up. -/
theorem C41_namespace (p : Params) (h : p.WF) (a b : Str) (q : Params) (hq : p.namespace a = .ok q) (t : PyType) (d : PVal) :
    q.get b t d = p.get (a ++ '.' :: b) t d ∧ q.contains b = p.contains (a ++ '.' :: b) ∧ q.WF := by
  have hra : p.toVal.Reaches (splitOn '.' a) q.toVal := by
    unfold «namespace» get privateGet at hq
    by_cases hr : ∃ w, p.toVal.Reaches (splitOn '.' a) w
    · obtain ⟨w, hw⟩ := hr
      rw [follow_ok h hw] at hq
      cases w <;> simp [bind, Except.bind, isinstance] at hq
      rw [← hq]; exact hw
    · rw [follow_missing h hr] at hq
      simp [missing, isNone, bind, Except.bind] at hq
  have hqw : q.WF := PVal.WF.reaches h hra
  have hf : ∀ o d, q.privateGet b o d = p.privateGet (a ++ '.' :: b) o d := by
    intro o d
    unfold privateGet
    rw [splitOn_append_sep]
    by_cases hr : ∃ w, q.toVal.Reaches (splitOn '.' b) w
    · obtain ⟨w, hw⟩ := hr
      rw [follow_ok hqw hw, follow_ok h (reaches_append.2 ⟨_, hra, hw⟩)]
    · rw [follow_missing hqw hr, follow_missing h]
      rintro ⟨w, hw⟩
      obtain ⟨u, h1, h2⟩ := reaches_append.1 hw
      rw [reaches_unique h hra h1] at hr
      exact hr ⟨w, h2⟩
  unfold get contains
  rw [hf, hf]
  exact ⟨rfl, rfl, hqw⟩

/-! ## C42 -/

/-- `from_mapping` succeeds on a nested dictionary iff no key has a dot, at any depth; then `as_nested_dicts` gives the
dictionary back; otherwise `ValueError`. -/
theorem C42_roundtrip (es : Entries) (pfx : List Str) (h : (PVal.dict es).Plain) :
    ((PVal.dict es).DotFree → ∃ p, fromMapping es pfx = .ok p ∧ p.asNestedDicts = es) ∧
    (¬ (PVal.dict es).DotFree → fromMapping es pfx = .error .valueError) := by
  refine ⟨fun hd => ?_, fromMapping_error h⟩
  obtain ⟨p, h1, -, -, h2⟩ := fromMapping_ok (pfx := pfx) h hd
  exact ⟨p, h1, h2⟩

/-- `as_nested_dicts` followed by `from_mapping` gives the same `Parameters` back, and the dictionary is a nested one. -/
theorem C42_roundtrip_params (es : Entries) (pfx : List Str) (h : (PVal.dict es).Plain) (p : Params) (hp : fromMapping es pfx = .ok p) :
    fromMapping p.asNestedDicts pfx = .ok p ∧ (PVal.dict p.asNestedDicts).Plain ∧ (PVal.dict p.asNestedDicts).DotFree := by
  have hc := canon_of_fromMapping h hp
  exact ⟨hc.fromMapping, hc.dictify.1, hc.dictify.2.1⟩

/-- Each nested namespace stores the path it is found at; the object built is well-formed, with no mapping left inside. -/
theorem C42_prefix (es : Entries) (pfx : List Str) (h : (PVal.dict es).Plain) (p : Params) (hp : fromMapping es pfx = .ok p) :
    p.WF ∧ p.Tree ∧ p.pfx = pfx ∧ ∀ path pfx' es', p.toVal.Reaches path (.params pfx' es') → pfx' = pfx ++ path := by
  have hc := canon_of_fromMapping h hp
  exact ⟨hc.tree.wf, hc.tree, hc.inv.1, fun path pfx' es' hr => (hc.reaches hr).inv.1⟩

/-- Following a path in the nested dictionary. -/
inductive DictReaches : PVal → List Str → PVal → Prop
  | here (v : PVal) : DictReaches v [] v
  | step {es : Entries} {k : Str} {ks : List Str} {v w : PVal} : (k, v) ∈ es → DictReaches v ks w → DictReaches (.dict es) (k :: ks) w

theorem dictReaches_dictify {v : PVal} (hv : v.Tree) (path : List Str) (w : PVal) (hw : Leaf w) :
    DictReaches (dictify v) path w ↔ v.Reaches path w := by
  induction path generalizing v with
  | nil =>
    constructor
    · intro h
      generalize hu : dictify v = u at h
      cases h
      rcases v.shape with hl | ⟨es, rfl⟩ | ⟨pfx, es, rfl⟩
      · rw [dictify_leaf hl] at hu; subst hu; exact .here _
      · subst hu; exact absurd rfl (leaf_not_dict hw _)
      · subst hu; exact absurd rfl (leaf_not_dict hw _)
    · intro h
      cases h
      rw [dictify_leaf hw]; exact .here _
  | cons k ks ih =>
    constructor
    · intro h
      generalize hu : dictify v = u at h
      cases h with
      | @step es _ _ x _ hm hr =>
        rcases v.shape with hl | ⟨es', rfl⟩ | ⟨pfx, es', rfl⟩
        · rw [dictify_leaf hl] at hu; subst hu; exact absurd rfl (leaf_not_dict hl _)
        · exact absurd hv.not_mapping (by simp [isMapping])
        · simp only [dictify, PVal.dict.injEq] at hu
          subst hu
          rw [dictifyEntries_eq] at hm
          obtain ⟨⟨k', v'⟩, hm', e⟩ := List.mem_map.1 hm
          simp only [Prod.mk.injEq] at e
          obtain ⟨rfl, rfl⟩ := e
          exact .step hm' ((ih (hv.inv.2.2 _ hm')).1 hr)
    · intro h
      obtain ⟨pfx, es, u, rfl, hm, hr⟩ := reaches_cons.1 h
      simp only [dictify]
      refine .step (v := dictify u) ?_ ((ih (hv.inv.2.2 _ hm)).2 hr)
      rw [dictifyEntries_eq]
      exact List.mem_map.2 ⟨_, hm, rfl⟩

/-- The leaves of the `Parameters` made from a nested dictionary are the leaves of the dictionary, at the same paths. -/
theorem C42_leaves (es : Entries) (pfx : List Str) (h : (PVal.dict es).Plain) (p : Params) (hp : fromMapping es pfx = .ok p)
    (path : List Str) (v : PVal) (hv : Leaf v) : p.toVal.Reaches path v ↔ DictReaches (.dict es) path v := by
  have hc := canon_of_fromMapping h hp
  by_cases hd : (PVal.dict es).DotFree
  · obtain ⟨q, h1, -, -, h2⟩ := fromMapping_ok (pfx := pfx) h hd
    rw [hp, Except.ok.injEq] at h1
    subst h1
    rw [← dictReaches_dictify hc.tree path v hv]
    simp only [toVal, dictify]
    unfold asNestedDicts at h2
    rw [h2]
  · rw [fromMapping_error h hd] at hp; simp at hp

/-! ## C43 -/

/-- `namespaced_items` lists exactly the leaves, each under the name that looks it up. -/
theorem C43_items (p : Params) (h : p.Loaded) (name : Str) (v : PVal) :
    (name, v) ∈ p.namespacedItems ↔ p.toVal.Reaches (splitOn '.' name) v ∧ v.isParams = false := by
  have hc := (loaded_iff p).1 h
  have hpfx : p.pfx = [] := hc.inv.1
  unfold namespacedItems
  obtain ⟨pfx, es⟩ := p
  simp only at hpfx; subst hpfx
  simp only
  rw [items_iff hc]
  simp only [List.nil_append]
  constructor
  · rintro ⟨hl, path, hr, rfl⟩
    have hne : path ≠ [] := by
      rintro rfl
      cases hr
      simp [isParams] at hl
    rw [splitOn_joinWith hne (reaches_dotfree hc.tree.wf hr)]
    exact ⟨hr, hl⟩
  · rintro ⟨hr, hl⟩
    exact ⟨hl, _, hr, (joinWith_splitOn _ _).symm⟩

theorem items_names_nodup {pfx : List Str} (hp : ∀ w ∈ pfx, '.' ∉ w) (l : Entries) (hn : (l.map (·.1)).Nodup) (hd : ∀ e ∈ l, '.' ∉ e.1)
    (hc : ∀ e ∈ l, Canon (pfx ++ [e.1]) e.2)
    (ih : ∀ e ∈ l, ((itemsOfVal pfx e.1 e.2).map (·.1)).Nodup) :
    ((itemsOfEntries pfx l).map (·.1)).Nodup := by
  induction l with
  | nil => exact .nil
  | cons e l ihl =>
    obtain ⟨k, v⟩ := e
    simp only [List.map_cons, List.nodup_cons] at hn
    simp only [itemsOfEntries, itemsOfEntry, List.map_append]
    rw [List.nodup_append]
    refine ⟨ih _ (List.mem_cons_self ..), ihl hn.2 (fun e he => hd e (List.mem_cons_of_mem _ he))
      (fun e he => hc e (List.mem_cons_of_mem _ he)) fun e he => ih e (List.mem_cons_of_mem _ he), ?_⟩
    -- a name listed for one key is never listed for another
    have hname : ∀ (k : Str) (v : PVal) (n : Str), '.' ∉ k → Canon (pfx ++ [k]) v → n ∈ (itemsOfVal pfx k v).map (·.1) →
        ∃ path, splitOn '.' n = pfx ++ k :: path := by
      intro k v n hk hcv hm
      have hc1 : Canon pfx (.params pfx [(k, v)]) := .params (by simp) (by simpa using hk) (by simpa using hcv)
      obtain ⟨⟨n', w⟩, hx, rfl⟩ := List.mem_map.1 hm
      obtain ⟨hl, path, hr, hname⟩ := (items_iff hc1 n' w).1 ((itemsOfEntries_mem _ _ _).2 ⟨(k, v), List.mem_cons_self .., hx⟩)
      cases hr with
      | here => simp [isParams] at hl
      | @step _ _ k' ks u _ hm' hr' =>
        simp only [List.mem_singleton, Prod.mk.injEq] at hm'
        obtain ⟨rfl, rfl⟩ := hm'
        refine ⟨ks, ?_⟩
        show splitOn '.' n' = _
        rw [hname]
        refine splitOn_joinWith (by simp) ?_
        intro w hw
        simp only [List.mem_append, List.mem_cons] at hw
        rcases hw with hw | rfl | hw
        · exact hp w hw
        · exact hk
        · exact reaches_dotfree hcv.tree.wf hr' w hw
    intro n hn1 n' hn2 e
    subst e
    obtain ⟨p1, e1⟩ := hname k v n (hd _ (List.mem_cons_self ..)) (hc _ (List.mem_cons_self ..)) hn1
    obtain ⟨⟨n', w⟩, hx, e⟩ := List.mem_map.1 hn2
    simp only at e; subst e
    obtain ⟨e', he', hx'⟩ := (itemsOfEntries_mem _ _ _).1 hx
    obtain ⟨p2, e2⟩ := hname e'.1 e'.2 n' (hd _ (List.mem_cons_of_mem _ he')) (hc _ (List.mem_cons_of_mem _ he'))
      (List.mem_map.2 ⟨_, hx', rfl⟩)
    rw [e1, List.append_cancel_left_eq, List.cons.injEq] at e2
    exact hn.1 (List.mem_map.2 ⟨e', he', e2.1.symm⟩)

/-- No name is listed twice. -/
theorem C43_each_once (p : Params) (h : p.Loaded) : (p.namespacedItems.map (·.1)).Nodup := by
  have hc := (loaded_iff p).1 h
  suffices hs : ∀ v : PVal, ∀ pfx k, (∀ w ∈ pfx, '.' ∉ w) → '.' ∉ k → Canon (pfx ++ [k]) v →
      ((itemsOfVal pfx k v).map (·.1)).Nodup by
    obtain ⟨e, hn, hd, hcs⟩ := hc.inv
    unfold namespacedItems
    rw [e]
    exact items_names_nodup (by simp) _ hn hd hcs fun x hx => hs x.2 [] x.1 (by simp) (hd x hx) (hcs x hx)
  intro v
  induction v using PVal.ind with
  | leaf v hl => intro pfx k _ _ _; rw [itemsOfVal_leaf hl.1]; simp
  | dict es _ => intro pfx k _ _ hc; exact absurd hc.tree.not_mapping (by simp [isMapping])
  | params pfx' es ih =>
    intro pfx k hp hk hc
    obtain ⟨rfl, hn, hd, hcs⟩ := hc.inv
    show ((itemsOfEntries _ es).map (·.1)).Nodup
    have hp' : ∀ w ∈ pfx ++ [k], '.' ∉ w := by
      intro w hw
      simp only [List.mem_append, List.mem_singleton] at hw
      rcases hw with hw | rfl
      · exact hp w hw
      · exact hk
    exact items_names_nodup hp' _ hn hd hcs fun x hx => ih x hx _ _ hp' (hd x hx) (hcs x hx)

/-! ## The hypotheses are met -/

/-- `{"a": {"b": 1, "c": None}, "d": "x"}`. -/
def exampleDict : Entries :=
  [(['a'], .dict [(['b'], .int 1), (['c'], .none)]), (['d'], .str ['x'])]

/-- The `Parameters` made from it. -/
def exampleParams : Params :=
  ⟨[], [(['a'], .params [['a']] [(['b'], .int 1), (['c'], .none)]), (['d'], .str ['x'])]⟩

example : fromMapping exampleDict = .ok exampleParams := by rfl

theorem exampleDict_plain : (PVal.dict exampleDict).Plain := by
  refine .dict (by decide) fun e he => ?_
  simp only [exampleDict, List.mem_cons, List.not_mem_nil, or_false] at he
  rcases he with rfl | rfl
  · refine .dict (by decide) fun e he => ?_
    simp only [List.mem_cons, List.not_mem_nil, or_false] at he
    rcases he with rfl | rfl <;> exact .leaf ⟨rfl, rfl⟩
  · exact .leaf ⟨rfl, rfl⟩

theorem exampleParams_loaded : exampleParams.Loaded := ⟨exampleDict, exampleDict_plain, rfl⟩
example : exampleParams.WF := ((loaded_iff _).1 exampleParams_loaded).tree.wf
example : exampleParams.namespace ['a'] = .ok ⟨[['a']], [(['b'], .int 1), (['c'], .none)]⟩ := by rfl
example : exampleParams.get "a.b".toList .object = .ok (.int 1) := by rfl
example : exampleParams.contains "a.c".toList = false ∧ exampleParams.get "a.c".toList .object = .ok .none := ⟨by rfl, by rfl⟩
example : exampleParams.namespacedItems = [("a.b".toList, .int 1), ("a.c".toList, .none), ("d".toList, .str ['x'])] := by rfl
/-- A dotted key. -/
example : ¬ (PVal.dict [(['a', '.'], .int 1)]).DotFree := fun h => h.inv.1 _ (List.mem_cons_self ..) (by decide)

end Params
end Vista
