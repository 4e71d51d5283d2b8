import Verif.Spec.Loader
import Verif.Proofs.UnifyAbsorb
import Verif.Proofs.InterpolateTree
import Verif.Props.Interpolate
import Verif.Props.ParamsPairs

/-!
# The loader: files one after the other
-/
set_option linter.unusedSectionVars false
set_option linter.unusedSimpArgs false
namespace Vista
namespace Loader
open PVal Params

/-! ## YAML values -/

theorem Yaml.ind {P : Yaml → Prop} (value : ∀ v, P (.value v)) (map : ∀ es, (∀ e ∈ es, P e.2) → P (.map es)) (y : Yaml) : P y := by
  refine Yaml.rec (motive_1 := P) (motive_2 := fun es => ∀ e ∈ es, P e.2) (motive_3 := fun e => P e.2) value map ?_ ?_ ?_ y
  · simp
  · intro e es h1 h2 x hx
    rcases List.mem_cons.1 hx with rfl | hx
    · exact h1
    · exact h2 x hx
  · intro k y h; exact h

theorem checkKeysAll_iff (es : List (YKey × Yaml)) : checkKeysAll es = .ok () ↔ ∀ e ∈ es, checkKeys e.2 = .ok () := by
  induction es with
  | nil => simp [checkKeysAll]
  | cons e es ih =>
    obtain ⟨k, y⟩ := e
    simp only [checkKeysAll, checkKeysItem, bind, Except.bind, List.mem_cons, forall_eq_or_imp, ← ih]
    cases checkKeys y <;> simp

theorem isStr_iff (k : YKey) : k.isStr = true ↔ ∃ s, k = .str s := by cases k <;> simp [YKey.isStr]

theorem checkKeys_iff (y : Yaml) : checkKeys y = .ok () ↔ StringKeys y := by
  induction y using Yaml.ind with
  | value v => simp only [checkKeys, true_iff]; exact .value v
  | map es ih =>
    rw [checkKeys]
    constructor
    · intro h
      split at h
      · rename_i hs
        rw [List.all_eq_true] at hs
        rw [checkKeysAll_iff] at h
        exact .map (fun e he => (isStr_iff _).1 (hs e he)) fun e he => (ih e he).1 (h e he)
      · simp at h
    · intro h
      cases h with
      | map h1 h2 =>
        rw [if_pos (List.all_eq_true.2 fun e he => (isStr_iff _).2 (h1 e he)), checkKeysAll_iff]
        exact fun e he => (ih e he).2 (h2 e he)

theorem validate_iff (y : Yaml) (es : List (YKey × Yaml)) : validate y = .ok es ↔ y = .map es ∧ StringKeys y := by
  cases y with
  | value v => simp [validate]
  | map es' =>
    simp only [validate, bind, Except.bind, Yaml.map.injEq]
    rw [← checkKeys_iff]
    cases checkKeys (.map es') <;> simp

theorem mem_toEntries (es : List (YKey × Yaml)) (k : Str) (v : PVal) :
    (k, v) ∈ toEntries es ↔ ∃ y, (YKey.str k, y) ∈ es ∧ v = toVal y := by
  induction es with
  | nil => simp [toEntries]
  | cons e es ih =>
    obtain ⟨a, y⟩ := e
    cases a with
    | str s =>
      simp only [toEntries, toEntry, List.singleton_append, List.mem_cons, Prod.mk.injEq, ih, YKey.str.injEq]
      constructor
      · rintro (⟨rfl, rfl⟩ | ⟨y', h, rfl⟩)
        · exact ⟨y, .inl ⟨rfl, rfl⟩, rfl⟩
        · exact ⟨y', .inr h, rfl⟩
      · rintro ⟨y', ⟨rfl, rfl⟩ | h, rfl⟩
        · exact .inl ⟨rfl, rfl⟩
        · exact .inr ⟨y', h, rfl⟩
    | other n =>
      simp only [toEntries, toEntry, List.nil_append, List.mem_cons, Prod.mk.injEq, reduceCtorEq, false_and, false_or, ih]

theorem toEntries_nodup {es : List (YKey × Yaml)} (h : (es.map (·.1)).Nodup) : ((toEntries es).map (·.1)).Nodup := by
  induction es with
  | nil => simp [toEntries]
  | cons e es ih =>
    obtain ⟨a, y⟩ := e
    simp only [List.map_cons, List.nodup_cons] at h
    cases a with
    | str s =>
      simp only [toEntries, toEntry, List.singleton_append, List.map_cons, List.nodup_cons]
      refine ⟨fun hm => h.1 ?_, ih h.2⟩
      obtain ⟨⟨k, v⟩, he, rfl⟩ := List.mem_map.1 hm
      obtain ⟨y', hy, -⟩ := (mem_toEntries es _ _).1 he
      exact List.mem_map.2 ⟨_, hy, rfl⟩
    | other n => simp only [toEntries, toEntry, List.nil_append]; exact ih h.2

theorem denotes_toVal {y : Yaml} (h : StringKeys y) : Denotes y (toVal y) := by
  induction y using Yaml.ind with
  | value v => exact .value v
  | map es ih =>
    cases h with
    | map h1 h2 =>
      rw [toVal]
      refine .map ?_
      clear * - h1 h2 ih
      induction es with
      | nil => exact .nil
      | cons e es ihe =>
        obtain ⟨k, y⟩ := e
        obtain ⟨s, hs⟩ := h1 (k, y) (by simp)
        simp only at hs
        subst hs
        rw [toEntries, toEntry, List.singleton_append]
        exact .cons (ih (.str s, y) (by simp) (h2 (.str s, y) (by simp)))
          (ihe (fun e he => ih e (by simp [he])) (fun e he => h1 e (by simp [he])) (fun e he => h2 e (by simp [he])))

theorem denotes_inv {y : Yaml} {v : PVal} (h : Denotes y v) : StringKeys y ∧ v = toVal y := by
  refine Denotes.rec (motive_1 := fun y v _ => StringKeys y ∧ v = toVal y)
    (motive_2 := fun es vs _ => StringKeys (.map es) ∧ vs = toEntries es) ?_ ?_ ?_ ?_ h
  · intro v; exact ⟨.value v, rfl⟩
  · rintro es vs - ⟨h1, rfl⟩; exact ⟨h1, by rw [toVal]⟩
  · exact ⟨.map (by simp) (by simp), by rw [toEntries]⟩
  · rintro k y v es vs - - ⟨h1, rfl⟩ ⟨h2, rfl⟩
    refine ⟨?_, by rw [toEntries, toEntry, List.singleton_append]⟩
    cases h2 with
    | map h3 h4 =>
      refine .map ?_ ?_
      · intro e he
        rcases List.mem_cons.1 he with rfl | he
        · exact ⟨k, rfl⟩
        · exact h3 e he
      · intro e he
        rcases List.mem_cons.1 he with rfl | he
        · exact h1
        · exact h4 e he

theorem loopsOver_iff (v : PVal) (xs : List PVal) : LoopsOver v xs ↔ iterate v = .ok xs := by
  constructor
  · intro h; cases h <;> rfl
  · intro h
    cases v <;> simp only [iterate, Except.ok.injEq, reduceCtorEq] at h <;> subst h
    · exact .str _
    · exact .bytes _
    · exact .list _
    · exact .dict _

theorem reads_iff {W : World} (x : Source) (own : Entries) (files : List PVal) : Reads W x own files ↔
    ∃ es, W.parse x.content = .ok (.map es) ∧ StringKeys (.map es) ∧
      own = (toEntries es).filter (fun e => decide (e.1 ≠ "_includes".toList)) ∧
      ((files = [] ∧ "_includes".toList ∉ (toEntries es).map (·.1)) ∨
       ∃ v, ("_includes".toList, v) ∈ toEntries es ∧ iterate v = .ok files) := by
  constructor
  · rintro ⟨es, vs, h1, h2, h3, h4⟩
    obtain ⟨hk, hv⟩ := denotes_inv (.map h2)
    rw [toVal, PVal.dict.injEq] at hv
    subst hv
    simp only [loopsOver_iff] at h4
    exact ⟨es, h1, hk, h3, h4⟩
  · rintro ⟨es, h1, h2, h3, h4⟩
    have := denotes_toVal h2
    rw [toVal] at this
    simp only [← loopsOver_iff] at h4
    cases this with
    | map h => exact ⟨_, _, h1, h, h3, h4⟩

theorem names_iff {W : World} (x : Source) (item : PVal) (y : Source) : Names W x item y ↔
    ∃ path, locate W x.dir item = .ok path ∧ W.read path = .ok y.content ∧ y.dir = some (W.parent path) := by
  constructor
  · rintro ⟨s, path, rfl, h, h1, h2⟩
    refine ⟨path, ?_, h1, h2⟩
    rcases h with ⟨h, rfl⟩ | ⟨h, d, hd, h'⟩
    · simp [locate, h]
    · simp [locate, h, hd, h']
  · rintro ⟨path, h, h1, h2⟩
    cases item with
    | str s =>
      refine ⟨s, path, rfl, ?_, h1, h2⟩
      simp only [locate] at h
      split at h
      · rename_i ha
        simp only [Except.ok.injEq] at h
        exact .inl ⟨ha, h.symm⟩
      · rename_i ha
        split at h
        · rename_i d hd
          exact .inr ⟨by simpa using ha, d, hd, h⟩
        · simp at h
    | _ => simp [locate] at h

theorem toVal_plain {y : Yaml} (h : y.OK) : (toVal y).Plain := by
  induction h with
  | value h => exact .leaf h
  | @map es hn _ ih =>
    refine .dict (toEntries_nodup hn) ?_
    rintro ⟨k, v⟩ he
    obtain ⟨y, hy, rfl⟩ := (mem_toEntries es _ _).1 he
    exact ih _ hy

theorem plain_filter {es : Entries} (h : (PVal.dict es).Plain) (t : Str × PVal → Bool) : (PVal.dict (es.filter t)).Plain := by
  obtain ⟨hn, hp⟩ := h.inv
  exact .dict (hn.sublist (List.Sublist.map _ List.filter_sublist)) fun e he => hp e (List.mem_of_mem_filter he)

variable {W : World} {useEnv : Bool}

theorem reads_plain (hW : W.OK) {x : Source} {own : Entries} {items : List PVal} (h : Reads W x own items) : (PVal.dict own).Plain := by
  obtain ⟨es, h1, -, rfl, -⟩ := (reads_iff ..).1 h
  have := toVal_plain (hW.parse _ _ h1)
  rw [toVal] at this
  exact plain_filter this _

/-! ## The interpolation context -/

theorem dictGet_addEnv (env : List (Str × Str)) : ∀ (ctx : Entries) (k : Str),
    dictGet (addEnv env ctx) k = (dictGet ctx k).or ((env.lookup k).map .str) := by
  induction env with
  | nil => intro ctx k; simp [addEnv]
  | cons e env ih =>
    intro ctx k
    obtain ⟨a, b⟩ := e
    rw [addEnv, ih, List.lookup_cons]
    by_cases hk : k = a
    · subst hk
      cases hg : dictGet ctx k with
      | none => simp [dictGet_dictSet, hg]
      | some v => simp [hg]
    · have : (k == a) = false := by simp [hk]
      rw [this]
      simp only
      split
      · rfl
      · rw [dictGet_dictSet, if_neg hk]

theorem plain_addEnv (env : List (Str × Str)) : ∀ {ctx : Entries}, (PVal.dict ctx).Plain → (PVal.dict (addEnv env ctx)).Plain := by
  induction env with
  | nil => intro ctx h; exact h
  | cons e env ih =>
    intro ctx h
    obtain ⟨a, b⟩ := e
    rw [addEnv]
    split
    · exact ih h
    · exact ih (plain_dictSet h (.leaf ⟨rfl, rfl⟩))

theorem env_lookup {env : List (Str × Str)} (h : (env.map (·.1)).Nodup) (k s : Str) : env.lookup k = some s ↔ (k, s) ∈ env := by
  induction env with
  | nil => simp
  | cons e env ih =>
    obtain ⟨a, b⟩ := e
    simp only [List.map_cons, List.nodup_cons] at h
    rw [List.lookup_cons]
    by_cases hk : k = a
    · subst hk
      simp only [beq_self_eq_true, Option.some.injEq, List.mem_cons, Prod.mk.injEq, true_and]
      constructor
      · exact fun h => .inl h.symm
      · rintro (h' | h')
        · exact h'.symm
        · exact absurd (List.mem_map.2 ⟨_, h', rfl⟩) h.1
    · have : (k == a) = false := by simp [hk]
      rw [this]
      simp only [List.mem_cons, Prod.mk.injEq, hk, false_and, false_or]
      exact ih h.2

/-- The nested dict of a tree, at any path. -/
theorem dictReaches_dictify' {v : PVal} (hv : v.Tree) (path : List Str) (d : PVal) :
    DictReaches (dictify v) path d ↔ ∃ u, v.Reaches path u ∧ d = dictify u := by
  induction path generalizing v with
  | nil =>
    rw [dictReaches_nil]
    simp only [reaches_nil, exists_eq_left]
  | cons k ks ih =>
    rcases tree_leaf_or_params hv with hl | ⟨pfx, es, rfl⟩
    · rw [dictify_leaf hl, dictReaches_leaf hl]
      simp only [reduceCtorEq, false_and, false_iff]
      rintro ⟨u, h, -⟩
      exact absurd ((reaches_leaf hl.1).1 h).1 (by simp)
    · rw [dictify, dictReaches_cons (by rw [dictifyEntries_keys]; exact hv.inv.1)]
      simp only [dictGet_dictifyEntries, Option.map_eq_some_iff, reaches_step hv.inv.1]
      constructor
      · rintro ⟨w, ⟨u, hu, rfl⟩, hr⟩
        obtain ⟨u', h1, h2⟩ := (ih (hv.inv.2.2 _ ((dictGet_iff hv.inv.1 _ _).1 hu))).1 hr
        exact ⟨u', ⟨u, hu, h1⟩, h2⟩
      · rintro ⟨u', ⟨u, hu, h1⟩, h2⟩
        exact ⟨_, ⟨u, hu, rfl⟩, (ih (hv.inv.2.2 _ ((dictGet_iff hv.inv.1 _ _).1 hu))).2 ⟨u', h1, h2⟩⟩

theorem interpolationContext_plain {prev : Params} (h : prev.Tree) : (PVal.dict (interpolationContext W useEnv prev)).Plain := by
  have := (tree_dictify h).1
  unfold interpolationContext
  split
  · exact plain_addEnv _ this
  · exact this

theorem context_of {prev c : Params} (hW : W.OK) (h : prev.Tree) (hc : fromMapping (interpolationContext W useEnv prev) = .ok c) :
    Context W useEnv prev c := by
  have hp := interpolationContext_plain (W := W) (useEnv := useEnv) h
  have hcan := canon_of_fromMapping hp hc
  have hd : (PVal.dict (interpolationContext W useEnv prev)).DotFree := by
    by_contra hd; rw [fromMapping_error hp hd] at hc; simp at hc
  obtain ⟨c', e1, -, -, e2⟩ := fromMapping_ok (pfx := []) hp hd
  rw [hc, Except.ok.injEq] at e1
  subst e1
  have hdict : dictify c.toVal = .dict (interpolationContext W useEnv prev) := by
    rw [← e2]; rfl
  have hprev : dictify prev.toVal = .dict prev.asNestedDicts := rfl
  have hroot : ∀ d, DictReaches (.dict prev.asNestedDicts) [] d ↔ d = .dict prev.asNestedDicts := fun d => dictReaches_nil
  have hkey : ∀ k, (∃ u, prev.toVal.Reaches [k] u) ↔ ∃ v, dictGet prev.asNestedDicts k = some v := by
    intro k
    have hn : (prev.asNestedDicts.map (·.1)).Nodup := (tree_dictify h).1.inv.1
    constructor
    · rintro ⟨u, hu⟩
      have := (dictReaches_dictify' h [k] (dictify u)).2 ⟨u, hu, rfl⟩
      rw [hprev, dictReaches_cons hn] at this
      obtain ⟨w, hw, -⟩ := this
      exact ⟨w, hw⟩
    · rintro ⟨v, hv⟩
      have : DictReaches (dictify prev.toVal) [k] v := by
        rw [hprev, dictReaches_cons hn]; exact ⟨v, hv, .here _⟩
      obtain ⟨u, hu, -⟩ := (dictReaches_dictify' h _ _).1 this
      exact ⟨u, hu⟩
  -- what is reached in the context
  have hreach : ∀ path d, DictReaches (.dict (interpolationContext W useEnv prev)) path d ↔
      (path = [] ∧ d = .dict (interpolationContext W useEnv prev)) ∨ (path ≠ [] ∧ DictReaches (.dict prev.asNestedDicts) path d) ∨
      (useEnv = true ∧ ∃ k s, path = [k] ∧ d = .str s ∧ (k, s) ∈ W.env ∧ ¬ ∃ u, prev.toVal.Reaches [k] u) := by
    intro path d
    cases path with
    | nil => rw [dictReaches_nil]; simp
    | cons k ks =>
      have hn : (prev.asNestedDicts.map (·.1)).Nodup := (tree_dictify h).1.inv.1
      rw [dictReaches_cons hp.inv.1, dictReaches_cons hn]
      simp only [reduceCtorEq, false_and, ne_eq, not_false_eq_true, true_and, false_or, List.cons.injEq]
      unfold interpolationContext
      cases useEnv with
      | false => simp
      | true =>
        simp only [if_true, true_and, dictGet_addEnv]
        cases hg : dictGet prev.asNestedDicts k with
        | some v =>
          simp only [Option.some_or]
          constructor
          · rintro ⟨u, hu, hr⟩; exact .inl ⟨u, hu, hr⟩
          · rintro (⟨u, hu, hr⟩ | ⟨k', s, ⟨rfl, -⟩, -, -, hno⟩)
            · exact ⟨u, hu, hr⟩
            · exact absurd ((hkey k).2 ⟨v, hg⟩) hno
        | none =>
          simp only [Option.none_or, reduceCtorEq, false_and, exists_false, false_or, Option.map_eq_some_iff]
          constructor
          · rintro ⟨u, ⟨s, hs, rfl⟩, hr⟩
            rw [dictReaches_leaf ⟨rfl, rfl⟩] at hr
            refine ⟨k, s, ⟨rfl, hr.1⟩, hr.2, (env_lookup hW.env k s).1 hs, fun hex => ?_⟩
            obtain ⟨v, hv⟩ := (hkey k).1 hex
            rw [hg] at hv; simp at hv
          · rintro ⟨k', s, ⟨rfl, rfl⟩, rfl, hm, -⟩
            exact ⟨.str s, ⟨s, (env_lookup hW.env k s).2 hm, rfl⟩, .here _⟩
  refine ⟨hcan.tree, hcan.inv.1, fun path v hv => ?_, fun path => ?_⟩
  · rw [← dictReaches_dictify hcan.tree path v hv, hdict, hreach, ← dictReaches_dictify h path v hv, hprev]
    constructor
    · rintro (⟨-, rfl⟩ | ⟨-, h'⟩ | h')
      · exact absurd rfl (leaf_not_dict hv _)
      · exact .inl h'
      · exact .inr h'
    · rintro (h' | h')
      · refine .inr (.inl ⟨?_, h'⟩)
        rintro rfl
        rw [hroot] at h'
        exact absurd h' (leaf_not_dict hv _)
      · exact .inr (.inr h')
  · have hsp : ∀ {p : Params}, p.Tree → ((∃ u, u.isParams = true ∧ p.toVal.Reaches path u) ↔ ∃ es, DictReaches (dictify p.toVal) path (.dict es)) := by
      intro p hp
      constructor
      · rintro ⟨u, hu, hr⟩
        obtain ⟨a, es, rfl⟩ := (isParams_iff u).1 hu
        exact ⟨_, (dictReaches_dictify' hp path _).2 ⟨_, hr, rfl⟩⟩
      · rintro ⟨es, hr⟩
        obtain ⟨u, h1, h2⟩ := (dictReaches_dictify' hp path _).1 hr
        obtain ⟨a, es', rfl, -⟩ := dictify_params_inv (PVal.Tree.reaches hp h1) h2.symm
        exact ⟨_, rfl, h1⟩
    rw [hsp hcan.tree, hsp h, hdict, hprev]
    constructor
    · rintro ⟨es, hr⟩
      rcases (hreach _ _).1 hr with ⟨rfl, -⟩ | ⟨-, h'⟩ | ⟨-, k, s, -, h', -⟩
      · exact ⟨_, .here _⟩
      · exact ⟨es, h'⟩
      · simp at h'
    · rintro ⟨es, hr⟩
      cases path with
      | nil => exact ⟨_, .here _⟩
      | cons k ks => exact ⟨es, (hreach _ _).2 (.inr (.inl ⟨by simp, hr⟩))⟩

/-! ## Files one after the other -/

variable (W useEnv)
/-- One file, taken after `p`. -/
def step (p f : Params) : Res Params := do
  let c ← fromMapping (interpolationContext W useEnv p)
  let q ← Interp.interpolate W.word f c
  p.unify q
variable {W useEnv}

theorem step_ok {p f r : Params} (h : step W useEnv p f = .ok r) : ∃ c q, fromMapping (interpolationContext W useEnv p) = .ok c ∧
    Interp.interpolate W.word f c = .ok q ∧ p.unify q = .ok r := by
  simp only [step, bind, Except.bind] at h
  split at h
  · simp at h
  · rename_i c hc
    split at h
    · simp at h
    · rename_i q hq
      exact ⟨c, q, hc, hq, h⟩

theorem layer_tree {p f c q : Params} (hp : p.Tree) (hf : f.Tree) (hc : fromMapping (interpolationContext W useEnv p) = .ok c)
    (hq : Interp.interpolate W.word f c = .ok q) : q.Tree :=
  (Interp.interpolate_tree hf (canon_of_fromMapping (interpolationContext_plain hp) hc).tree hq).1

theorem step_tree {p f r : Params} (hp : p.Tree) (hf : f.Tree) (h : step W useEnv p f = .ok r) : r.Tree := by
  obtain ⟨c, q, h1, h2, h3⟩ := step_ok h
  exact (C45_values p q r hp (layer_tree hp hf h1 h2) [] h3).1

theorem interpolationContext_same {p p' : Params} (h : Same p' p) : interpolationContext W useEnv p' = interpolationContext W useEnv p := by
  unfold interpolationContext; rw [h]

theorem step_congr {p p' f r : Params} (hp : p.Tree) (hp' : p'.Tree) (hf : f.Tree) (hs : Same p' p) (h : step W useEnv p f = .ok r) :
    ∃ r', step W useEnv p' f = .ok r' ∧ Same r' r := by
  obtain ⟨c, q, h1, h2, h3⟩ := step_ok h
  have hq := layer_tree hp hf h1 h2
  obtain ⟨r', h4, h5⟩ := unify_congr [] hp hp' hq hq hs (Same.refl q) h3
  refine ⟨r', ?_, h5⟩
  simp only [step, interpolationContext_same hs, h1, h2, h4, bind, Except.bind]

theorem fold_tree {fs : List Params} (hf : ∀ f ∈ fs, f.Tree) : ∀ {p r : Params}, p.Tree → fs.foldlM (step W useEnv) p = .ok r → r.Tree := by
  induction fs with
  | nil => intro p r hp h; simp only [List.foldlM_nil, pure, Except.pure, Except.ok.injEq] at h; exact h ▸ hp
  | cons f fs ih =>
    intro p r hp h
    simp only [List.foldlM_cons, bind, Except.bind] at h
    split at h
    · simp at h
    · rename_i p1 h1
      exact ih (fun g hg => hf g (by simp [hg])) (step_tree hp (hf f (by simp)) h1) h

theorem fold_congr {fs : List Params} (hf : ∀ f ∈ fs, f.Tree) : ∀ {p p' r : Params}, p.Tree → p'.Tree → Same p' p →
    fs.foldlM (step W useEnv) p = .ok r → ∃ r', fs.foldlM (step W useEnv) p' = .ok r' ∧ Same r' r := by
  induction fs with
  | nil =>
    intro p p' r _ _ hs h
    simp only [List.foldlM_nil, pure, Except.pure, Except.ok.injEq] at h
    exact ⟨p', rfl, h ▸ hs⟩
  | cons f fs ih =>
    intro p p' r hp hp' hs h
    simp only [List.foldlM_cons, bind, Except.bind] at h
    split at h
    · simp at h
    · rename_i p1 h1
      have hft := hf f (by simp)
      obtain ⟨p1', h2, h3⟩ := step_congr hp hp' hft hs h1
      obtain ⟨r', h4, h5⟩ := ih (fun g hg => hf g (by simp [hg])) (step_tree hp hft h1) (step_tree hp' hft h2) h3 h
      exact ⟨r', by simp only [List.foldlM_cons, h2, bind, Except.bind]; exact h4, h5⟩

theorem fold_absorbed {fs : List Params} (hf : ∀ f ∈ fs, f.Tree) : ∀ {p x r : Params}, p.Tree → x.Tree → Absorbed p x →
    fs.foldlM (step W useEnv) x = .ok r → Absorbed p r := by
  induction fs with
  | nil => intro p x r _ _ ha h; simp only [List.foldlM_nil, pure, Except.pure, Except.ok.injEq] at h; exact h ▸ ha
  | cons f fs ih =>
    intro p x r hp hx ha h
    simp only [List.foldlM_cons, bind, Except.bind] at h
    split at h
    · simp at h
    · rename_i x1 h1
      have hft := hf f (by simp)
      obtain ⟨c, q, e1, e2, e3⟩ := step_ok h1
      exact ih (fun g hg => hf g (by simp [hg])) hp (step_tree hx hft h1) (absorbed_unify hp hx (layer_tree hx hft e1 e2) ha e3) h

theorem foldlM_append_ok {α β : Type} (f : β → α → Res β) (xs ys : List α) (a c : β) :
    (xs ++ ys).foldlM f a = .ok c ↔ ∃ b, xs.foldlM f a = .ok b ∧ ys.foldlM f b = .ok c := by
  rw [List.foldlM_append]
  simp only [bind, Except.bind]
  cases xs.foldlM f a <;> simp

theorem foldlM_one {α β : Type} (f : β → α → Res β) (x : α) (a : β) : [x].foldlM f a = f a x := by
  simp only [List.foldlM_cons, List.foldlM_nil, bind, Except.bind, pure, Except.pure]
  cases f a x <;> rfl

/-! ## The loader in those terms -/

theorem listing_trees (hW : W.OK) {x : Source} {fs : List Params} (h : Listing W x fs) : ∀ f ∈ fs, f.Loaded := by
  refine Listing.rec (motive_1 := fun _ fs _ => ∀ f ∈ fs, f.Loaded) (motive_2 := fun _ _ fs _ => ∀ f ∈ fs, f.Loaded) ?_ ?_ ?_ h
  · intro x own items fs f hr _ hm ih g hg
    rcases List.mem_append.1 hg with hg | hg
    · exact ih g hg
    · simp only [List.mem_singleton] at hg
      subst hg
      exact ⟨_, reads_plain hW hr, hm⟩
  · simp
  · intro x y item items fs gs _ _ _ ih1 ih2 g hg
    rcases List.mem_append.1 hg with hg | hg
    · exact ih1 g hg
    · exact ih2 g hg

theorem listingAll_trees (hW : W.OK) {x : Source} {items : List PVal} {fs : List Params} (h : ListingAll W x items fs) :
    ∀ f ∈ fs, f.Loaded := by
  induction items generalizing fs with
  | nil => cases h; simp
  | cons i items ih =>
    cases h with
    | cons h1 h2 h3 =>
      intro g hg
      rcases List.mem_append.1 hg with hg | hg
      · exact listing_trees hW h2 g hg
      · exact ih h3 g hg

variable (W useEnv)
/-- The loop body over the included files. -/
def includeStep (depth : Nat) (dir : Option Str) (prev : Params) (file : PVal) : Res Params := do
  let path ← locate W dir file
  let text ← W.read path
  let inc ← innerLoad W useEnv depth text (some (W.parent path)) prev []
  prev.unify inc
variable {W useEnv}

theorem innerLoad_ok (hW : W.OK) (depth : Nat) (content : Str) (dir : Option Str) (ctx : Params) (pfx : List Str) (r : Params) :
    innerLoad W useEnv (depth + 1) content dir ctx pfx = .ok r ↔
    ∃ own items prev f c q, Reads W ⟨dir, content⟩ own items ∧ items.foldlM (includeStep W useEnv depth dir) ctx = .ok prev ∧
      fromMapping own = .ok f ∧ fromMapping (interpolationContext W useEnv prev) = .ok c ∧
      Interp.interpolate W.word f c = .ok q ∧ prev.unify q pfx = .ok r := by
  have hbody : innerLoad W useEnv (depth + 1) content dir ctx pfx = asIOError (do
      let raw ← W.parse content
      let es ← validate raw
      let items ← includedItems (toEntries es)
      let prev ← items.foldlM (includeStep W useEnv depth dir) ctx
      let f ← fromMapping ((toEntries es).filter fun e => decide (e.1 ≠ includesKey))
      let c ← fromMapping (interpolationContext W useEnv prev)
      let q ← Interp.interpolate W.word f c
      prev.unify q pfx) := rfl
  have has : ∀ x : Res Params, asIOError x = .ok r ↔ x = .ok r := by intro x; cases x <;> simp [asIOError]
  rw [hbody, has]
  simp only [bind, Except.bind]
  have hitems : ∀ (es : List (YKey × Yaml)) (items : List PVal), W.parse content = .ok (.map es) →
      (includedItems (toEntries es) = .ok items ↔
      ((items = [] ∧ "_includes".toList ∉ (toEntries es).map (·.1)) ∨
        ∃ v, ("_includes".toList, v) ∈ toEntries es ∧ iterate v = .ok items)) := by
    intro es items hpa
    have hn : ((toEntries es).map (·.1)).Nodup := by
      have := toVal_plain (hW.parse _ _ hpa)
      rw [toVal] at this
      exact this.inv.1
    unfold includedItems includesKey
    cases hg : dictGet (toEntries es) "_includes".toList with
    | none =>
      have hno := (dictGet_none_iff _ _).1 hg
      simp only [Except.ok.injEq]
      constructor
      · rintro rfl; exact .inl ⟨rfl, hno⟩
      · rintro (⟨rfl, -⟩ | ⟨v, hv, -⟩)
        · rfl
        · exact absurd (List.mem_map.2 ⟨_, hv, rfl⟩) hno
    | some v =>
      have hmem := (dictGet_iff hn _ _).1 hg
      simp only
      constructor
      · intro h; exact .inr ⟨v, hmem, h⟩
      · rintro (⟨-, h⟩ | ⟨v', hv', h⟩)
        · exact absurd (List.mem_map.2 ⟨_, hmem, rfl⟩) h
        · rw [← dictGet_iff hn, hg, Option.some.injEq] at hv'
          subst hv'; exact h
  constructor
  · intro h
    split at h
    · simp at h
    · rename_i raw hraw
      split at h
      · simp at h
      · rename_i es hes
        obtain ⟨rfl, hsk⟩ := (validate_iff raw es).1 hes
        split at h
        · simp at h
        · rename_i items hit
          split at h
          · simp at h
          · rename_i prev hprev
            split at h
            · simp at h
            · rename_i f hf
              split at h
              · simp at h
              · rename_i c hc
                split at h
                · simp at h
                · rename_i q hq
                  exact ⟨_, items, prev, f, c, q, (reads_iff ..).2 ⟨es, hraw, hsk, rfl, (hitems es items hraw).1 hit⟩, hprev, hf, hc, hq, h⟩
  · rintro ⟨own, items, prev, f, c, q, hread, hprev, hf, hc, hq, h⟩
    obtain ⟨es, hraw, hsk, rfl, hit⟩ := (reads_iff ..).1 hread
    have h1 : W.parse content = .ok (.map es) := hraw
    have h2 : validate (.map es) = .ok es := (validate_iff _ _).2 ⟨rfl, hsk⟩
    have h3 := (hitems es items hraw).2 hit
    have hf' : fromMapping ((toEntries es).filter fun e => decide (e.1 ≠ includesKey)) = .ok f := hf
    simp only [h1, h2, h3, hprev, hf', hc, hq, h]

theorem includeStep_ok (depth : Nat) (x : Source) (prev : Params) (item : PVal) (r : Params) :
    includeStep W useEnv depth x.dir prev item = .ok r ↔
    ∃ y inc, Names W x item y ∧ innerLoad W useEnv depth y.content y.dir prev [] = .ok inc ∧ prev.unify inc = .ok r := by
  simp only [names_iff]
  unfold includeStep
  simp only [bind, Except.bind]
  constructor
  · intro h
    split at h
    · simp at h
    · rename_i path hp
      split at h
      · simp at h
      · rename_i text ht
        split at h
        · simp at h
        · rename_i inc hi
          exact ⟨⟨some (W.parent path), text⟩, inc, ⟨path, hp, ht, rfl⟩, hi, h⟩
  · rintro ⟨⟨d, t⟩, inc, ⟨path, hp, ht, hd⟩, hi, h⟩
    simp only at ht hd
    subst hd
    simp only [hp, ht, hi, h]

/-- A load that succeeds has read the files of the listing, one after the other. -/
theorem load_sound (hW : W.OK) (depth : Nat) : ∀ (x : Source) (ctx : Params) (pfx : List Str) (r : Params), ctx.Tree →
    innerLoad W useEnv depth x.content x.dir ctx pfx = .ok r →
    r.Tree ∧ r.pfx = pfx ∧ ∃ fs r', Listing W x fs ∧ fs.foldlM (step W useEnv) ctx = .ok r' ∧ Same r r' := by
  induction depth with
  | zero => intro x ctx pfx r _ h; simp [innerLoad] at h
  | succ depth ih =>
    intro x ctx pfx r hctx h
    obtain ⟨own, items, prev, f, c, q, h1, h2, h3, h4, h5, h6⟩ := (innerLoad_ok hW ..).1 h
    -- the included files
    have hinc : ∀ (items : List PVal) (p p' prev : Params), p.Tree → p'.Tree → Same p p' →
        items.foldlM (includeStep W useEnv depth x.dir) p = .ok prev →
        prev.Tree ∧ ∃ fs prev', ListingAll W x items fs ∧ fs.foldlM (step W useEnv) p' = .ok prev' ∧ Same prev prev' := by
      intro items
      induction items with
      | nil =>
        intro p p' prev hp hp' hs hh
        simp only [List.foldlM_nil, pure, Except.pure, Except.ok.injEq] at hh
        subst hh
        exact ⟨hp, [], p', .nil, rfl, hs⟩
      | cons item items ihi =>
        intro p p' prev hp hp' hs hh
        simp only [List.foldlM_cons, bind, Except.bind] at hh
        split at hh
        · simp at hh
        · rename_i p1 hp1
          obtain ⟨y, inc, hy, hl, hu⟩ := (includeStep_ok depth x p item p1).1 hp1
          obtain ⟨hit, -, fs, inc', hlist, hfold, hsame⟩ := ih y p [] inc hp hl
          have hft : ∀ f ∈ fs, f.Tree := fun f hf => loaded_tree (listing_trees hW hlist f hf)
          have hinct := fold_tree hft hp hfold
          -- unifying again with what is already there changes nothing
          obtain ⟨z, hz, hzs⟩ := fold_absorbed hft hp hp (absorbed_self hp) hfold
          obtain ⟨z', hz', hzs'⟩ := unify_congr (pfx := []) [] hp hp hinct hit (Same.refl p) hsame hz
          rw [hu, Except.ok.injEq] at hz'
          subst hz'
          have hp1t : p1.Tree := (C45_values p inc p1 hp hit [] hu).1
          obtain ⟨w, hw, hws⟩ := fold_congr hft hp hp' hs.symm hfold
          have hwt := fold_tree hft hp' hw
          obtain ⟨hpt, gs, prev', hl2, hf2, hs2⟩ := ihi p1 w prev hp1t hwt (hzs'.trans (hzs.trans hws.symm)) hh
          exact ⟨hpt, fs ++ gs, prev', .cons hy hlist hl2, (foldlM_append_ok ..).2 ⟨w, hw, hf2⟩, hs2⟩
    obtain ⟨hpt, fs, prev', hl, hf, hs⟩ := hinc items ctx ctx prev hctx hctx (Same.refl _) h2
    have hfl : f.Loaded := ⟨own, reads_plain hW h1, h3⟩
    have hft := loaded_tree hfl
    have hqt := layer_tree hpt hft h4 h5
    have hft' : ∀ f ∈ fs, f.Tree := fun f hf => loaded_tree (listingAll_trees hW hl f hf)
    have hpt' := fold_tree hft' hctx hf
    obtain ⟨v1, v2, -⟩ := C45_values prev q r hpt hqt pfx h6
    obtain ⟨r', e1, e2⟩ := unify_congr (pfx := pfx) [] hpt hpt' hqt hqt hs.symm (Same.refl q) h6
    refine ⟨v1, v2, fs ++ [f], r', .file h1 hl h3, (foldlM_append_ok ..).2 ⟨prev', hf, ?_⟩, e2.symm⟩
    rw [foldlM_one]
    simp only [step, interpolationContext_same hs.symm, h4, h5, e1, bind, Except.bind]

/-- A deeper recursion limit changes nothing in a load that succeeds. -/
theorem innerLoad_mono (hW : W.OK) (depth : Nat) : ∀ (content : Str) (dir : Option Str) (ctx : Params) (pfx : List Str) (r : Params),
    innerLoad W useEnv depth content dir ctx pfx = .ok r → innerLoad W useEnv (depth + 1) content dir ctx pfx = .ok r := by
  induction depth with
  | zero => intro content dir ctx pfx r h; simp [innerLoad] at h
  | succ depth ih =>
    intro content dir ctx pfx r h
    obtain ⟨own, items, prev, f, c, q, h1, h2, h3⟩ := (innerLoad_ok hW ..).1 h
    refine (innerLoad_ok hW ..).2 ⟨own, items, prev, f, c, q, h1, ?_, h3⟩
    clear h3 h1 h
    induction items generalizing ctx with
    | nil => exact h2
    | cons item items ihi =>
      simp only [List.foldlM_cons, bind, Except.bind] at h2 ⊢
      split at h2
      · simp at h2
      · rename_i p1 hp1
        obtain ⟨y, inc, hy, hl, hu⟩ := (includeStep_ok depth ⟨dir, content⟩ ctx item p1).1 hp1
        have := (includeStep_ok (depth + 1) ⟨dir, content⟩ ctx item p1).2 ⟨y, inc, hy, ih _ _ _ _ _ hl, hu⟩
        simp only at this
        rw [this]
        exact ihi p1 h2

theorem innerLoad_mono' (hW : W.OK) {d d' : Nat} (hd : d ≤ d') {content : Str} {dir : Option Str} {ctx : Params} {pfx : List Str}
    {r : Params} (h : innerLoad W useEnv d content dir ctx pfx = .ok r) : innerLoad W useEnv d' content dir ctx pfx = .ok r := by
  induction hd with
  | refl => exact h
  | step _ ih => exact innerLoad_mono hW _ _ _ _ _ _ ih

theorem include_mono (hW : W.OK) {d d' : Nat} (hd : d ≤ d') {dir : Option Str} {items : List PVal} : ∀ {ctx r : Params},
    items.foldlM (includeStep W useEnv d dir) ctx = .ok r → items.foldlM (includeStep W useEnv d' dir) ctx = .ok r := by
  induction items with
  | nil => intro ctx r h; exact h
  | cons item items ihi =>
    intro ctx r h
    simp only [List.foldlM_cons, bind, Except.bind] at h ⊢
    split at h
    · simp at h
    · rename_i p1 hp1
      obtain ⟨y, inc, hy, hl, hu⟩ := (includeStep_ok d ⟨dir, []⟩ ctx item p1).1 hp1
      have := (includeStep_ok d' ⟨dir, []⟩ ctx item p1).2 ⟨y, inc, hy, innerLoad_mono' hW hd hl, hu⟩
      simp only at this
      rw [this]
      exact ihi h

/-- If the files of the listing can be taken one after the other, the load succeeds, given enough recursion depth. -/
theorem load_complete (hW : W.OK) {x : Source} {fs : List Params} (h : Listing W x fs) : ∀ (ctx r' : Params) (pfx : List Str), ctx.Tree →
    fs.foldlM (step W useEnv) ctx = .ok r' → ∃ depth r, innerLoad W useEnv depth x.content x.dir ctx pfx = .ok r ∧ Same r r' := by
  refine Listing.rec (W := W)
    (motive_1 := fun x fs _ => ∀ (ctx r' : Params) (pfx : List Str), ctx.Tree → fs.foldlM (step W useEnv) ctx = .ok r' →
      ∃ depth r, innerLoad W useEnv depth x.content x.dir ctx pfx = .ok r ∧ Same r r')
    (motive_2 := fun x items fs _ => ∀ (ctx r' : Params), ctx.Tree → fs.foldlM (step W useEnv) ctx = .ok r' →
      ∃ depth r, items.foldlM (includeStep W useEnv depth x.dir) ctx = .ok r ∧ r.Tree ∧ Same r r') ?_ ?_ ?_ h
  · intro x own items fs f hr hl hm ih ctx r' pfx hctx hfold
    obtain ⟨p', hp', hstep⟩ := (foldlM_append_ok ..).1 hfold
    rw [foldlM_one] at hstep
    obtain ⟨depth, p, h1, h2, h3⟩ := ih ctx p' hctx hp'
    obtain ⟨c, q, e1, e2, e3⟩ := step_ok hstep
    have hft : f.Tree := loaded_tree ⟨own, reads_plain hW hr, hm⟩
    have hpt' : p'.Tree := fold_tree (fun f hf => loaded_tree (listingAll_trees hW hl f hf)) hctx hp'
    have hqt := layer_tree hpt' hft e1 e2
    obtain ⟨r, e4, e5⟩ := unify_congr (pfx := []) pfx hpt' h2 hqt hqt h3 (Same.refl q) e3
    refine ⟨depth + 1, r, (innerLoad_ok hW ..).2 ⟨own, items, p, f, c, q, hr, h1, hm, ?_, e2, e4⟩, e5⟩
    rw [interpolationContext_same h3]; exact e1
  · intro x ctx r' hctx hfold
    simp only [List.foldlM_nil, pure, Except.pure, Except.ok.injEq] at hfold
    subst hfold
    exact ⟨0, ctx, rfl, hctx, Same.refl _⟩
  · intro x y item items fs gs hn hl hl' ih1 ih2 ctx r' hctx hfold
    obtain ⟨p', hp', hrest⟩ := (foldlM_append_ok ..).1 hfold
    have hft : ∀ f ∈ fs, f.Tree := fun f hf => loaded_tree (listing_trees hW hl f hf)
    have hgt : ∀ f ∈ gs, f.Tree := fun f hf => loaded_tree (listingAll_trees hW hl' f hf)
    have hpt' := fold_tree hft hctx hp'
    obtain ⟨d1, inc, g1, g2⟩ := ih1 ctx p' [] hctx hp'
    have hit : inc.Tree := (load_sound hW d1 y ctx [] inc hctx g1).1
    obtain ⟨z, hz, hzs⟩ := fold_absorbed hft hctx hctx (absorbed_self hctx) hp'
    obtain ⟨p1, hu, hs1⟩ := unify_congr (pfx := []) [] hctx hctx hpt' hit (Same.refl ctx) g2 hz
    have hp1t : p1.Tree := (C45_values ctx inc p1 hctx hit [] hu).1
    obtain ⟨r1, k1, k2⟩ := fold_congr hgt hpt' hp1t (hs1.trans hzs) hrest
    obtain ⟨d2, r, m1, m2, m3⟩ := ih2 p1 r1 hp1t k1
    refine ⟨max d1 d2, r, ?_, m2, m3.trans k2⟩
    have hstep := (includeStep_ok (max d1 d2) x ctx item p1).2 ⟨y, inc, hn, innerLoad_mono' hW (le_max_left ..) g1, hu⟩
    simp only [List.foldlM_cons, bind, Except.bind, hstep]
    exact include_mono hW (le_max_right ..) m1

end Loader
end Vista
