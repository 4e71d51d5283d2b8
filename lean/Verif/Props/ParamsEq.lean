import Verif.Proofs.ParamsEq
import Verif.Proofs.ParamsText
import Verif.Props.ParamsUnify

/-!
# Property C100: `==` and `hash` of `Parameters`
-/
set_option linter.unusedSectionVars false
set_option linter.unusedSimpArgs false
namespace Vista
namespace ParamsEq
open Params
open PVal (Leaf Reaches)

/-! ## Lemmas -/

theorem same_combine {pfx : List Str} {k : Str} {o o' n n' : Option PVal} (ho : OptSame o o') (hn : OptSame n n')
    (hu : ∀ a a' b b', o = some a → o' = some a' → n = some b → n' = some b' → ResSame (unifyVal (pfx ++ [k]) a b) (unifyVal (pfx ++ [k]) a' b')) :
    (∀ r, combine pfx k o n = .ok r → ∃ r', combine pfx k o' n' = .ok r' ∧ OptSame r r') ∧
    (∀ x, combine pfx k o n = .error x → combine pfx k o' n' = .error x) := by
  cases o with
  | none =>
    cases o' with
    | some _ => exact ho.elim
    | none => exact ⟨fun r h => ⟨n', rfl, by cases h; exact hn⟩, fun x h => (by cases h)⟩
  | some a =>
    cases o' with
    | none => exact ho.elim
    | some a' =>
      cases n with
      | none =>
        cases n' with
        | some _ => exact hn.elim
        | none => exact ⟨fun r h => ⟨some a', rfl, by cases h; exact ho⟩, fun x h => (by cases h)⟩
      | some b =>
        cases n' with
        | none => exact hn.elim
        | some b' =>
          have hnone : b.isNone = b'.isNone := Same.isNone hn
          have := hu a a' b b' rfl rfl rfl rfl
          simp only [combine, ← hnone]
          cases b.isNone with
          | true =>
            simp only [if_true]
            exact ⟨fun r h => ⟨some a', rfl, by cases h; exact ho⟩, fun x h => (by cases h)⟩
          | false =>
            simp only [Bool.false_eq_true, if_false]
            cases h1 : unifyVal (pfx ++ [k]) a b <;> cases h2 : unifyVal (pfx ++ [k]) a' b' <;> rw [h1, h2] at this
            · cases this; exact ⟨fun r h => (by cases h), fun x h => h⟩
            · exact this.elim
            · exact this.elim
            · exact ⟨fun r h => ⟨_, rfl, by cases h; exact this⟩, fun x h => (by cases h)⟩

theorem same_unifyVal (o : PVal) : ∀ o' n n' pfx, o.Tree → o'.Tree → n.Tree → n'.Tree → Same o o' → Same n n' →
    ResSame (unifyVal pfx o n) (unifyVal pfx o' n') := by
  induction o using PVal.ind with
  | leaf o hl =>
    intro o' n n' pfx _ _ _ _ ho hn
    have h1 : o'.isParams = false := by rw [← ho.isParams]; exact hl.1
    have h2 := hn.isParams
    cases hnp : n.isParams with
    | true =>
      rw [unifyVal_mixed (by rw [hl.1, hnp]; simp), unifyVal_mixed (by rw [h1, ← h2, hnp]; simp)]
      exact rfl
    | false =>
      rw [unifyVal_leaves hl.1 hnp, unifyVal_leaves h1 (by rw [← h2]; exact hnp)]
      exact hn
  | dict es _ => intro o' n n' pfx h; exact absurd h.not_mapping (by simp [PVal.isMapping])
  | params a es ih =>
    intro o' n n' pfx hto hto' htn htn' ho hn
    obtain ⟨es', rfl, -, -⟩ := ho.params_left
    have h2 := hn.isParams
    cases hnp : n.isParams with
    | false =>
      rw [unifyVal_mixed (by rw [hnp]; simp [PVal.isParams]), unifyVal_mixed (by rw [← h2, hnp]; simp [PVal.isParams])]
      exact rfl
    | true =>
      cases n with
      | params b fs =>
        obtain ⟨fs', rfl, -, -⟩ := hn.params_left
        rw [same_params_iff hto.inv.1 hto'.inv.1] at ho
        rw [same_params_iff htn.inv.1 htn'.inv.1] at hn
        rw [unifyVal_params, unifyVal_params]
        obtain ⟨s1, s2⟩ := unify_spec pfx ⟨a, es⟩ ⟨b, fs⟩ hto htn
        obtain ⟨s1', s2'⟩ := unify_spec pfx ⟨a, es'⟩ ⟨b, fs'⟩ hto' htn'
        simp only at s1 s2 s1' s2'
        have hc : ∀ k, (∀ r, combine pfx k (dictGet es k) (dictGet fs k) = .ok r →
              ∃ r', combine pfx k (dictGet es' k) (dictGet fs' k) = .ok r' ∧ OptSame r r') ∧
            (∀ x, combine pfx k (dictGet es k) (dictGet fs k) = .error x → combine pfx k (dictGet es' k) (dictGet fs' k) = .error x) := by
          intro k
          refine same_combine (ho.2 k) (hn.2 k) fun u u' v v' hu hu' hv hv' => ?_
          have hm := (dictGet_iff hto.inv.1 _ _).1 hu
          have hm' := (dictGet_iff hto'.inv.1 _ _).1 hu'
          have hvm := (dictGet_iff htn.inv.1 _ _).1 hv
          have hvm' := (dictGet_iff htn'.inv.1 _ _).1 hv'
          have h3 := ho.2 k
          have h4 := hn.2 k
          rw [hu, hu'] at h3
          rw [hv, hv'] at h4
          exact ih _ hm u' v v' _ (hto.inv.2.2 _ hm) (hto'.inv.2.2 _ hm') (htn.inv.2.2 _ hvm) (htn'.inv.2.2 _ hvm') h3 h4
        by_cases hbad : ∃ k x, combine pfx k (dictGet es k) (dictGet fs k) = .error x
        · obtain ⟨k, x, hx⟩ := hbad
          rw [s1 ⟨k, x, hx⟩, s1' ⟨k, x, (hc k).2 x hx⟩]
          exact rfl
        · obtain ⟨r, e1, e2, e3, -⟩ := s2 hbad
          have hbad' : ¬ ∃ k x, combine pfx k (dictGet es' k) (dictGet fs' k) = .error x := by
            rintro ⟨k, x, hx⟩
            obtain ⟨r', hr', -⟩ := (hc k).1 _ (e3 k)
            rw [hr'] at hx
            cases hx
          obtain ⟨r', e1', e2', e3', -⟩ := s2' hbad'
          rw [e1, e1']
          show Same (.params pfx r) (.params pfx r')
          rw [same_params_iff e2.inv.1 e2'.inv.1]
          refine ⟨rfl, fun k => ?_⟩
          obtain ⟨x, hx, hs⟩ := (hc k).1 _ (e3 k)
          rw [e3' k, Except.ok.injEq] at hx
          rw [hx]
          exact hs
      | _ => simp [PVal.isParams] at hnp

theorem Proper.reaches {v w : PVal} {path : List Str} (hr : v.Reaches path w) : Proper v → Proper w := by
  induction hr with
  | here => exact id
  | step hm _ ih => exact fun h => ih (h.params_inv.2 _ hm)

theorem proper_of_leaves {v : PVal} (ht : v.Tree) (h : ∀ path w, Leaf w → v.Reaches path w → Proper w) : Proper v := by
  induction ht with
  | leaf hl => exact h [] _ hl (.here _)
  | @params pfx es hn _ _ ih => exact .params hn fun e he => ih e he fun path w hw hr => h (e.1 :: path) w hw (.step he hr)

theorem proper_of_dictify (v : PVal) (ht : v.Tree) (h : Proper (dictify v)) : Proper v := by
  induction ht with
  | leaf hl => rwa [dictify_leaf hl] at h
  | @params pfx es hn _ _ ih =>
    rw [dictify_params] at h
    exact .params hn fun e he => ih e he (h.dict_inv.2 _ (mem_dictifyEntries.2 ⟨e.2, he, rfl⟩))

theorem proper_dictify {v : PVal} (ht : v.Tree) (h : Proper v) : Proper (dictify v) := by
  induction ht with
  | leaf hl => rwa [dictify_leaf hl]
  | @params pfx es hn _ _ ih =>
    rw [dictify_params]
    refine .dict (by rw [dictifyEntries_keys]; exact hn) fun e he => ?_
    obtain ⟨u, hu, hue⟩ := mem_dictifyEntries.1 (show (e.1, e.2) ∈ _ from he)
    rw [← hue]
    exact ih _ hu (h.params_inv.2 _ hu)

/-! ## C100 -/

/-- Two `Parameters` objects are equal exactly if they have the same prefix and are the same at every depth. -/
theorem C100_eq (p q : Params) (hp : Proper p.toVal) (hq : Proper q.toVal) :
    eq p q = true ↔ p.pfx = q.pfx ∧ (∀ k, k ∈ p.data.map (·.1) ↔ k ∈ q.data.map (·.1)) ∧ ∀ k v w, (k, v) ∈ p.data → (k, w) ∈ q.data → Same v w := by
  unfold eq
  rw [pyEq_iff _ _ hp hq]
  exact same_params

/-- `==` is reflexive, symmetric and transitive. -/
theorem C100_equivalence : (∀ p, Proper p.toVal → eq p p = true) ∧
    (∀ p q, Proper p.toVal → Proper q.toVal → eq p q = true → eq q p = true) ∧
    (∀ p q r, Proper p.toVal → Proper q.toVal → Proper r.toVal → eq p q = true → eq q r = true → eq p r = true) := by
  unfold eq
  refine ⟨fun p hp => (pyEq_iff _ _ hp hp).2 (Same.refl _ hp), fun p q hp hq h => ?_, fun p q r hp hq hr h1 h2 => ?_⟩
  · exact (pyEq_iff _ _ hq hp).2 ((pyEq_iff _ _ hp hq).1 h).symm
  · exact (pyEq_iff _ _ hp hr).2 (((pyEq_iff _ _ hp hq).1 h1).trans ((pyEq_iff _ _ hq hr).1 h2))

/-- Equal objects have the same names, and the same values under them. -/
theorem C100_lookup (p q : Params) (hp : p.WF) (hq : q.WF) (hpp : Proper p.toVal) (hpq : Proper q.toVal) (h : eq p q = true) (name : Str) :
    p.contains name = q.contains name ∧
    (∀ e, p.get name .object = .error e ↔ q.get name .object = .error e) ∧
    (∀ v w, p.get name .object = .ok v → q.get name .object = .ok w → Same v w) := by
  have hs := (pyEq_iff _ _ hpp hpq).1 h
  have key : ∀ p q : Params, p.WF → q.WF → Same p.toVal q.toVal → p.contains name = true → q.contains name = true := by
    intro p q hp hq hs hc
    rw [contains_iff hp] at hc
    obtain ⟨v, hv, hr⟩ := hc
    obtain ⟨w, hw, hvw⟩ := Same.reaches hr hs
    rw [contains_iff hq]
    exact ⟨w, by rw [← hvw.isNone]; exact hv, hw⟩
  refine ⟨?_, fun e => ?_, fun v w hv hw => ?_⟩
  · rw [Bool.eq_iff_iff]
    exact ⟨key p q hp hq hs, key q p hq hp hs.symm⟩
  · rw [(C41_lookup p hp name).2, (C41_lookup q hq name).2]
    refine and_congr_right fun _ => not_congr ⟨?_, ?_⟩
    · rintro ⟨v, hr⟩
      obtain ⟨w, hw, -⟩ := Same.reaches hr hs
      exact ⟨w, hw⟩
    · rintro ⟨v, hr⟩
      obtain ⟨w, hw, -⟩ := Same.reaches hr hs.symm
      exact ⟨w, hw⟩
  · rw [(C41_lookup p hp name).1] at hv
    have hv' := hv
    obtain ⟨w', hw', hvw⟩ := Same.reaches hv hs
    have := ((C41_lookup q hq name).1 w').2 hw'
    rw [hw, Except.ok.injEq] at this
    rw [this]
    exact hvw

/-- What cannot be written occurs in both of two equal values or in none. -/
theorem same_unwritable {v w : PVal} (h : Same v w) : (∃ u, Occurs u v ∧ ¬ Writable u) → ∃ u, Occurs u w ∧ ¬ Writable u := by
  induction h with
  | number a b =>
    rintro ⟨u, hu, hn⟩
    cases a <;> cases hu <;> exact absurd (by constructor) hn
  | none => exact id
  | str s => exact id
  | path s => exact id
  | bytes s => exact id
  | obj n => exact id
  | @list xs ys hl _ ih =>
    rintro ⟨u, hu, hn⟩
    cases hu with
    | here => exact absurd (.list _) hn
    | list hx hu =>
      obtain ⟨i, hi, rfl⟩ := List.getElem_of_mem hx
      obtain ⟨u', h1, h2⟩ := ih i xs[i] ys[i] (by simp) (by simp) ⟨u, hu, hn⟩
      exact ⟨u', .list (List.getElem_mem _) h1, h2⟩
  | @dict es fs hk _ ih =>
    rintro ⟨u, hu, hn⟩
    cases hu with
    | here => exact absurd (.dict _) hn
    | @dict _ e _ he hu =>
      obtain ⟨⟨k, w⟩, hf, rfl⟩ := List.mem_map.1 ((hk e.1).1 (List.mem_map_of_mem he))
      obtain ⟨u', h1, h2⟩ := ih _ e.2 w he hf ⟨u, hu, hn⟩
      exact ⟨u', .dict hf h1, h2⟩
  | params _ _ _ => exact fun _ => ⟨_, .here _, fun h => nomatch h⟩

theorem same_unprintable {v w : PVal} (h : Same v w) (hv : Unprintable v) : Unprintable w := by
  obtain ⟨⟨pfx, es⟩, rfl, hu⟩ := hv
  have hd := same_dictify h
  cases h with
  | number a _ => cases a
  | @params _ _ fs _ _ =>
    rw [dictify_params, dictify_params] at hd
    exact ⟨⟨pfx, fs⟩, rfl, same_unwritable hd hu⟩

theorem same_wrongType {v w : PVal} (h : Same v w) : wrongType v = wrongType w := by
  by_cases hv : Unprintable v
  · rw [wrongType_unprintable hv, wrongType_unprintable (same_unprintable h hv)]
  · rw [wrongType_printable hv, wrongType_printable fun hw => hv (same_unprintable h.symm hw)]

/-- For strings, equal objects give the very same answers. -/
theorem C100_string (p q : Params) (hp : p.WF) (hq : q.WF) (hpp : Proper p.toVal) (hpq : Proper q.toVal) (h : eq p q = true) (name : Str)
    (valid : Option (List Str)) : p.string name valid = q.string name valid := by
  have hl := C100_lookup p q hp hq hpp hpq h name
  have hget : ∀ p : Params, p.get name .str = (p.get name .object).bind fun v => if isinstance v .str then .ok v else .error (wrongType v) := by
    intro p
    unfold Params.get
    simp only [bind, Except.bind]
    cases p.privateGet name false .none with
    | error e => rfl
    | ok v => rfl
  have hstr : p.get name .str = q.get name .str := by
    rw [hget, hget]
    cases h1 : p.get name .object with
    | error e => rw [(hl.2.1 e).1 h1]
    | ok v =>
      cases h2 : q.get name .object with
      | error e => rw [(hl.2.1 e).2 h2] at h1; cases h1
      | ok w =>
        have := hl.2.2 v w h1 h2
        simp only [Except.bind, same_wrongType this]
        cases this with
        | number a b => cases a <;> cases b <;> rfl
        | list _ _ => rfl
        | dict _ _ => rfl
        | params _ _ => rfl
        | _ => rfl
  unfold string
  rw [hstr]

/-- Sub-namespaces of equal objects are equal. -/
theorem C100_namespace (p q : Params) (hp : p.WF) (hq : q.WF) (hpp : Proper p.toVal) (hpq : Proper q.toVal) (h : eq p q = true) (name : Str) :
    (∀ e, p.namespace name = .error e ↔ q.namespace name = .error e) ∧
    (∀ a b, p.namespace name = .ok a → q.namespace name = .ok b → eq a b = true) := by
  have hl := C100_lookup p q hp hq hpp hpq h name
  have hns : ∀ p : Params, p.namespace name = (p.get name .object).bind fun v =>
      match v with | .params pfx es => .ok ⟨pfx, es⟩ | _ => .error .parameterError := by
    intro p
    unfold Params.namespace Params.get
    simp only [bind, Except.bind]
    cases p.privateGet name false .none with
    | error e => rfl
    | ok v => cases v <;> rfl
  rw [hns, hns]
  cases h1 : p.get name .object with
  | error e =>
    rw [(hl.2.1 e).1 h1]
    exact ⟨fun _ => Iff.rfl, fun a b ha => (by cases ha)⟩
  | ok v =>
    cases h2 : q.get name .object with
    | error e => rw [(hl.2.1 e).2 h2] at h1; cases h1
    | ok w =>
      have hs := hl.2.2 v w h1 h2
      have hpv := Proper.reaches (((C41_lookup p hp name).1 v).1 h1) hpp
      have hpw := Proper.reaches (((C41_lookup q hq name).1 w).1 h2) hpq
      simp only [Except.bind]
      cases hs with
      | number a b => cases a <;> cases b <;> exact ⟨fun _ => Iff.rfl, fun a b ha => (by cases ha)⟩
      | params hk hv =>
        refine ⟨fun _ => by simp, fun a b ha hb => ?_⟩
        cases ha
        cases hb
        exact (pyEq_iff _ _ hpv hpw).2 (.params hk hv)
      | _ => exact ⟨fun _ => Iff.rfl, fun a b ha => (by cases ha)⟩

/-- Of two nested dictionaries that are the same (whatever the order of their items), both are refused or both give equal objects; of two that
are not, the objects are not equal. -/
theorem C100_from_mapping (es fs : Entries) (pfx : List Str) (hes : (PVal.dict es).Plain) (hfs : (PVal.dict fs).Plain)
    (hpe : Proper (.dict es)) (hpf : Proper (.dict fs)) :
    (Same (.dict es) (.dict fs) → (fromMapping es pfx = .error .valueError ∧ fromMapping fs pfx = .error .valueError) ∨
      ∃ p q, fromMapping es pfx = .ok p ∧ fromMapping fs pfx = .ok q ∧ eq p q = true) ∧
    (∀ p q, fromMapping es pfx = .ok p → fromMapping fs pfx = .ok q → (eq p q = true ↔ Same (.dict es) (.dict fs))) := by
  have hiff : ∀ p q, fromMapping es pfx = .ok p → fromMapping fs pfx = .ok q → (eq p q = true ↔ Same (.dict es) (.dict fs)) := by
    intro p q h1 h2
    have hc1 := canon_of_fromMapping hes h1
    have hc2 := canon_of_fromMapping hfs h2
    have hd : ∀ {es : Entries} {p : Params}, (PVal.dict es).Plain → fromMapping es pfx = .ok p → dictify p.toVal = .dict es := by
      intro es p hes h
      by_cases hd : (PVal.dict es).DotFree
      · obtain ⟨r, h3, -, -, h4⟩ := fromMapping_ok (pfx := pfx) hes hd
        rw [h, Except.ok.injEq] at h3
        subst h3
        rw [toVal, dictify_params]
        exact congrArg PVal.dict h4
      · rw [fromMapping_error hes hd] at h
        cases h
    have e1 := hd hes h1
    have e2 := hd hfs h2
    have p1 : Proper p.toVal := proper_of_dictify _ hc1.tree (by rw [e1]; exact hpe)
    have p2 : Proper q.toVal := proper_of_dictify _ hc2.tree (by rw [e2]; exact hpf)
    unfold eq
    rw [pyEq_iff _ _ p1 p2, ← e1, ← e2]
    exact ⟨same_dictify, same_of_dictify _ _ pfx hc1 hc2⟩
  refine ⟨fun hs => ?_, hiff⟩
  by_cases hd : (PVal.dict es).DotFree
  · obtain ⟨p, h1, -⟩ := fromMapping_ok (pfx := pfx) hes hd
    obtain ⟨q, h2, -⟩ := fromMapping_ok (pfx := pfx) hfs (dotFree_of_same hs hd)
    exact .inr ⟨p, q, h1, h2, (hiff p q h1 h2).2 hs⟩
  · exact .inl ⟨fromMapping_error hes hd, fromMapping_error hfs fun h => hd (dotFree_of_same hs.symm h)⟩

/-- Objects loaded at the top level are equal exactly if `as_nested_dicts` gives the same. -/
theorem C100_nested_dicts (p q : Params) (hp : p.Loaded) (hq : q.Loaded) (hpp : Proper p.toVal) (hpq : Proper q.toVal) :
    eq p q = true ↔ Same (.dict p.asNestedDicts) (.dict q.asNestedDicts) := by
  have hc1 := (loaded_iff p).1 hp
  have hc2 := (loaded_iff q).1 hq
  unfold eq
  rw [pyEq_iff _ _ hpp hpq]
  exact ⟨same_dictify, same_of_dictify _ _ [] hc1 hc2⟩

/-- Unifying equal objects with equal objects: both raise the same, or the results are equal. -/
theorem C100_unify (p p' q q' : Params) (hp : p.Tree) (hp' : p'.Tree) (hq : q.Tree) (hq' : q'.Tree)
    (pp : Proper p.toVal) (pp' : Proper p'.toVal) (pq : Proper q.toVal) (pq' : Proper q'.toVal) (pfx : List Str)
    (h1 : eq p p' = true) (h2 : eq q q' = true) :
    (∀ e, p.unify q pfx = .error e ↔ p'.unify q' pfx = .error e) ∧
    (∀ r r', p.unify q pfx = .ok r → p'.unify q' pfx = .ok r' → eq r r' = true) := by
  have hs := same_unifyVal p.toVal p'.toVal q.toVal q'.toVal pfx hp hp' hq hq' ((pyEq_iff _ _ pp pp').1 h1) ((pyEq_iff _ _ pq pq').1 h2)
  rw [unify_as_val, unify_as_val] at hs
  have hprop : ∀ p q r : Params, p.Tree → q.Tree → Proper p.toVal → Proper q.toVal → p.unify q pfx = .ok r → Proper r.toVal := by
    intro p q r hp hq pp pq hr
    obtain ⟨ht, -, hv, -⟩ := C45_values p q r hp hq pfx hr
    refine proper_of_leaves ht fun path w hw hrw => ?_
    rcases (hv path w hw).1 hrw with ⟨h, -⟩ | ⟨h, -⟩
    · exact Proper.reaches h pq
    · exact Proper.reaches h pp
  cases hr : p.unify q pfx with
  | error e =>
    cases hr' : p'.unify q' pfx with
    | error e' =>
      rw [hr, hr'] at hs
      have : e = e' := hs
      subst this
      exact ⟨fun _ => Iff.rfl, fun a b ha => (by cases ha)⟩
    | ok r' => rw [hr, hr'] at hs; exact hs.elim
  | ok r =>
    cases hr' : p'.unify q' pfx with
    | error e' => rw [hr, hr'] at hs; exact hs.elim
    | ok r' =>
      rw [hr, hr'] at hs
      refine ⟨fun _ => by simp, fun a b ha hb => ?_⟩
      cases ha
      cases hb
      exact (pyEq_iff _ _ (hprop p q r hp hq pp pq hr) (hprop p' q' r' hp' hq' pp' pq' hr')).2 hs

/-- Equal objects have the same hash, or neither has one; whatever the hash functions are, as long as that of a set ignores the order. -/
theorem C100_hash (H : HashFns) (hH : ∀ l l' : List Int, l.Perm l' → H.items l = H.items l') (p q : Params)
    (hp : Proper p.toVal) (hq : Proper q.toVal) (h : eq p q = true) : hash H p = hash H q :=
  same_hash H hH ((pyEq_iff _ _ hp hq).1 h) hp hq

/-- `hash` raises `TypeError` exactly if there is a list (or a mapping) among the values, at any depth. -/
theorem C100_hashable (H : HashFns) (p : Params) :
    (∀ e, hash H p = .error e ↔ e = .typeError ∧ Unhashable p.toVal) ∧ ((∃ h, hash H p = .ok h) ↔ ¬ Unhashable p.toVal) := by
  have ho := pyHash_outcome H p.toVal
  unfold hash
  by_cases hu : Unhashable p.toVal
  · rw [ho.2 hu]
    exact ⟨fun e => ⟨fun h => (by cases h; exact ⟨rfl, hu⟩), fun ⟨h, _⟩ => by rw [h]⟩, ⟨fun ⟨_, h⟩ => (by cases h), fun h => absurd hu h⟩⟩
  · obtain ⟨x, hx⟩ := ho.1 hu
    rw [hx]
    exact ⟨fun e => ⟨fun h => (by cases h), fun ⟨_, h⟩ => absurd h hu⟩, ⟨fun _ => hu, fun _ => ⟨x, rfl⟩⟩⟩

/-! ## Where equal objects differ -/

/-- Equal objects, but `integer`, `boolean` and `floating_point` differ: `True == 1 == 1.0`. -/
theorem C100_numbers_counterexample : ∃ p q : Params, p.Loaded ∧ q.Loaded ∧ eq p q = true ∧
    p.get ['a'] .bool = .ok (.bool true) ∧ q.get ['a'] .bool = .error .parameterError :=
  ⟨⟨[], [(['a'], .bool true)]⟩, ⟨[], [(['a'], .int 1)]⟩,
    ⟨[(['a'], .bool true)], .dict (by simp) (by simpa using .leaf ⟨rfl, rfl⟩), rfl⟩,
    ⟨[(['a'], .int 1)], .dict (by simp) (by simpa using .leaf ⟨rfl, rfl⟩), rfl⟩, by decide +kernel, rfl, rfl⟩

/-- Equal objects whose items come in different orders. -/
theorem C100_order_counterexample : ∃ p q : Params, p.Loaded ∧ q.Loaded ∧ eq p q = true ∧
    p.namespacedItems = [(['a'], .int 1), (['b'], .int 2)] ∧ q.namespacedItems = [(['b'], .int 2), (['a'], .int 1)] :=
  ⟨⟨[], [(['a'], .int 1), (['b'], .int 2)]⟩, ⟨[], [(['b'], .int 2), (['a'], .int 1)]⟩,
    ⟨[(['a'], .int 1), (['b'], .int 2)], .dict (by decide) (by intro e he; simp at he; rcases he with rfl | rfl <;> exact .leaf ⟨rfl, rfl⟩), rfl⟩,
    ⟨[(['b'], .int 2), (['a'], .int 1)], .dict (by decide) (by intro e he; simp at he; rcases he with rfl | rfl <;> exact .leaf ⟨rfl, rfl⟩), rfl⟩,
    by decide +kernel, rfl, rfl⟩

/-- A namespace taken out of an object is not equal to the object made from the same dictionary: it remembers where it was. -/
theorem C100_prefix_counterexample : ∃ p q r : Params, fromMapping [(['a'], .dict [(['b'], .int 1)])] = .ok p ∧ p.namespace ['a'] = .ok q ∧
    fromMapping [(['b'], .int 1)] = .ok r ∧ q.asNestedDicts = r.asNestedDicts ∧ eq q r = false :=
  ⟨_, _, _, rfl, rfl, rfl, rfl, by decide +kernel⟩

/-! ## Non-vacuity -/

/-- A nested dictionary. -/
def exD1 : Entries := [(['a'], .int 1), (['n'], .dict [(['x'], .list [.int 1, .str ['y']]), (['z'], .none)])]
/-- The same one in another order, with `True` and `1.0` for `1`. -/
def exD2 : Entries := [(['n'], .dict [(['z'], .none), (['x'], .list [.float 1, .str ['y']])]), (['a'], .bool true)]
/-- Their parameters. -/
def exP1 : Params := ⟨[], [(['a'], .int 1), (['n'], .params [['n']] [(['x'], .list [.int 1, .str ['y']]), (['z'], .none)])]⟩
/-- Their parameters. -/
def exP2 : Params := ⟨[], [(['n'], .params [['n']] [(['z'], .none), (['x'], .list [.float 1, .str ['y']])]), (['a'], .bool true)]⟩

example : fromMapping exD1 = .ok exP1 ∧ fromMapping exD2 = .ok exP2 := ⟨rfl, rfl⟩
example : eq exP1 exP2 = true := by decide +kernel
theorem exD1_plain : (PVal.dict exD1).Plain := by
  refine .dict (by decide) fun e he => ?_
  simp only [exD1, List.mem_cons, List.not_mem_nil, or_false] at he
  rcases he with rfl | rfl
  · exact .leaf ⟨rfl, rfl⟩
  · refine .dict (by decide) fun e he => ?_
    simp only [List.mem_cons, List.not_mem_nil, or_false] at he
    rcases he with rfl | rfl <;> exact .leaf ⟨rfl, rfl⟩
example : exP1.Loaded := ⟨exD1, exD1_plain, rfl⟩
example : Proper exP1.toVal := by
  refine .params (by decide) fun e he => ?_
  simp only [exP1, List.mem_cons, List.not_mem_nil, or_false] at he
  rcases he with rfl | rfl
  · exact .leaf ⟨rfl, rfl⟩ (fun _ => PVal.noConfusion)
  · refine .params (by decide) fun e he => ?_
    simp only [List.mem_cons, List.not_mem_nil, or_false] at he
    rcases he with rfl | rfl
    · refine .list fun x hx => ?_
      simp only [List.mem_cons, List.not_mem_nil, or_false] at hx
      rcases hx with rfl | rfl <;> exact .leaf ⟨rfl, rfl⟩ (fun _ => PVal.noConfusion)
    · exact .leaf ⟨rfl, rfl⟩ (fun _ => PVal.noConfusion)
example : Unhashable exP1.toVal :=
  .params (List.mem_cons_of_mem _ (List.mem_cons_self ..)) (.params (List.mem_cons_self ..) (.list _))
/-- Hash functions: sums. -/
def exH : HashFns := ⟨fun q => q.num, 0, fun s => s.length, fun s => s.length, fun s => s.length, fun n => n, fun a b => 31 * a + b, fun l => l.sum, fun a p => a + p.length⟩
example : ∀ l l' : List Int, l.Perm l' → exH.items l = exH.items l' := fun l l' h => by
  show l.sum = l'.sum
  induction h with
  | nil => rfl
  | cons x _ ih => rw [List.sum_cons, List.sum_cons, ih]
  | swap x y l => rw [List.sum_cons, List.sum_cons, List.sum_cons, List.sum_cons]; omega
  | trans _ _ a b => rw [a, b]
example : hash exH ⟨[], [(['a'], .int 1), (['b'], .int 2)]⟩ = .ok 65 ∧ hash exH exP1 = .error .typeError := ⟨by decide +kernel, by decide +kernel⟩

end ParamsEq
end Vista
