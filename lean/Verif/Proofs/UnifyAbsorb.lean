import Verif.Props.ParamsUnify

/-!
# `unify` up to the stored prefixes; unifying again with something already included changes nothing
-/
set_option linter.unusedSectionVars false
set_option linter.unusedSimpArgs false
namespace Vista
namespace Params
open PVal

theorem dictGet_dictifyEntries (es : Entries) (k : Str) : dictGet (dictifyEntries es) k = (dictGet es k).map dictify := by
  induction es with
  | nil => rfl
  | cons e es ih =>
    obtain ⟨a, v⟩ := e
    simp only [dictifyEntries, dictifyEntry, dictGet_cons, ih]
    split <;> rfl

theorem dictify_isNone (v : PVal) : (dictify v).isNone = v.isNone := by
  cases v <;> simp [dictify, isNone]

/-- The nested dict of a tree is plain and has no dotted keys. -/
theorem tree_dictify {v : PVal} (h : v.Tree) : (dictify v).Plain ∧ (dictify v).DotFree := by
  induction h with
  | leaf hl => rw [dictify_leaf hl]; exact ⟨.leaf hl, .leaf hl.2⟩
  | @params pfx es hn hd _ ih =>
    simp only [dictify]
    refine ⟨.dict (by rw [dictifyEntries_keys]; exact hn) ?_, .dict ?_ ?_⟩ <;> rw [dictifyEntries_eq] <;> intro e he <;>
      obtain ⟨e', he', rfl⟩ := List.mem_map.1 he
    · exact (ih e' he').1
    · exact hd e' he'
    · exact (ih e' he').2

theorem dictify_leaf_inv {v w : PVal} (hv : Leaf v) (hw : w.Tree) (h : dictify w = v) : w = v := by
  rcases hw with hl | ⟨-, -, -⟩
  · rw [dictify_leaf hl] at h; exact h
  · simp only [dictify] at h; subst h; exact absurd hv.2 (by simp [isMapping])

theorem dictify_params_inv {w : PVal} {es : Entries} (hw : w.Tree) (h : dictify w = .dict es) :
    ∃ pfx es', w = .params pfx es' ∧ dictifyEntries es' = es := by
  rcases w.shape with hl | ⟨es', rfl⟩ | ⟨pfx, es', rfl⟩
  · rw [dictify_leaf hl] at h; subst h; exact absurd hl.2 (by simp [isMapping])
  · exact absurd hw.not_mapping (by simp [isMapping])
  · simp only [dictify, PVal.dict.injEq] at h; exact ⟨pfx, es', rfl, h⟩

theorem tree_leaf_or_params {v : PVal} (h : v.Tree) : Leaf v ∨ ∃ pfx es, v = .params pfx es := by
  rcases v.shape with hl | ⟨es, rfl⟩ | h'
  · exact .inl hl
  · exact absurd h.not_mapping (by simp [isMapping])
  · exact .inr h'

/-- The nested dict of the result depends only on the nested dicts of the arguments. -/
theorem unifyVal_congr (o : PVal) : ∀ (o' n n' : PVal) (pfx pfx' : List Str), o.Tree → o'.Tree → n.Tree → n'.Tree →
    dictify o' = dictify o → dictify n' = dictify n → ∀ r, unifyVal pfx o n = .ok r →
    ∃ r', unifyVal pfx' o' n' = .ok r' ∧ dictify r' = dictify r := by
  induction o using PVal.ind with
  | leaf o hl =>
    intro o' n n' pfx pfx' _ ho' hn hn' heo hen r h
    rw [dictify_leaf hl] at heo
    obtain rfl := dictify_leaf_inv hl ho' heo
    cases hnp : n.isParams with
    | true => rw [unifyVal_mixed (by rw [hl.1, hnp]; simp)] at h; simp at h
    | false =>
      rw [unifyVal_leaves hl.1 hnp, Except.ok.injEq] at h
      subst h
      have hnl : Leaf n := ⟨hnp, hn.not_mapping⟩
      rw [dictify_leaf hnl] at hen
      obtain rfl := dictify_leaf_inv hnl hn' hen
      exact ⟨n', unifyVal_leaves hl.1 hnp, rfl⟩
  | dict es _ => intro o' n n' pfx pfx' h; exact absurd h.not_mapping (by simp [isMapping])
  | params a es ih =>
    intro o' n n' pfx pfx' ho ho' hn hn' heo hen r h
    rcases tree_leaf_or_params hn with hl | ⟨b, nes, rfl⟩
    · rw [unifyVal_mixed (by rw [hl.1]; simp [isParams])] at h; simp at h
    · obtain ⟨a', es', rfl, hes⟩ := dictify_params_inv ho' (by rw [heo]; rfl)
      obtain ⟨b', nes', rfl, hnes⟩ := dictify_params_inv hn' (by rw [hen]; rfl)
      rw [unifyVal_params] at h ⊢
      obtain ⟨s1, s2⟩ := unify_spec pfx ⟨a, es⟩ ⟨b, nes⟩ ho hn
      obtain ⟨t1, t2⟩ := unify_spec pfx' ⟨a', es'⟩ ⟨b', nes'⟩ ho' hn'
      have hko : ∀ k, (dictGet es' k).map dictify = (dictGet es k).map dictify := fun k => by
        rw [← dictGet_dictifyEntries, hes, dictGet_dictifyEntries]
      have hkn : ∀ k, (dictGet nes' k).map dictify = (dictGet nes k).map dictify := fun k => by
        rw [← dictGet_dictifyEntries, hnes, dictGet_dictifyEntries]
      by_cases hbad : ∃ k x, combine pfx k (dictGet es k) (dictGet nes k) = .error x
      · rw [s1 hbad] at h; simp [Except.map] at h
      · obtain ⟨res, e1, e2, e3, e4⟩ := s2 hbad
        rw [e1] at h
        simp only [Except.map, Except.ok.injEq, toVal] at h
        subst h
        have hcomb : ∀ k, ∃ z, combine pfx' k (dictGet es' k) (dictGet nes' k) = .ok z ∧ z.map dictify = (dictGet res k).map dictify := by
          intro k
          have h1 := e3 k
          have h2 := hko k
          have h3 := hkn k
          simp only at h1
          cases ho1 : dictGet es k with
          | none =>
            rw [ho1] at h1 h2
            simp only [combine, Except.ok.injEq] at h1
            simp only [Option.map_none, Option.map_eq_none_iff] at h2
            rw [h2]
            exact ⟨_, rfl, by rw [h3, h1]⟩
          | some o1 =>
            rw [ho1] at h1 h2
            simp only [Option.map_some, Option.map_eq_some_iff] at h2
            obtain ⟨o2, ho2, hd2⟩ := h2
            rw [ho2]
            cases hn1 : dictGet nes k with
            | none =>
              rw [hn1] at h1 h3
              simp only [combine, Except.ok.injEq] at h1
              simp only [Option.map_none, Option.map_eq_none_iff] at h3
              rw [h3, ← h1]
              exact ⟨_, rfl, by simp [hd2]⟩
            | some n1 =>
              rw [hn1] at h1 h3
              simp only [Option.map_some, Option.map_eq_some_iff] at h3
              obtain ⟨n2, hn2, hdn⟩ := h3
              rw [hn2]
              simp only [combine] at h1 ⊢
              have hnn : n2.isNone = n1.isNone := by rw [← dictify_isNone, hdn, dictify_isNone]
              rw [hnn]
              split at h1
              · rename_i hc
                simp only [Except.ok.injEq] at h1
                rw [if_pos hc, ← h1]
                exact ⟨_, rfl, by simp [hd2]⟩
              · rename_i hc
                rw [if_neg hc]
                have m1 := (dictGet_iff ho.inv.1 _ _).1 ho1
                have m2 := (dictGet_iff ho'.inv.1 _ _).1 ho2
                have m3 := (dictGet_iff hn.inv.1 _ _).1 hn1
                have m4 := (dictGet_iff hn'.inv.1 _ _).1 hn2
                cases hu : unifyVal (pfx ++ [k]) o1 n1 with
                | error e => rw [hu] at h1; simp [Except.map] at h1
                | ok u =>
                  rw [hu] at h1
                  simp only [Except.map, Except.ok.injEq] at h1
                  obtain ⟨u', g1, g2⟩ := ih _ m1 o2 n1 n2 (pfx ++ [k]) (pfx' ++ [k]) (ho.inv.2.2 _ m1) (ho'.inv.2.2 _ m2)
                    (hn.inv.2.2 _ m3) (hn'.inv.2.2 _ m4) hd2 hdn u hu
                  rw [g1, ← h1]
                  exact ⟨_, rfl, by simp [g2]⟩
        obtain ⟨res', f1, f2, f3, f4⟩ := t2 (by
          rintro ⟨k, x, hx⟩
          obtain ⟨z, hz, -⟩ := hcomb k
          simp only at hx
          rw [hz] at hx; simp at hx)
        refine ⟨_, by rw [f1]; rfl, ?_⟩
        simp only [toVal, dictify, PVal.dict.injEq]
        have hkeys : ∀ {x y : Entries}, dictifyEntries x = dictifyEntries y → x.map (·.1) = y.map (·.1) := fun {x y} h => by
          rw [← dictifyEntries_keys x, h, dictifyEntries_keys]
        refine dict_ext (by rw [dictifyEntries_keys]; exact f2.inv.1) ?_ fun k => ?_
        · rw [dictifyEntries_keys, dictifyEntries_keys, f4, e4]
          simp only
          rw [hkeys hes, hkeys hnes]
        · rw [dictGet_dictifyEntries, dictGet_dictifyEntries]
          obtain ⟨z, hz, hz'⟩ := hcomb k
          have := f3 k
          simp only at this
          rw [hz, Except.ok.injEq] at this
          rw [← this, hz']

/-- Two objects with the same contents: equal as nested dicts. -/
def Same (p q : Params) : Prop := p.asNestedDicts = q.asNestedDicts

theorem Same.refl (p : Params) : Same p p := rfl
theorem Same.symm {p q : Params} (h : Same p q) : Same q p := Eq.symm h
theorem Same.trans {p q r : Params} (h : Same p q) (h' : Same q r) : Same p r := Eq.trans h h'

theorem same_iff (p q : Params) : Same p q ↔ dictify p.toVal = dictify q.toVal := by
  simp [Same, toVal, dictify, asNestedDicts]

theorem unify_congr {p p' q q' r : Params} {pfx : List Str} (pfx' : List Str) (hp : p.Tree) (hp' : p'.Tree) (hq : q.Tree) (hq' : q'.Tree)
    (h1 : Same p' p) (h2 : Same q' q) (h : p.unify q pfx = .ok r) : ∃ r', p'.unify q' pfx' = .ok r' ∧ Same r' r := by
  have hr : unifyVal pfx p.toVal q.toVal = .ok r.toVal := by rw [unify_as_val, h]; rfl
  obtain ⟨u, hu, hd⟩ := unifyVal_congr p.toVal p'.toVal q.toVal q'.toVal pfx pfx' hp hp' hq hq' ((same_iff _ _).1 h1) ((same_iff _ _).1 h2) _ hr
  rw [unify_as_val] at hu
  cases hh : p'.unify q' pfx' with
  | error e => rw [hh] at hu; simp [Except.map] at hu
  | ok r' =>
    rw [hh] at hu
    simp only [Except.map, Except.ok.injEq] at hu
    subst hu
    exact ⟨r', rfl, (same_iff _ _).2 hd⟩

/-- The same contents, with the right prefixes stored. -/
theorem canonical {p : Params} (hp : p.Tree) : ∃ p', p'.Loaded ∧ Same p' p := by
  obtain ⟨h1, h2⟩ := tree_dictify hp
  obtain ⟨q, e1, -, -, e2⟩ := fromMapping_ok (pfx := []) h1 h2
  exact ⟨q, ⟨_, h1, e1⟩, e2⟩

theorem loaded_unique {p q : Params} (hp : p.Loaded) (hq : q.Loaded) (h : Same p q) : p = q := by
  have h1 := Canon.fromMapping ((loaded_iff p).1 hp)
  have h2 := Canon.fromMapping ((loaded_iff q).1 hq)
  rw [h, h2, Except.ok.injEq] at h1
  exact h1.symm

theorem loaded_tree {p : Params} (hp : p.Loaded) : p.Tree := ((loaded_iff p).1 hp).tree

/-- Whatever was there is there after `unify`: a namespace or a parameter, as before. -/
theorem unify_extends {p q r : Params} (hp : p.Tree) (hq : q.Tree) {pfx} (h : p.unify q pfx = .ok r) {path : List Str} {u : PVal}
    (hu : p.toVal.Reaches path u) : ∃ u', r.toVal.Reaches path u' ∧ u'.isParams = u.isParams := by
  obtain ⟨-, -, hv, hs⟩ := C45_values p q r hp hq pfx h
  have hnc : ¬ Conflict p.toVal q.toVal := ((C45_conflict p q hp hq pfx).2).1 ⟨r, h⟩
  cases hup : u.isParams with
  | true =>
    obtain ⟨u', h1, h2⟩ := (hs path).2 (.inl ⟨u, hup, hu⟩)
    exact ⟨u', h2, h1⟩
  | false =>
    have hul : Leaf u := ⟨hup, (PVal.Tree.reaches hp hu).not_mapping⟩
    by_cases hw : ∃ w, w ≠ .none ∧ q.toVal.Reaches path w
    · obtain ⟨w, hwn, hwr⟩ := hw
      have hwp : w.isParams = false := by
        cases hwp : w.isParams with
        | false => rfl
        | true => exact absurd ⟨path, u, w, hu, hwr, hwn, by rw [hup, hwp]; simp⟩ hnc
      have hwl : Leaf w := ⟨hwp, (PVal.Tree.reaches hq hwr).not_mapping⟩
      exact ⟨w, (hv path w hwl).2 (.inl ⟨hwr, .inl hwn⟩), hwp⟩
    · exact ⟨u, (hv path u hul).2 (.inr ⟨hu, hw⟩), hup⟩

/-- `p` is already contained in `x`: unifying `p` with `x` gives the contents of `x`. -/
def Absorbed (p x : Params) : Prop := ∃ y, p.unify x = .ok y ∧ Same y x

theorem absorbed_self {p : Params} (hp : p.Tree) : Absorbed p p := by
  obtain ⟨p', h1, h2⟩ := canonical hp
  obtain ⟨y, h3, h4⟩ := unify_congr [] (loaded_tree h1) hp (loaded_tree h1) hp h2.symm h2.symm (C45_self p' h1)
  exact ⟨y, h3, h4.trans h2⟩

/-- If `p` is contained in `x`, it is contained in `x.unify(q)`. -/
theorem absorbed_unify {p x q z : Params} (hp : p.Tree) (hx : x.Tree) (hq : q.Tree) (h : Absorbed p x) {pfx} (hz : x.unify q pfx = .ok z) :
    Absorbed p z := by
  obtain ⟨y, hy, hyx⟩ := h
  have hzt : z.Tree := (C45_values x q z hx hq pfx hz).1
  obtain ⟨p', p1, p2⟩ := canonical hp
  obtain ⟨x', x1, x2⟩ := canonical hx
  obtain ⟨q', q1, q2⟩ := canonical hq
  have hp' := loaded_tree p1
  have hx' := loaded_tree x1
  have hq' := loaded_tree q1
  obtain ⟨y', e1, e2⟩ := unify_congr [] hp hp' hx hx' p2 x2 hy
  have : y' = x' := loaded_unique (C45_loaded _ _ _ p1 x1 e1) x1 (e2.trans (hyx.trans x2.symm))
  subst this
  obtain ⟨z', f1, f2⟩ := unify_congr [] hx hx' hq hq' x2 q2 hz
  have z1 := C45_loaded _ _ _ x1 q1 f1
  have hz' := loaded_tree z1
  have hnc : ¬ Conflict p'.toVal z'.toVal := by
    rintro ⟨path, u, w, hu, hw, -, hne⟩
    obtain ⟨u1, g1, g2⟩ := unify_extends hp' hx' e1 hu
    obtain ⟨u2, g3, g4⟩ := unify_extends hx' hq' f1 g1
    have := PVal.reaches_unique (PVal.Tree.wf hz') g3 hw
    subst this
    rw [g4, g2] at hne
    exact hne rfl
  obtain ⟨b, hb⟩ := ((C45_conflict p' z' hp' hz' []).2).2 hnc
  have hbz : z' = b := C45_associative p' y' q' y' z' z' b hp' hx' hq' e1 f1 f1 hb
  subst hbz
  obtain ⟨b', k1, k2⟩ := unify_congr [] hp' hp hz' hzt p2.symm f2.symm hb
  exact ⟨b', k1, k2.trans f2⟩

end Params
end Vista
