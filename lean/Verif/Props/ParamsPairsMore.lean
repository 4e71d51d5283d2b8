import Verif.Props.ParamsPairs
import Verif.Proofs.Loader

/-!
# C44, continued: the namespaces made by `from_key_value_pairs`
-/
set_option linter.unusedSectionVars false
set_option linter.unusedSimpArgs false
namespace Vista
namespace Params
open PVal

/-- No dictionary in the value is empty. -/
inductive Full : PVal → Prop
  | leaf {v : PVal} : Leaf v → Full v
  | dict {es : Entries} : es ≠ [] → (∀ e ∈ es, Full e.2) → Full (.dict es)

theorem full_inv {es : Entries} (h : Full (.dict es)) : es ≠ [] ∧ ∀ e ∈ es, Full e.2 := by
  cases h with
  | leaf h => exact absurd rfl (leaf_not_dict h _)
  | dict h1 h2 => exact ⟨h1, h2⟩

theorem setPath_full (path : List Str) (v d d' : PVal) (hv : Leaf v) (hd : ∀ es, d = .dict es → ∀ e ∈ es, Full e.2) (hpl : d.Plain)
    (h : setPath path v d = .ok d') : Full d' := by
  induction path generalizing d d' with
  | nil => cases d <;> simp [setPath] at h
  | cons k rest ih =>
    rcases d.shape with hl | ⟨es, rfl⟩ | ⟨pfx, es, rfl⟩
    · cases rest <;> cases d <;> first | (simp [setPath] at h; done) | exact absurd rfl (leaf_not_dict hl _)
    · have hd2 := hd es rfl
      obtain ⟨hn, hpp⟩ := hpl.inv
      have hset : ∀ x : PVal, Full x → Full (.dict (dictSet k x es)) := by
        intro x hx
        refine .dict ?_ ?_
        · intro h0
          have : k ∈ (dictSet k x es).map (·.1) := by rw [keys_dictSet]; exact .inl rfl
          rw [h0] at this
          simp at this
        · rintro ⟨a, b⟩ he
          rw [← dictGet_iff (nodup_dictSet k x hn), dictGet_dictSet] at he
          split at he
          · simp only [Option.some.injEq] at he; exact he ▸ hx
          · exact hd2 _ ((dictGet_iff hn _ _).1 he)
      cases rest with
      | nil =>
        simp only [setPath, Except.ok.injEq] at h
        subst h
        exact hset v (.leaf hv)
      | cons k2 ks =>
        simp only [setPath, bind, Except.bind] at h
        cases hs : setPath (k2 :: ks) v ((dictGet es k).getD (.dict [])) with
        | error e => simp [hs] at h
        | ok sub =>
          simp only [hs, Except.ok.injEq] at h
          subst h
          refine hset sub (ih _ _ ?_ (plain_sub hpl k) hs)
          intro es' hes' e he
          cases hg : dictGet es k with
          | none => rw [hg] at hes'; simp at hes'; subst hes'; simp at he
          | some u =>
            rw [hg, Option.getD_some] at hes'
            subst hes'
            exact (full_inv (hd2 _ ((dictGet_iff hn _ _).1 hg))).2 e he
    · exact absurd hpl.not_params (by simp [isParams])

theorem setPairs_full (pairs : List (Str × PVal)) (hv : ∀ e ∈ pairs, Leaf e.2) (d d' : PVal) (hd : ∀ es, d = .dict es → ∀ e ∈ es, Full e.2) (hpl : d.Plain)
    (h : setPairs '.' pairs d = .ok d') : (∀ es, d' = .dict es → ∀ e ∈ es, Full e.2) := by
  induction pairs generalizing d with
  | nil => simp only [setPairs, Except.ok.injEq] at h; exact h ▸ hd
  | cons e pairs ih =>
    obtain ⟨k, v⟩ := e
    simp only [setPairs] at h
    split at h
    · simp at h
    · simp only [bind, Except.bind] at h
      cases hs : setPath (splitOn '.' k) v d with
      | error e => simp [hs] at h
      | ok d1 =>
        simp only [hs] at h
        have hl := hv (k, v) (List.mem_cons_self ..)
        have hspec := setPath_spec (splitOn '.' k) (splitOn_ne_nil _ _) v hl d hpl
        have hp1 : d1.Plain := by
          by_cases hb : ∃ π u, Leaf u ∧ DictReaches d π u ∧ π <+: splitOn '.' k ∧ π ≠ splitOn '.' k
          · rw [hspec.1 hb] at hs; simp at hs
          · obtain ⟨es', e1, e2, -⟩ := hspec.2 hb
            rw [e1, Except.ok.injEq] at hs
            exact hs ▸ e2
        have hf := setPath_full _ v d d1 hl hd hpl hs
        exact ih (fun e he => hv e (List.mem_cons_of_mem _ he)) d1 (fun es he e hm => (full_inv (he ▸ hf)).2 e hm) hp1 h

theorem full_leaf {v : PVal} (h : Full v) : ∃ path w, Leaf w ∧ DictReaches v path w ∧ (path = [] → Leaf v) := by
  induction h with
  | leaf h => exact ⟨[], _, h, .here _, fun _ => h⟩
  | @dict es hne hf ih =>
    cases es with
    | nil => exact absurd rfl hne
    | cons e es =>
      obtain ⟨path, w, h1, h2, -⟩ := ih e (by simp)
      exact ⟨e.1 :: path, w, h1, .step (List.mem_cons_self ..) h2, by simp⟩

theorem dictReaches_full {v w : PVal} {path : List Str} (hv : ∀ es, v = .dict es → ∀ e ∈ es, Full e.2) (h : DictReaches v path w) (hp : path ≠ []) : Full w := by
  induction h with
  | here => exact absurd rfl hp
  | @step es k ks x w hm hr ih =>
    have hx := hv _ rfl _ hm
    cases ks with
    | nil => cases hr; exact hx
    | cons => exact ih (fun es' he e hm' => (full_inv (he ▸ hx)).2 e hm') (by simp)

theorem dictReaches_trans {u v w : PVal} {a b : List Str} (h1 : DictReaches u a v) (h2 : DictReaches v b w) : DictReaches u (a ++ b) w := by
  induction h1 with
  | here => exact h2
  | step hm _ ih => exact .step hm (ih h2)

/-- The namespaces of the result of `from_key_value_pairs`: the top level, and exactly those on the way to a parameter; none is empty. -/
theorem C44_namespaces (pairs : List (Str × PVal)) (hv : ∀ e ∈ pairs, Leaf e.2) (p : Params) (hp : fromKeyValuePairs pairs = .ok p) (path : List Str) :
    (∃ u, u.isParams = true ∧ p.toVal.Reaches path u) ↔ path = [] ∨ ∃ path' v, Assigned pairs path' v ∧ path <+: path' ∧ path ≠ path' := by
  have hres := (C44_result pairs hv).2 p hp
  have hg := (C44_result pairs hv).1.1 ⟨p, hp⟩
  obtain ⟨es, e1, e2, e3⟩ := (setPairs_spec pairs hv).1 hg
  have hd := setPairs_dotFree pairs hv (.dict []) _ (.dict (by simp) (by simp)) plain_empty e1
  have hfull := setPairs_full pairs hv (.dict []) _ (by simp) plain_empty e1
  obtain ⟨p', hp', -, hc, hdict⟩ := fromMapping_ok (pfx := []) e2 hd
  have hpp : p' = p := by
    simp only [fromKeyValuePairs, e1, bind, Except.bind] at hp
    rw [hp'] at hp
    simpa using hp
  subst hpp
  have htree : p'.toVal.Tree := (C42_prefix es [] e2 p' hp').2.1
  have hleaf_assigned : ∀ path v, Assigned pairs path v → Leaf v := by
    rintro π v ⟨a, n, b, h, -⟩
    exact hv (n, v) (by rw [h]; simp)
  have hdict' : dictify p'.toVal = .dict es := by
    have : dictify p'.toVal = .dict p'.asNestedDicts := rfl
    rw [this, hdict]
  constructor
  · rintro ⟨u, hu, hr⟩
    by_cases h0 : path = []
    · exact .inl h0
    right
    have h1 := (Loader.dictReaches_dictify' htree path _).2 ⟨u, hr, rfl⟩
    rw [hdict'] at h1
    have hf := dictReaches_full hfull h1 h0
    obtain ⟨rest, w, hw, hrw, hrest⟩ := full_leaf hf
    refine ⟨path ++ rest, w, (e3 _ _ hw).1 (dictReaches_trans h1 hrw), List.prefix_append _ _, ?_⟩
    intro he
    have hr0 : rest = [] := by simpa using he
    have hlf := hrest hr0
    cases u with
    | params a b => exact absurd rfl (leaf_not_dict hlf _)
    | _ => simp [isParams] at hu
  · rintro (rfl | ⟨path', v, ha, ⟨rest, rfl⟩, hne⟩)
    · exact ⟨p'.toVal, rfl, .here _⟩
    · have hr := ((hres.2 _ v (hleaf_assigned _ _ ha)).2 ha)
      have hrest : rest ≠ [] := by rintro rfl; simp at hne
      have hsplit : ∀ (a b : List Str) (x w : PVal), x.Reaches (a ++ b) w → b ≠ [] → ∃ u, u.isParams = true ∧ x.Reaches a u := by
        intro a
        induction a with
        | nil =>
          intro b x w h hb
          cases b with
          | nil => exact absurd rfl hb
          | cons k ks =>
            obtain ⟨pfx, es, u, rfl, -, -⟩ := reaches_cons.1 h
            exact ⟨_, rfl, .here _⟩
        | cons k ks ih =>
          intro b x w h hb
          obtain ⟨pfx, es, u, rfl, hm, hr⟩ := reaches_cons.1 h
          obtain ⟨u', h1, h2⟩ := ih b u w hr hb
          exact ⟨u', h1, .step hm h2⟩
      exact hsplit path rest _ v hr hrest

/-- `[("a.b", 1), ("c", 2)]`. -/
example : ∃ p, fromKeyValuePairs [("a.b".toList, .int 1), ("c".toList, .int 2)] = .ok p ∧
    ∀ path, (∃ u, u.isParams = true ∧ p.toVal.Reaches path u) ↔ path = [] ∨ ∃ path' v,
      Assigned [("a.b".toList, .int 1), ("c".toList, .int 2)] path' v ∧ path <+: path' ∧ path ≠ path' := by
  refine ⟨⟨[], [("a".toList, .params ["a".toList] [("b".toList, .int 1)]), ("c".toList, .int 2)]⟩, rfl, fun path => ?_⟩
  exact C44_namespaces _ (by simp [Leaf, isParams, isMapping]) _ rfl path

end Params
end Vista
