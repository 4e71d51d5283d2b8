import Verif.Props.Params

/-!
# Property C44: `from_key_value_pairs`
-/
set_option linter.unusedSectionVars false
set_option linter.unusedSimpArgs false
namespace Vista
namespace Params
open PVal

/-! ## Specification -/

/-- What a sequence of assignments leaves at a path: the last assignment to it that no later assignment to the same path, or to
a path leading to it, has replaced. -/
def Assigned (pairs : List (Str × PVal)) (path : List Str) (v : PVal) : Prop :=
  ∃ before name after, pairs = before ++ (name, v) :: after ∧ splitOn '.' name = path ∧
    ∀ e ∈ after, ¬ splitOn '.' e.1 <+: path

/-- Assigning to `name` after `before` would go through a parameter that is a leaf. -/
def ThroughLeaf (before : List (Str × PVal)) (name : Str) : Prop :=
  ∃ path v, Assigned before path v ∧ path <+: splitOn '.' name ∧ path ≠ splitOn '.' name

/-! ## One assignment -/

theorem dictReaches_nil {v w : PVal} : DictReaches v [] w ↔ w = v := by
  constructor
  · intro h; cases h; rfl
  · rintro rfl; exact .here _

theorem dictReaches_leaf {v w : PVal} (h : Leaf v) {path} : DictReaches v path w ↔ path = [] ∧ w = v := by
  constructor
  · intro h'
    cases h' with
    | here => exact ⟨rfl, rfl⟩
    | step => exact absurd rfl (leaf_not_dict h _)
  · rintro ⟨rfl, rfl⟩; exact .here _

theorem dictReaches_cons {es : Entries} (hn : (es.map (·.1)).Nodup) {k ks w} :
    DictReaches (.dict es) (k :: ks) w ↔ ∃ u, dictGet es k = some u ∧ DictReaches u ks w := by
  constructor
  · intro h
    cases h with
    | step h1 h2 => exact ⟨_, (dictGet_iff hn _ _).2 h1, h2⟩
  · rintro ⟨u, h1, h2⟩; exact .step ((dictGet_iff hn _ _).1 h1) h2

theorem plain_dictSet {es : Entries} (h : (PVal.dict es).Plain) {k v} (hv : v.Plain) : (PVal.dict (dictSet k v es)).Plain := by
  obtain ⟨hn, hp⟩ := h.inv
  refine .dict (nodup_dictSet k v hn) ?_
  rintro ⟨a, b⟩ he
  rw [← dictGet_iff (nodup_dictSet k v hn), dictGet_dictSet] at he
  split at he
  · simp only [Option.some.injEq] at he; exact he ▸ hv
  · exact hp _ ((dictGet_iff hn _ _).1 he)

theorem plain_empty : (PVal.dict []).Plain := .dict (by simp) (by simp)

theorem plain_sub {es : Entries} (h : (PVal.dict es).Plain) (k : Str) : ((dictGet es k).getD (.dict [])).Plain := by
  obtain ⟨hn, hp⟩ := h.inv
  cases hg : dictGet es k with
  | none => exact plain_empty
  | some u => exact hp _ ((dictGet_iff hn _ _).1 hg)

theorem setPath_spec (path : List Str) (hne : path ≠ []) (v : PVal) (hv : Leaf v) (d : PVal) (hd : d.Plain) :
    ((∃ π u, Leaf u ∧ DictReaches d π u ∧ π <+: path ∧ π ≠ path) → setPath path v d = .error .typeError) ∧
    ((¬ ∃ π u, Leaf u ∧ DictReaches d π u ∧ π <+: path ∧ π ≠ path) →
      ∃ es', setPath path v d = .ok (.dict es') ∧ (PVal.dict es').Plain ∧
        ∀ π u, Leaf u → (DictReaches (.dict es') π u ↔ (π = path ∧ u = v) ∨ (¬ path <+: π ∧ DictReaches d π u))) := by
  induction path generalizing d with
  | nil => exact absurd rfl hne
  | cons k rest ih =>
    rcases d.shape with hl | ⟨es, rfl⟩ | ⟨pfx, es, rfl⟩
    · -- a leaf: always an error
      have herr : setPath (k :: rest) v d = .error .typeError := by
        cases rest <;> cases d <;> first | rfl | exact absurd rfl (leaf_not_dict hl _)
      exact ⟨fun _ => herr, fun h => absurd ⟨[], d, hl, .here _, List.nil_prefix, by simp⟩ h⟩
    · obtain ⟨hn, hp⟩ := hd.inv
      cases rest with
      | nil =>
        refine ⟨?_, fun _ => ⟨dictSet k v es, rfl, plain_dictSet hd (.leaf hv), ?_⟩⟩
        · rintro ⟨π, u, hu, hr, hpre, hne⟩
          exfalso
          cases π with
          | nil => rw [dictReaches_nil] at hr; subst hr; exact leaf_not_dict hu _ rfl
          | cons a b =>
            obtain ⟨e, h'⟩ := List.cons_prefix_cons.1 hpre
            rw [List.prefix_nil] at h'
            subst e; subst h'; exact hne rfl
        · intro π u hu
          cases π with
          | nil =>
            rw [dictReaches_nil, dictReaches_nil]
            constructor
            · rintro rfl; exact absurd rfl (leaf_not_dict hu _)
            · rintro (⟨h, -⟩ | ⟨-, rfl⟩)
              · simp at h
              · exact absurd rfl (leaf_not_dict hu _)
          | cons a b =>
            rw [dictReaches_cons (nodup_dictSet k v hn), dictReaches_cons hn]
            simp only [dictGet_dictSet, List.cons.injEq, List.cons_prefix_cons, List.nil_prefix, and_true]
            by_cases hk : a = k
            · subst hk
              simp only [if_true, Option.some.injEq, exists_eq_left', dictReaches_leaf hv, true_and, not_true, false_and, or_false]
            · simp [hk, Ne.symm hk]
      | cons k2 ks =>
        have hsub := plain_sub hd k
        obtain ⟨ih1, ih2⟩ := ih (by simp) _ hsub
        have hreach : ∀ (π : List Str) (u : PVal), Leaf u →
            (DictReaches ((dictGet es k).getD (.dict [])) π u ↔ DictReaches (.dict es) (k :: π) u) := by
          intro π u hu
          rw [dictReaches_cons hn]
          cases hg : dictGet es k with
          | some w => simp
          | none =>
            simp only [Option.getD_none, reduceCtorEq, false_and, exists_false, iff_false]
            intro h
            cases h with
            | here => exact leaf_not_dict hu _ rfl
            | step h => simp at h
        have hiff : (∃ π u, Leaf u ∧ DictReaches ((dictGet es k).getD (.dict [])) π u ∧ π <+: (k2 :: ks) ∧ π ≠ k2 :: ks) ↔
            (∃ π u, Leaf u ∧ DictReaches (.dict es) π u ∧ π <+: (k :: k2 :: ks) ∧ π ≠ k :: k2 :: ks) := by
          constructor
          · rintro ⟨π, u, hu, hr, hpre, hne⟩
            exact ⟨k :: π, u, hu, (hreach π u hu).1 hr, List.cons_prefix_cons.2 ⟨rfl, hpre⟩, fun e => hne (List.cons.inj e).2⟩
          · rintro ⟨π, u, hu, hr, hpre, hne⟩
            cases π with
            | nil => rw [dictReaches_nil] at hr; subst hr; exact absurd rfl (leaf_not_dict hu _)
            | cons a b =>
              obtain ⟨rfl, h'⟩ := List.cons_prefix_cons.1 hpre
              exact ⟨b, u, hu, (hreach b u hu).2 hr, h', fun e => hne (by rw [e])⟩
        constructor
        · intro hbad
          have := ih1 (hiff.2 hbad)
          simp only [setPath, this, bind, Except.bind]
        · intro hgood
          obtain ⟨es', h1, h2, h3⟩ := ih2 (fun h => hgood (hiff.1 h))
          refine ⟨dictSet k (.dict es') es, ?_, plain_dictSet hd h2, ?_⟩
          · simp only [setPath, h1, bind, Except.bind]
          · intro π u hu
            cases π with
            | nil =>
              rw [dictReaches_nil, dictReaches_nil]
              constructor
              · rintro rfl; exact absurd rfl (leaf_not_dict hu _)
              · rintro (⟨h, -⟩ | ⟨-, rfl⟩)
                · simp at h
                · exact absurd rfl (leaf_not_dict hu _)
            | cons a b =>
              rw [dictReaches_cons (nodup_dictSet k _ hn)]
              simp only [dictGet_dictSet, List.cons.injEq, List.cons_prefix_cons]
              by_cases hk : a = k
              · subst hk
                simp only [if_true, Option.some.injEq, exists_eq_left', true_and, h3 b u hu, hreach b u hu]
              · rw [dictReaches_cons hn]
                simp [hk, Ne.symm hk]
    · exact absurd hd.not_params (by simp [isParams])

/-! ## The whole sequence -/

theorem assigned_nil (path : List Str) (v : PVal) : ¬ Assigned [] path v := by
  rintro ⟨a, n, b, h, -⟩
  simp at h

theorem assigned_concat (pairs : List (Str × PVal)) (name : Str) (w : PVal) (path : List Str) (v : PVal) :
    Assigned (pairs ++ [(name, w)]) path v ↔
      (path = splitOn '.' name ∧ v = w) ∨ (¬ splitOn '.' name <+: path ∧ Assigned pairs path v) := by
  constructor
  · rintro ⟨a, n, b, h, hs, hb⟩
    rcases List.eq_nil_or_concat b with rfl | ⟨b', e, rfl⟩
    · obtain ⟨-, h2⟩ := List.append_inj' h rfl
      simp only [List.cons.injEq, Prod.mk.injEq, and_true] at h2
      obtain ⟨rfl, rfl⟩ := h2
      exact .inl ⟨hs.symm, rfl⟩
    · rw [List.concat_eq_append] at h hb
      have h' : pairs ++ [(name, w)] = (a ++ (n, v) :: b') ++ [e] := by rw [h]; simp
      obtain ⟨h1, h2⟩ := List.append_inj' h' rfl
      simp only [List.cons.injEq, and_true] at h2
      subst h2
      refine .inr ⟨hb (name, w) (by simp), a, n, b', h1, hs, fun e he => hb e (by simp [he])⟩
  · rintro (⟨rfl, rfl⟩ | ⟨hp, a, n, b, rfl, hs, hb⟩)
    · exact ⟨pairs, name, [], rfl, rfl, by simp⟩
    · refine ⟨a, n, b ++ [(name, w)], by simp, hs, ?_⟩
      intro e he
      simp only [List.mem_append, List.mem_singleton] at he
      rcases he with he | rfl
      · exact hb e he
      · exact hp

theorem setPairs_append (xs ys : List (Str × PVal)) (d : PVal) :
    setPairs '.' (xs ++ ys) d = (setPairs '.' xs d).bind fun d' => setPairs '.' ys d' := by
  induction xs generalizing d with
  | nil => rfl
  | cons e xs ih =>
    obtain ⟨k, v⟩ := e
    simp only [List.cons_append, setPairs]
    split
    · rfl
    · simp only [bind, Except.bind]
      cases setPath (splitOn '.' k) v d with
      | error e => rfl
      | ok d' => exact ih d'

/-- No pair has an empty name, and none goes through a leaf. -/
def GoodPairs (pairs : List (Str × PVal)) : Prop :=
  ∀ before name v after, pairs = before ++ (name, v) :: after → name ≠ [] ∧ ¬ ThroughLeaf before name

theorem setPairs_spec (pairs : List (Str × PVal)) (hv : ∀ e ∈ pairs, Leaf e.2) :
    (GoodPairs pairs → ∃ es, setPairs '.' pairs (.dict []) = .ok (.dict es) ∧ (PVal.dict es).Plain ∧
      ∀ path v, Leaf v → (DictReaches (.dict es) path v ↔ Assigned pairs path v)) ∧
    (¬ GoodPairs pairs → ∃ before name v after, pairs = before ++ (name, v) :: after ∧
      ((name = [] ∧ setPairs '.' pairs (.dict []) = .error .runtimeError) ∨
       (ThroughLeaf before name ∧ setPairs '.' pairs (.dict []) = .error .typeError))) := by
  generalize hlen : pairs.length = n
  induction n generalizing pairs with
  | zero =>
    obtain rfl := List.eq_nil_of_length_eq_zero hlen
    refine ⟨fun _ => ⟨[], rfl, plain_empty, ?_⟩, fun h => absurd ?_ h⟩
    · intro path v hl
      refine iff_of_false ?_ (assigned_nil _ _)
      intro h
      cases h with
      | here => exact leaf_not_dict hl _ rfl
      | step h => simp at h
    · intro a b c d h; simp at h
  | succ n ih =>
    rcases List.eq_nil_or_concat pairs with rfl | ⟨init, last, rfl⟩
    · simp at hlen
    rw [List.concat_eq_append] at *
    obtain ⟨name, w⟩ := last
    have hlen' : init.length = n := by simpa using hlen
    obtain ⟨ih1, ih2⟩ := ih init (fun e he => hv e (by simp [he])) hlen'
    have hw : Leaf w := hv (name, w) (by simp)
    have hgood : GoodPairs (init ++ [(name, w)]) ↔ GoodPairs init ∧ name ≠ [] ∧ ¬ ThroughLeaf init name := by
      constructor
      · intro h
        refine ⟨fun a b c d e => h a b c (d ++ [(name, w)]) (by rw [e]; simp), h init name w [] rfl⟩
      · rintro ⟨h1, h2⟩ a b c d e
        rcases List.eq_nil_or_concat d with rfl | ⟨d', x, rfl⟩
        · obtain ⟨e1, e2⟩ := List.append_inj' e rfl
          simp only [List.cons.injEq, Prod.mk.injEq, and_true] at e2
          obtain ⟨rfl, rfl⟩ := e2
          exact e1 ▸ h2
        · rw [List.concat_eq_append] at e
          have e' : init ++ [(name, w)] = (a ++ (b, c) :: d') ++ [x] := by rw [e]; simp
          exact h1 a b c d' (List.append_inj' e' rfl).1
    rw [hgood]
    by_cases hgi : GoodPairs init
    · obtain ⟨es, h1, h2, h3⟩ := ih1 hgi
      have hrun : setPairs '.' (init ++ [(name, w)]) (.dict []) = setPairs '.' [(name, w)] (.dict es) := by
        rw [setPairs_append, h1]; rfl
      rw [hrun]
      obtain ⟨s1, s2⟩ := setPath_spec (splitOn '.' name) (splitOn_ne_nil _ _) w hw _ h2
      have hthrough : (∃ π u, Leaf u ∧ DictReaches (.dict es) π u ∧ π <+: splitOn '.' name ∧ π ≠ splitOn '.' name) ↔ ThroughLeaf init name := by
        constructor
        · rintro ⟨π, u, hu, hr, h⟩; exact ⟨π, u, (h3 π u hu).1 hr, h⟩
        · rintro ⟨π, u, ha, h⟩
          have hu : Leaf u := by
            obtain ⟨a, n, b, rfl, -⟩ := ha
            exact hv (n, u) (by simp)
          exact ⟨π, u, hu, (h3 π u hu).2 ha, h⟩
      constructor
      · rintro ⟨-, hne, hnt⟩
        obtain ⟨es', e1, e2, e3⟩ := s2 (fun h => hnt (hthrough.1 h))
        refine ⟨es', ?_, e2, ?_⟩
        · have : name.isEmpty = false := by cases name <;> simp_all
          simp only [setPairs, this, Bool.false_eq_true, if_false, e1, bind, Except.bind]
        · intro path v hl
          rw [e3 path v hl, assigned_concat, h3 path v hl]
      · intro hbad
        refine ⟨init, name, w, [], rfl, ?_⟩
        by_cases hne : name = []
        · subst hne; exact .inl ⟨rfl, rfl⟩
        · right
          have hnt : ThroughLeaf init name := by
            by_contra h
            exact hbad ⟨hgi, hne, h⟩
          have : name.isEmpty = false := by cases name <;> simp_all
          exact ⟨hnt, by simp only [setPairs, this, Bool.false_eq_true, if_false, s1 (hthrough.2 hnt), bind, Except.bind]⟩
    · refine ⟨fun h => absurd h.1 hgi, fun _ => ?_⟩
      obtain ⟨a, b, c, d, e, h⟩ := ih2 hgi
      refine ⟨a, b, c, d ++ [(name, w)], by rw [e]; simp, ?_⟩
      rw [setPairs_append]
      rcases h with ⟨h1, h2⟩ | ⟨h1, h2⟩
      · exact .inl ⟨h1, by rw [h2]; rfl⟩
      · exact .inr ⟨h1, by rw [h2]; rfl⟩

theorem setPath_dotFree (path : List Str) (hp : ∀ k ∈ path, '.' ∉ k) (v d d' : PVal) (hv : Leaf v) (hd : d.DotFree) (hpl : d.Plain)
    (h : setPath path v d = .ok d') : d'.DotFree := by
  induction path generalizing d d' with
  | nil => cases d <;> simp [setPath] at h
  | cons k rest ih =>
    rcases d.shape with hl | ⟨es, rfl⟩ | ⟨pfx, es, rfl⟩
    · cases rest <;> cases d <;> first | (simp [setPath] at h; done) | exact absurd rfl (leaf_not_dict hl _)
    · obtain ⟨hd1, hd2⟩ := hd.inv
      obtain ⟨hn, hpp⟩ := hpl.inv
      have hset : ∀ x : PVal, x.DotFree → (PVal.dict (dictSet k x es)).DotFree := by
        intro x hx
        refine .dict ?_ ?_
        · intro e he
          have : e.1 ∈ (dictSet k x es).map (·.1) := List.mem_map.2 ⟨e, he, rfl⟩
          rw [keys_dictSet] at this
          rcases this with h' | h'
          · rw [h']; exact hp k (List.mem_cons_self ..)
          · obtain ⟨e', he', h''⟩ := List.mem_map.1 h'
            exact h'' ▸ hd1 e' he'
        · rintro ⟨a, b⟩ he
          rw [← dictGet_iff (nodup_dictSet k x hn), dictGet_dictSet] at he
          split at he
          · simp only [Option.some.injEq] at he; exact he ▸ hx
          · exact hd2 _ ((dictGet_iff hn _ _).1 he)
      cases rest with
      | nil =>
        simp only [setPath, Except.ok.injEq] at h
        subst h
        exact hset v (.leaf hv.2)
      | cons k2 ks =>
        simp only [setPath, bind, Except.bind] at h
        cases hs : setPath (k2 :: ks) v ((dictGet es k).getD (.dict [])) with
        | error e => simp [hs] at h
        | ok sub =>
          simp only [hs, Except.ok.injEq] at h
          subst h
          refine hset sub (ih (fun a ha => hp a (List.mem_cons_of_mem _ ha)) _ _ ?_ (plain_sub hpl k) hs)
          cases hg : dictGet es k with
          | none => exact .dict (by simp) (by simp)
          | some u => exact hd2 _ ((dictGet_iff hn _ _).1 hg)
    · exact absurd hpl.not_params (by simp [isParams])

theorem setPairs_dotFree (pairs : List (Str × PVal)) (hv : ∀ e ∈ pairs, Leaf e.2) (d d' : PVal) (hd : d.DotFree) (hpl : d.Plain)
    (h : setPairs '.' pairs d = .ok d') : d'.DotFree := by
  induction pairs generalizing d with
  | nil => simp only [setPairs, Except.ok.injEq] at h; exact h ▸ hd
  | cons e pairs ih =>
    obtain ⟨k, v⟩ := e
    simp only [setPairs] at h
    split at h
    · simp at h
    · simp only [bind, Except.bind] at h
      cases hs : setPath (splitOn '.' k) v d with
      | error e => simp [hs] at h
      | ok d1 =>
        simp only [hs] at h
        have hl := hv (k, v) (List.mem_cons_self ..)
        have hspec := setPath_spec (splitOn '.' k) (splitOn_ne_nil _ _) v hl d hpl
        have hp1 : d1.Plain := by
          by_cases hb : ∃ π u, Leaf u ∧ DictReaches d π u ∧ π <+: splitOn '.' k ∧ π ≠ splitOn '.' k
          · rw [hspec.1 hb] at hs; simp at hs
          · obtain ⟨es', e1, e2, -⟩ := hspec.2 hb
            rw [e1, Except.ok.injEq] at hs
            exact hs ▸ e2
        exact ih (fun e he => hv e (List.mem_cons_of_mem _ he)) d1 (setPath_dotFree _ (splitOn_no_sep _ _) v d d1 hl hd hpl hs) hp1 h

/-- For pairs of names and leaf values: the call succeeds iff no name is empty and no name goes through a leaf; the leaves of
the result are then exactly what the assignments leave behind. -/
theorem C44_result (pairs : List (Str × PVal)) (hv : ∀ e ∈ pairs, Leaf e.2) :
    ((∃ p, fromKeyValuePairs pairs = .ok p) ↔ GoodPairs pairs) ∧
    ∀ p, fromKeyValuePairs pairs = .ok p → p.Loaded ∧
      ∀ path v, Leaf v → (p.toVal.Reaches path v ↔ Assigned pairs path v) := by
  obtain ⟨h1, h2⟩ := setPairs_spec pairs hv
  by_cases hg : GoodPairs pairs
  · obtain ⟨es, e1, e2, e3⟩ := h1 hg
    have hd := setPairs_dotFree pairs hv (.dict []) _ (.dict (by simp) (by simp)) plain_empty e1
    obtain ⟨p, hp, -, hc, -⟩ := fromMapping_ok (pfx := []) e2 hd
    have hk : fromKeyValuePairs pairs = .ok p := by
      simp only [fromKeyValuePairs, e1, bind, Except.bind]; exact hp
    refine ⟨⟨fun _ => hg, fun _ => ⟨p, hk⟩⟩, ?_⟩
    intro q hq
    rw [hk, Except.ok.injEq] at hq
    subst hq
    refine ⟨⟨es, e2, hp⟩, fun path v hl => ?_⟩
    rw [C42_leaves es [] e2 p hp path v hl, e3 path v hl]
  · obtain ⟨a, b, c, d, e, h⟩ := h2 hg
    have herr : ∃ x, fromKeyValuePairs pairs = .error x := by
      rcases h with ⟨-, h⟩ | ⟨-, h⟩
      · exact ⟨.runtimeError, by simp only [fromKeyValuePairs, h, bind, Except.bind]⟩
      · exact ⟨.typeError, by simp only [fromKeyValuePairs, h, bind, Except.bind]⟩
    obtain ⟨x, hx⟩ := herr
    exact ⟨⟨fun ⟨p, hp⟩ => by rw [hx] at hp; simp at hp, fun h => absurd h hg⟩, fun p hp => by rw [hx] at hp; simp at hp⟩

/-- When it fails: `RuntimeError` because of an empty name, or `TypeError` because a name goes through a leaf. -/
theorem C44_failure (pairs : List (Str × PVal)) (hv : ∀ e ∈ pairs, Leaf e.2) (x : Exc) (h : fromKeyValuePairs pairs = .error x) :
    ∃ before name v after, pairs = before ++ (name, v) :: after ∧
      ((name = [] ∧ x = .runtimeError) ∨ (ThroughLeaf before name ∧ x = .typeError)) := by
  have hg : ¬ GoodPairs pairs := fun hg => by
    obtain ⟨p, hp⟩ := (C44_result pairs hv).1.2 hg
    rw [h] at hp; simp at hp
  obtain ⟨a, b, c, d, e, h'⟩ := (setPairs_spec pairs hv).2 hg
  refine ⟨a, b, c, d, e, ?_⟩
  rcases h' with ⟨h1, h2⟩ | ⟨h1, h2⟩ <;> simp only [fromKeyValuePairs, h2, bind, Except.bind, Except.error.injEq] at h
  · exact .inl ⟨h1, h.symm⟩
  · exact .inr ⟨h1, h.symm⟩

/-- Rebuilding from `namespaced_items` gives back exactly the leaves, provided no top-level parameter has the empty name. -/
theorem C44_roundtrip (p : Params) (hp : p.Loaded) (hne : ¬ ∃ v, ([], v) ∈ p.namespacedItems) :
    ∃ q, fromKeyValuePairs p.namespacedItems = .ok q ∧ q.Loaded ∧
      ∀ path v, Leaf v → (q.toVal.Reaches path v ↔ p.toVal.Reaches path v) := by
  have hc := (loaded_iff p).1 hp
  have hnd := C43_each_once p hp
  have hleaf : ∀ e ∈ p.namespacedItems, Leaf e.2 := by
    rintro ⟨n, v⟩ he
    obtain ⟨hr, hl⟩ := (C43_items p hp n v).1 he
    exact ⟨hl, (hc.tree.reaches hr).not_mapping⟩
  -- no listed name is a proper prefix of another, and none is repeated
  have hprefix : ∀ n v n' v', (n, v) ∈ p.namespacedItems → (n', v') ∈ p.namespacedItems →
      splitOn '.' n <+: splitOn '.' n' → splitOn '.' n = splitOn '.' n' := by
    intro n v n' v' h1 h2 ⟨t, ht⟩
    obtain ⟨hr, hl⟩ := (C43_items p hp n v).1 h1
    obtain ⟨hr', hl'⟩ := (C43_items p hp n' v').1 h2
    rw [← ht] at hr'
    obtain ⟨u, ha, hb⟩ := reaches_append.1 hr'
    rw [← reaches_unique hc.tree.wf hr ha] at hb
    cases hb with
    | here => rw [← ht, List.append_nil]
    | step => simp [isParams] at hl
  have hsplit_inj : ∀ n n' : Str, splitOn '.' n = splitOn '.' n' → n = n' := by
    intro n n' h
    rw [← joinWith_splitOn '.' n, h, joinWith_splitOn]
  have hassigned : ∀ (pairs : List (Str × PVal)), (pairs.map (·.1)).Nodup → (∀ e ∈ pairs, e ∈ p.namespacedItems) →
      ∀ path v, Assigned pairs path v ↔ ∃ n, (n, v) ∈ pairs ∧ splitOn '.' n = path := by
    intro pairs hn hsub path v
    constructor
    · rintro ⟨a, n, b, rfl, hs, -⟩; exact ⟨n, by simp, hs⟩
    · rintro ⟨n, hm, hs⟩
      obtain ⟨a, b, rfl⟩ := List.append_of_mem hm
      refine ⟨a, n, b, rfl, hs, ?_⟩
      rintro ⟨n', v'⟩ he hpre
      rw [← hs] at hpre
      have := hprefix n' v' n v (hsub _ (by simp [he])) (hsub _ (by simp)) hpre
      obtain rfl := hsplit_inj _ _ this
      simp only [List.map_append, List.map_cons] at hn
      have := (List.nodup_append.1 hn).2.1
      rw [List.nodup_cons] at this
      exact this.1 (List.mem_map.2 ⟨_, he, rfl⟩)
  have hgood : GoodPairs p.namespacedItems := by
    intro a n v b hab
    refine ⟨?_, ?_⟩
    · rintro rfl; exact hne ⟨v, by rw [hab]; simp⟩
    · rintro ⟨path, u, ha, hpre, hne'⟩
      obtain ⟨x, m, y, rfl, hs, -⟩ := ha
      refine hne' ?_
      rw [← hs] at hpre ⊢
      exact hprefix m u n v (by rw [hab]; simp) (by rw [hab]; simp) hpre
  obtain ⟨q, hq⟩ := (C44_result _ hleaf).1.2 hgood
  obtain ⟨hql, hqr⟩ := (C44_result _ hleaf).2 q hq
  refine ⟨q, hq, hql, fun path v hl => ?_⟩
  rw [hqr path v hl, hassigned _ hnd (fun e he => he)]
  constructor
  · rintro ⟨n, hm, rfl⟩; exact ((C43_items p hp n v).1 hm).1
  · intro hr
    have hne : path ≠ [] := by
      rintro rfl
      rw [reaches_nil] at hr
      exact leaf_not_params hl _ _ hr
    have hs := splitOn_joinWith hne (reaches_dotfree hc.tree.wf hr)
    exact ⟨joinWith '.' path, (C43_items p hp _ v).2 ⟨hs.symm ▸ hr, hl.1⟩, hs⟩

/-! ## The hypotheses are met -/

/-- `[("a.b", 1), ("c", 2), ("a", 3)]`: the last pair replaces the namespace `a`. -/
example : fromKeyValuePairs [("a.b".toList, .int 1), (['c'], .int 2), (['a'], .int 3)] =
    .ok ⟨[], [(['a'], .int 3), (['c'], .int 2)]⟩ := by rfl
/-- `[("a", 1), ("a.b", 2)]` goes through a leaf. -/
example : fromKeyValuePairs [(['a'], .int 1), ("a.b".toList, .int 2)] = .error .typeError := by rfl
example : ¬ ∃ v, (([] : Str), v) ∈ exampleParams.namespacedItems := by
  rintro ⟨v, h⟩
  simp [exampleParams, namespacedItems, itemsOfEntries, itemsOfEntry, itemsOfVal, prefixString, joinWith] at h
/-- An empty name. -/
example : fromKeyValuePairs [([], .int 1)] = .error .runtimeError := by rfl
/-- The empty-name proviso of the round trip is needed: `{"": 1}` is listed but cannot be rebuilt. -/
theorem C44_empty_name_counterexample :
    ∃ p : Params, p.Loaded ∧ fromKeyValuePairs p.namespacedItems = .error .runtimeError :=
  ⟨⟨[], [([], .int 1)]⟩, ⟨[([], .int 1)], .dict (by simp) (by simpa using .leaf ⟨rfl, rfl⟩), rfl⟩, rfl⟩

end Params
end Vista
