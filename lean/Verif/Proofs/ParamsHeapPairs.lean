import Verif.Proofs.ParamsHeap

/-!
# `Parameters.from_key_value_pairs` on the heap: lemmas
-/
set_option linter.unusedSectionVars false
set_option linter.unusedSimpArgs false
namespace Vista
namespace ParamsHeap

theorem modify_same {h : Heap} {a : Nat} {es : HEntries} (ha : h[a]? = some es) (f : HEntries → HEntries) : (h.modify a f)[a]? = some (f es) := by
  rw [List.getElem?_modify, ha]; simp

theorem modify_ne {h : Heap} {a b : Nat} (hne : a ≠ b) (f : HEntries → HEntries) : (h.modify a f)[b]? = h[b]? := by
  rw [List.getElem?_modify]; simp [hne]

theorem below_of_split {sep : Char} {s name : Str} {k : Str} {ks : List Str} (h : splitOn sep s = splitOn sep name ++ k :: ks) :
    ∃ tail, s = name ++ sep :: tail := by
  refine ⟨joinWith sep (k :: ks), ?_⟩
  rw [← joinWith_splitOn sep s, h, joinWith_append (splitOn_ne_nil _ _) (by simp), joinWith_splitOn]

theorem shows_det {h : Heap} {v : HVal} {t : PVal} (hs : Shows h v t) : ∀ t', Shows h v t' → t = t' := by
  have lists : ∀ (es : HEntries) (ts : Entries), List.Forall₂ (fun e t => e.1 = t.1 ∧ Shows h e.2 t.2 ∧ ∀ t', Shows h e.2 t' → t.2 = t') es ts →
      ∀ ts', ShowsE h es ts' → ts = ts' := by
    intro es ts hh
    induction hh with
    | nil => intro ts' h'; cases h'; rfl
    | cons h1 _ ih =>
      intro ts' h'
      cases h' with
      | cons h2 h3 =>
        rw [ih _ h3]
        congr 1
        exact Prod.ext (h1.1.symm.trans h2.1) (h1.2.2 _ h2.2)
  refine Shows.ind (P := fun v t => ∀ t', Shows h v t' → t = t') ?_ ?_ ?_ hs
  · intro v _ t' h'; cases h'; rfl
  · intro a es ts ha _ ih t' h'
    obtain ⟨es', ts', ha', rfl, hse⟩ := shows_ref_inv h'
    rw [ha] at ha'; cases ha'
    rw [lists es ts ih ts' hse]
  · intro pfx es ts _ ih t' h'
    obtain ⟨ts', rfl, hse⟩ := shows_params_inv h'
    rw [lists es ts ih ts' hse]

theorem shows_prefix {h h' : Heap} {v : HVal} {t : PVal} (hs : Shows h v t) (hp : h <+: h') : Shows h' v t := by
  obtain ⟨x, rfl⟩ := hp
  exact shows_frame hs fun a ha => List.getElem?_append_left ha

theorem getElem?_of_prefix {h h' : Heap} (hp : h <+: h') {a : Nat} {es : HEntries} (ha : h[a]? = some es) : h'[a]? = some es := by
  obtain ⟨x, rfl⟩ := hp
  have : a < h.length := by
    by_contra hc
    rw [List.getElem?_eq_none (Nat.le_of_not_lt hc)] at ha; simp at ha
  rw [List.getElem?_append_left this, ha]

/-- Where the dictionaries made by `from_key_value_pairs` are: by the path from `ret`. -/
abbrev Own := List Str → Option Nat

/-- A value given by the caller. -/
structure Given (h0 : Heap) (G : List Str → Prop) (q : List Str) (x : HVal) : Prop where
  shows : ∃ t, Shows h0 x t
  frozen : Frozen h0 x
  below : ∀ b, x = .ref b → G q

/-- Invariant of the loop over the pairs. -/
structure Inv (h0 h : Heap) (own : Own) (G : List Str → Prop) : Prop where
  pre : h0 <+: h
  inj : ∀ p q a, own p = some a → own q = some a → p = q
  cell : ∀ p a, own p = some a → h0.length ≤ a ∧ ∃ es, h[a]? = some es ∧ (es.map (·.1)).Nodup ∧
    ∀ k x, dictGet es k = some x → (∃ b, x = .ref b ∧ own (p ++ [k]) = some b) ∨ (own (p ++ [k]) = none ∧ Given h0 G (p ++ [k]) x)

variable {h0 h h' : Heap} {own : Own} {G : List Str → Prop}

/-- The part of the dictionaries below `q` is as before. -/
theorem Inv.frame (I : Inv h0 h own G) (hp : h0 <+: h') {v : HVal} {t : PVal} (hs : Shows h v t) :
    ∀ q, v = .ref (own q |>.getD 0) → (own q).isSome → (∀ s c, own (q ++ s) = some c → h'[c]? = h[c]?) → Shows h' v t := by
  refine Shows.ind (P := fun v t => ∀ q, v = .ref (own q |>.getD 0) → (own q).isSome → (∀ s c, own (q ++ s) = some c → h'[c]? = h[c]?) → Shows h' v t)
    ?_ ?_ ?_ hs
  · intro v hl q hv; cases hv
  · intro a es ts ha hse ih q hv hq hh
    obtain ⟨a', ha'⟩ := Option.isSome_iff_exists.1 hq
    rw [ha'] at hv
    cases hv
    simp only [Option.getD_some] at *
    obtain ⟨-, es', he', hnd, hent⟩ := I.cell q a' ha'
    rw [ha] at he'; cases he'
    refine shows_ref (by rw [hh [] a' (by simpa using ha'), ha]) (forall₂_imp ih fun e he t hx => ⟨hx.1, ?_⟩)
    rcases hent e.1 e.2 ((dictGet_iff hnd _ _).2 he) with ⟨b, hb, ho⟩ | ⟨-, hg⟩
    · refine hx.2.2 (q ++ [e.1]) (by rw [ho]; exact hb) (by rw [ho]; rfl) fun s c hc => ?_
      exact hh (e.1 :: s) c (by simpa using hc)
    · obtain ⟨t', ht'⟩ := hg.shows
      have := shows_det hx.2.1 t' (shows_prefix ht' I.pre)
      rw [this]
      exact shows_prefix ht' hp
  · intro pfx es ts _ _ q hv; cases hv

theorem Inv.frame' (I : Inv h0 h own G) (hp : h0 <+: h') {q : List Str} {b : Nat} {t : PVal} (ho : own q = some b) (hs : Shows h (.ref b) t)
    (hh : ∀ s c, own (q ++ s) = some c → h'[c]? = h[c]?) : Shows h' (.ref b) t :=
  I.frame hp hs q (by rw [ho]; rfl) (by rw [ho]; rfl) hh

/-- An item of a dictionary that was made. -/
theorem Inv.entry (I : Inv h0 h own G) (hp : h0 <+: h') {p : List Str} {a : Nat} (ho : own p = some a) {es : HEntries} (ha : h[a]? = some es)
    {k : Str} {x : HVal} {t : PVal} (hk : (k, x) ∈ es) (hs : Shows h x t)
    (hh : ∀ s c, own (p ++ k :: s) = some c → h'[c]? = h[c]?) : Shows h' x t := by
  obtain ⟨-, es', he', hnd, hent⟩ := I.cell p a ho
  rw [ha] at he'; cases he'
  rcases hent k x ((dictGet_iff hnd _ _).2 hk) with ⟨b, rfl, hb⟩ | ⟨-, hg⟩
  · exact I.frame' hp hb hs fun s c hc => hh s c (by simpa using hc)
  · obtain ⟨t', ht'⟩ := hg.shows
    rw [shows_det hs t' (shows_prefix ht' I.pre)]
    exact shows_prefix ht' hp

theorem relE_replace {R R' : HVal → PVal → Prop} {es : HEntries} {ts : Entries} (hr : RelE R es ts) (hnd : (es.map (·.1)).Nodup) {k : Str} {c : HVal}
    {t' : PVal} (hk : dictGet es k = some c) (hc : R' c t') (hh : ∀ k2 x t, k2 ≠ k → (k2, x) ∈ es → R x t → R' x t) :
    RelE R' es (dictSet k t' ts) := by
  induction hr with
  | nil => simp at hk
  | @cons e t es ts h1 h2 ih =>
    obtain ⟨k1, x⟩ := e
    obtain ⟨k2, t⟩ := t
    obtain ⟨rfl, h1⟩ := h1
    simp only at h1
    rw [dictGet_cons] at hk
    simp only [List.map_cons, List.nodup_cons] at hnd
    unfold dictSet
    by_cases hkk : k = k1
    · subst hkk
      simp only [if_true, Option.some.injEq] at hk ⊢
      subst hk
      refine .cons ⟨rfl, hc⟩ (forall₂_imp h2 fun e he t hx => ⟨hx.1, hh e.1 e.2 t.2 ?_ (List.mem_cons_of_mem _ he) hx.2⟩)
      rintro rfl
      exact hnd.1 (List.mem_map_of_mem he)
    · rw [if_neg hkk] at hk
      rw [if_neg (Ne.symm hkk)]
      exact .cons ⟨rfl, hh k1 x t (Ne.symm hkk) (List.mem_cons_self ..) h1⟩
        (ih hnd.2 hk fun k2 x t hne hm => hh k2 x t hne (List.mem_cons_of_mem _ hm))

theorem relE_get {R : HVal → PVal → Prop} {es : HEntries} {ts : Entries} (hr : RelE R es ts) (k : Str) :
    (dictGet es k = none ∧ dictGet ts k = none) ∨ ∃ x t, dictGet es k = some x ∧ dictGet ts k = some t ∧ R x t := by
  induction hr with
  | nil => exact .inl ⟨rfl, rfl⟩
  | @cons e t es ts h1 h2 ih =>
    obtain ⟨k1, x⟩ := e
    obtain ⟨k2, t⟩ := t
    obtain ⟨rfl, h1⟩ := h1
    simp only at h1
    rw [dictGet_cons, dictGet_cons]
    by_cases hkk : k = k1
    · simp only [hkk, if_true]; exact .inr ⟨x, t, rfl, rfl, h1⟩
    · simp only [hkk, if_false]; exact ih

theorem Inv.lt (I : Inv h0 h own G) {p : List Str} {a : Nat} (ho : own p = some a) : a < h.length := by
  obtain ⟨-, es, he, -⟩ := I.cell p a ho
  by_contra hc
  rw [List.getElem?_eq_none (Nat.le_of_not_lt hc)] at he; simp at he

theorem prefix_modify (hp : h0 <+: h) {a : Nat} (ha : h0.length ≤ a) (f : HEntries → HEntries) : h0 <+: h.modify a f := by
  obtain ⟨x, rfl⟩ := hp
  refine ⟨x.modify (a - h0.length) f, ?_⟩
  apply List.ext_getElem?
  intro i
  by_cases hi : i < h0.length
  · rw [modify_ne (by omega), List.getElem?_append_left hi, List.getElem?_append_left hi]
  · rw [List.getElem?_append_right (by omega), List.getElem?_modify, List.getElem?_modify, List.getElem?_append_right (by omega)]
    by_cases h1 : a = i
    · have : a - h0.length = i - h0.length := by omega
      simp [h1]
    · have : ¬ a - h0.length = i - h0.length := by omega
      simp [h1, this]

theorem not_prefix_self_snoc {p : List Str} {k : Str} : ¬ p ++ [k] <+: p := fun h => absurd h.length_le (by rw [List.length_append]; simp)

theorem not_prefix_snoc {p : List Str} {k k' : Str} (h : k' ≠ k) (s : List Str) : ¬ p ++ [k] <+: p ++ k' :: s := by
  rw [List.prefix_append_right_inj]
  rintro ⟨x, hx⟩
  simp only [List.singleton_append, List.cons.injEq] at hx
  exact h hx.1.symm

/-- A step: the given value is put at `p ++ [k]`. -/
theorem Inv.put (I : Inv h0 h own G) {p : List Str} {a : Nat} (ho : own p = some a) (k : Str) (v : HVal) {G' : List Str → Prop} (hG : ∀ q, G q → G' q)
    (hv : Given h0 G' (p ++ [k]) v) :
    Inv h0 (h.modify a (dictSet k v)) (fun q => if p ++ [k] <+: q then none else own q) G' := by
  have hcell := I.cell p a ho
  refine ⟨prefix_modify I.pre hcell.1 _, ?_, ?_⟩
  · intro q q' b hq hq'
    split at hq
    · simp at hq
    · split at hq'
      · simp at hq'
      · exact I.inj _ _ _ hq hq'
  · intro q b hq
    by_cases hpq : p ++ [k] <+: q
    · simp [hpq] at hq
    rw [if_neg hpq] at hq
    obtain ⟨hb, es, he, hnd, hent⟩ := I.cell q b hq
    refine ⟨hb, ?_⟩
    have weaken : ∀ k' x, dictGet es k' = some x → ¬ p ++ [k] <+: q ++ [k'] →
        (∃ c, x = .ref c ∧ (if p ++ [k] <+: q ++ [k'] then none else own (q ++ [k'])) = some c) ∨
        ((if p ++ [k] <+: q ++ [k'] then none else own (q ++ [k'])) = none ∧ Given h0 G' (q ++ [k']) x) := by
      intro k' x hx hn
      rw [if_neg hn]
      rcases hent k' x hx with hc | ⟨h1, h2⟩
      · exact .inl hc
      · exact .inr ⟨h1, h2.shows, h2.frozen, fun b hb => hG _ (h2.below b hb)⟩
    by_cases hqp : q = p
    · subst hqp
      rw [ho] at hq; cases hq
      refine ⟨dictSet k v es, modify_same he _, nodup_dictSet k v hnd, ?_⟩
      intro k' x hx
      rw [dictGet_dictSet] at hx
      by_cases hkk : k' = k
      · subst hkk
        simp only [if_true, Option.some.injEq] at hx
        subst hx
        right
        exact ⟨by rw [if_pos (List.prefix_refl _)], hv⟩
      · rw [if_neg hkk] at hx
        exact weaken k' x hx (not_prefix_snoc hkk [])
    · have hne : a ≠ b := fun hab => hqp (I.inj _ _ _ hq (hab ▸ ho))
      refine ⟨es, by rw [modify_ne hne]; exact he, hnd, ?_⟩
      intro k' x hx
      refine weaken k' x hx fun hpre => ?_
      rcases List.prefix_concat_iff.1 hpre with h1 | h1
      · exact hqp (List.append_inj_left' h1 rfl).symm
      · exact hpq h1

/-- A step: a new dictionary is put at `p ++ [k]`. -/
theorem Inv.grow (I : Inv h0 h own G) {p : List Str} {a : Nat} (ho : own p = some a) (k : Str) :
    Inv h0 (h.modify a (dictSet k (.ref h.length)) ++ [[]])
      (fun q => if q = p ++ [k] then some h.length else if p ++ [k] <+: q then none else own q) G := by
  have hcell := I.cell p a ho
  have hlen : ∀ f : HEntries → HEntries, (h.modify a f).length = h.length := fun f => by simp
  refine ⟨(prefix_modify I.pre hcell.1 _).trans (List.prefix_append _ _), ?_, ?_⟩
  · intro q q' b hq hq'
    by_cases h1 : q = p ++ [k] <;> by_cases h2 : q' = p ++ [k]
    · rw [h1, h2]
    · rw [if_pos h1] at hq
      rw [if_neg h2] at hq'
      cases hq
      split at hq'
      · simp at hq'
      · exact absurd (I.lt hq') (by omega)
    · rw [if_neg h1] at hq
      rw [if_pos h2] at hq'
      cases hq'
      split at hq
      · simp at hq
      · exact absurd (I.lt hq) (by omega)
    · rw [if_neg h1] at hq
      rw [if_neg h2] at hq'
      split at hq
      · simp at hq
      · split at hq'
        · simp at hq'
        · exact I.inj _ _ _ hq hq'
  · intro q b hq
    by_cases hq1 : q = p ++ [k]
    · rw [if_pos hq1] at hq
      cases hq
      refine ⟨I.pre.length_le, [], by rw [List.getElem?_append_right (by simp)]; simp, by simp, by simp⟩
    rw [if_neg hq1] at hq
    by_cases hpq : p ++ [k] <+: q
    · simp [hpq] at hq
    rw [if_neg hpq] at hq
    obtain ⟨hb, es, he, hnd, hent⟩ := I.cell q b hq
    have hlt := I.lt hq
    refine ⟨hb, ?_⟩
    have weaken : ∀ k' x, dictGet es k' = some x → ¬ p ++ [k] <+: q ++ [k'] →
        (∃ c, x = .ref c ∧ (if q ++ [k'] = p ++ [k] then some h.length else if p ++ [k] <+: q ++ [k'] then none else own (q ++ [k'])) = some c) ∨
        ((if q ++ [k'] = p ++ [k] then some h.length else if p ++ [k] <+: q ++ [k'] then none else own (q ++ [k'])) = none ∧ Given h0 G (q ++ [k']) x) := by
      intro k' x hx hn
      rw [if_neg (fun hc : q ++ [k'] = p ++ [k] => hn (by rw [hc]; exact List.prefix_refl _)), if_neg hn]
      exact hent k' x hx
    by_cases hqp : q = p
    · subst hqp
      rw [ho] at hq; cases hq
      refine ⟨dictSet k (.ref h.length) es, ?_, nodup_dictSet k _ hnd, ?_⟩
      · rw [List.getElem?_append_left (by simpa using hlt), modify_same he]
      intro k' x hx
      rw [dictGet_dictSet] at hx
      by_cases hkk : k' = k
      · subst hkk
        simp only [if_true, Option.some.injEq] at hx
        subst hx
        left
        exact ⟨_, rfl, by rw [if_pos rfl]⟩
      · rw [if_neg hkk] at hx
        exact weaken k' x hx (not_prefix_snoc hkk [])
    · have hne : a ≠ b := fun hab => hqp (I.inj _ _ _ hq (hab ▸ ho))
      refine ⟨es, ?_, hnd, ?_⟩
      · rw [List.getElem?_append_left (by simpa using hlt), modify_ne hne]; exact he
      intro k' x hx
      refine weaken k' x hx fun hpre => ?_
      rcases List.prefix_concat_iff.1 hpre with h1 | h1
      · exact hqp (List.append_inj_left' h1 rfl).symm
      · exact hpq h1

/-- One pair. -/
theorem setPath_spec {v : HVal} {tv : PVal} (hv : Shows h0 v tv) (hf : Frozen h0 v) (parts : List Str) :
    ∀ {h : Heap} {own : Own} {p : List Str} {a : Nat} {ts : Entries}, Inv h0 h own G → own p = some a → parts ≠ [] →
    (∀ g k ks, G g → p ++ parts ≠ g ++ k :: ks) → Shows h (.ref a) (.dict ts) →
    (∃ e, Params.setPath parts tv (.dict ts) = .error e ∧ (setPath v (.ref a) parts h).1 = .error e ∧ h0 <+: (setPath v (.ref a) parts h).2) ∨
    ∃ ts' own', Params.setPath parts tv (.dict ts) = .ok (.dict ts') ∧ (setPath v (.ref a) parts h).1 = .ok () ∧
      Inv h0 (setPath v (.ref a) parts h).2 own' (fun q => G q ∨ ((∃ b, v = .ref b) ∧ q = p ++ parts)) ∧
      Shows (setPath v (.ref a) parts h).2 (.ref a) (.dict ts') ∧ own' p = some a ∧
      ∀ q b, own q = some b → ¬ p <+: q → (setPath v (.ref a) parts h).2[b]? = h[b]? ∧ own' q = some b := by
  induction parts with
  | nil => intro h own p a ts _ _ hne; exact absurd rfl hne
  | cons k ks ih =>
    intro h own p a ts I ho _ hG hs
    obtain ⟨es, ts0, ha, heq, hse⟩ := shows_ref_inv hs
    cases heq
    obtain ⟨hge, es', he', hnd, hent⟩ := I.cell p a ho
    rw [ha] at he'; cases he'
    have hgetD : h.getD a [] = es := by rw [List.getD_eq_getElem?_getD, ha]; rfl
    cases ks with
    | nil =>
      right
      refine ⟨dictSet k tv ts, fun q => if p ++ [k] <+: q then none else own q, rfl, rfl, ?_, ?_, ?_, ?_⟩
      · exact I.put ho k v (fun q hq => .inl hq) ⟨⟨tv, hv⟩, hf, fun b hb => .inr ⟨⟨b, hb⟩, rfl⟩⟩
      · simp only [setPath]
        have hp : h0 <+: h.modify a (dictSet k v) := prefix_modify I.pre hge _
        refine shows_ref (modify_same ha _) (relE_dictSet (R := Shows (h.modify a (dictSet k v))) ?_ (shows_prefix hv hp))
        refine forall₂_imp hse fun e he t hx => ⟨hx.1, I.entry hp ho ha (k := e.1) he hx.2 fun s c hc => ?_⟩
        refine modify_ne ?_ _
        rintro rfl
        exact absurd (I.inj _ _ _ hc ho) (fun h => by simp at h)
      · simp only; rw [if_neg not_prefix_self_snoc]; exact ho
      · intro q b hq hpq
        simp only [setPath]
        refine ⟨?_, ?_⟩
        · refine modify_ne ?_ _
          rintro rfl
          exact hpq (I.inj _ _ _ ho hq ▸ List.prefix_refl _)
        · rw [if_neg (fun hc => hpq ((List.prefix_append _ _).trans hc))]; exact hq
    | cons k' ks =>
      have hassoc : p ++ [k] ++ k' :: ks = p ++ k :: k' :: ks := by simp
      rcases relE_get hse k with ⟨g1, g2⟩ | ⟨c, tc, g1, g2, hc⟩
      · -- a new dictionary
        have I1 := I.grow ho k
        have hn1 : (h.modify a (dictSet k (.ref h.length)) ++ [[]])[h.length]? = some [] := by
          rw [List.getElem?_append_right (by simp)]; simp
        simp only [setPath, hgetD, g1]
        generalize hh1 : h.modify a (dictSet k (.ref h.length)) ++ [[]] = h1 at *
        rcases ih I1 (p := p ++ [k]) (a := h.length) (ts := []) (by simp) (by simp) (by rw [hassoc]; exact hG) (shows_ref hn1 .nil) with
          ⟨e, e1, e2, e3⟩ | ⟨ts', own', e1, e2, e3, e4, e5, e6⟩
        · left
          refine ⟨e, ?_, e2, e3⟩
          simp only [Params.setPath, g2, Option.getD_none, e1, bind, Except.bind]
        · right
          have hown1 : ∀ q, ¬ p ++ [k] <+: q → (if q = p ++ [k] then some h.length else if p ++ [k] <+: q then none else own q) = own q := by
            intro q hq
            rw [if_neg (fun hc : q = p ++ [k] => hq (by rw [hc]; exact List.prefix_refl _)), if_neg hq]
          have hsame : ∀ b, b < h.length → a ≠ b → h1[b]? = h[b]? := by
            intro b hb hne
            rw [← hh1, List.getElem?_append_left (by simpa using hb), modify_ne hne]
          refine ⟨dictSet k (.dict ts') ts, own', ?_, e2, ?_, ?_, ?_, ?_⟩
          · simp only [Params.setPath, g2, Option.getD_none, e1, bind, Except.bind]
          · rw [hassoc] at e3; exact e3
          · have hpa := e6 p a (by rw [hown1 p not_prefix_self_snoc]; exact ho) not_prefix_self_snoc
            have ha1 : h1[a]? = some (dictSet k (.ref h.length) es) := by
              rw [← hh1, List.getElem?_append_left (by simpa using I.lt ho), modify_same ha]
            refine shows_ref (by rw [hpa.1, ha1]) (relE_dictSet (R := Shows _) ?_ e4)
            refine forall₂_imp hse fun e he t hx => ⟨hx.1, ?_⟩
            have hek : e.1 ≠ k := by
              intro hc
              have := (dictGet_iff hnd _ _).2 he
              rw [hc, g1] at this; simp at this
            refine I.entry e3.pre ho ha (k := e.1) he hx.2 fun s c hc => ?_
            have hnp : ¬ p ++ [k] <+: p ++ e.1 :: s := not_prefix_snoc hek s
            rw [(e6 (p ++ e.1 :: s) c (by rw [hown1 _ hnp]; exact hc) hnp).1]
            refine hsame c (I.lt hc) ?_
            rintro rfl
            exact absurd (I.inj _ _ _ hc ho) (fun h => by simp at h)
          · exact (e6 p a (by rw [hown1 p not_prefix_self_snoc]; exact ho) not_prefix_self_snoc).2
          · intro q b hq hpq
            have hnp : ¬ p ++ [k] <+: q := fun hc => hpq ((List.prefix_append _ _).trans hc)
            have h2 := e6 q b (by rw [hown1 q hnp]; exact hq) hnp
            refine ⟨?_, h2.2⟩
            rw [h2.1]
            refine hsame b (I.lt hq) ?_
            rintro rfl
            exact hpq (I.inj _ _ _ ho hq ▸ List.prefix_refl _)
      · simp only [setPath, hgetD, g1]
        rcases hent k c g1 with ⟨b, rfl, hb⟩ | ⟨hnone, hg⟩
        · -- a dictionary made for an earlier pair
          obtain ⟨es2, ts2, -, rfl, -⟩ := shows_ref_inv hc
          rcases ih I (p := p ++ [k]) (a := b) (ts := ts2) hb (by simp) (by rw [hassoc]; exact hG) hc with
            ⟨e, e1, e2, e3⟩ | ⟨ts', own', e1, e2, e3, e4, e5, e6⟩
          · left
            refine ⟨e, ?_, e2, e3⟩
            simp only [Params.setPath, g2, Option.getD_some, e1, bind, Except.bind]
          · right
            refine ⟨dictSet k (.dict ts') ts, own', ?_, e2, ?_, ?_, ?_, ?_⟩
            · simp only [Params.setPath, g2, Option.getD_some, e1, bind, Except.bind]
            · rw [hassoc] at e3; exact e3
            · have hpa := e6 p a ho not_prefix_self_snoc
              refine shows_ref (by rw [hpa.1, ha]) (relE_replace (R := Shows h) hse hnd g1 e4 ?_)
              intro k2 x t hk2 hx hxt
              refine I.entry e3.pre ho ha hx hxt fun s c hc => ?_
              exact (e6 _ c hc (not_prefix_snoc hk2 s)).1
            · exact (e6 p a ho not_prefix_self_snoc).2
            · intro q b' hq hpq
              exact e6 q b' hq fun hc => hpq ((List.prefix_append _ _).trans hc)
        · -- something else
          left
          cases c with
          | ref b => exact absurd hassoc.symm (hG (p ++ [k]) k' ks (hg.below b rfl))
          | leaf x =>
            refine ⟨.typeError, ?_, rfl, I.pre⟩
            cases hc with
            | leaf hl =>
              simp only [Params.setPath, g2, Option.getD_some]
              have h1 := hl.2
              cases tc <;> first | (cases ks <;> rfl) | (simp [PVal.isMapping] at h1)
          | params pf xs =>
            refine ⟨.typeError, ?_, rfl, I.pre⟩
            obtain ⟨ts2, rfl, -⟩ := shows_params_inv hc
            simp only [Params.setPath, g2, Option.getD_some]
            cases ks <;> rfl

theorem setPath_ne_recursion (parts : List Str) (v : PVal) : ∀ t, Params.setPath parts v t ≠ .error .recursionError := by
  induction parts with
  | nil => intro t; simp [Params.setPath]
  | cons k ks ih =>
    intro t
    cases ks with
    | nil => cases t <;> simp [Params.setPath]
    | cons k' ks =>
      cases t <;> simp only [Params.setPath, ne_eq, bind, Except.bind] <;> try (exact fun h => by cases h)
      rename_i es
      have := ih ((dictGet es k).getD (.dict []))
      cases hr : Params.setPath (k' :: ks) v ((dictGet es k).getD (.dict [])) with
      | error e => rw [hr] at this; simp only; exact fun h => this (by simpa using h)
      | ok r => simp

theorem setPairs_ne_recursion {sep : Char} (pairs : List (Str × PVal)) : ∀ t, Params.setPairs sep pairs t ≠ .error .recursionError := by
  induction pairs with
  | nil => intro t; simp [Params.setPairs]
  | cons e rest ih =>
    intro t
    obtain ⟨k, v⟩ := e
    unfold Params.setPairs
    by_cases hk : k.isEmpty = true
    · simp [hk]
    · simp only [hk, if_false, Bool.false_eq_true, bind, Except.bind]
      have := setPath_ne_recursion (splitOn sep k) v t
      cases hr : Params.setPath (splitOn sep k) v t with
      | error e => rw [hr] at this; simp only; exact fun h => this (by simpa using h)
      | ok r => exact ih r

theorem NoneBelowDict.tail {sep : Char} {e : Str × HVal} {rest : List (Str × HVal)} (h : NoneBelowDict sep (e :: rest)) : NoneBelowDict sep rest :=
  fun before name a rest' heq => h (e :: before) name a rest' (by rw [heq]; rfl)

/-- All the pairs. -/
theorem setPairs_spec {sep : Char} {root : Nat} {pairs : List (Str × HVal)} {pairs' : List (Str × PVal)}
    (hp : List.Forall₂ (fun e t => e.1 = t.1 ∧ Shows h0 e.2 t.2) pairs pairs') :
    ∀ {h : Heap} {own : Own} {G : List Str → Prop} {ts : Entries}, Inv h0 h own G → own [] = some root → Shows h (.ref root) (.dict ts) →
    (∀ e ∈ pairs, Frozen h0 e.2) → NoneBelowDict sep pairs → (∀ e ∈ pairs, ∀ g k ks, G g → splitOn sep e.1 ≠ g ++ k :: ks) →
    (∃ e, Params.setPairs sep pairs' (.dict ts) = .error e ∧ (setPairs root sep pairs h).1 = .error e ∧ h0 <+: (setPairs root sep pairs h).2) ∨
    ∃ ts' own' G', Params.setPairs sep pairs' (.dict ts) = .ok (.dict ts') ∧ (setPairs root sep pairs h).1 = .ok () ∧
      Inv h0 (setPairs root sep pairs h).2 own' G' ∧ own' [] = some root ∧ Shows (setPairs root sep pairs h).2 (.ref root) (.dict ts') := by
  induction hp with
  | nil => intro h own G ts I ho hs _ _ _; exact .inr ⟨ts, own, G, rfl, rfl, I, ho, hs⟩
  | @cons e t pairs pairs' hh _ ih =>
    intro h own G ts I ho hs hf hb hG
    obtain ⟨k, v⟩ := e
    obtain ⟨k', t⟩ := t
    obtain ⟨rfl, hv⟩ := hh
    simp only at hv
    unfold setPairs Params.setPairs
    by_cases hk : k.isEmpty = true
    · simp only [hk, if_true]; exact .inl ⟨_, rfl, rfl, I.pre⟩
    simp only [hk, if_false, Bool.false_eq_true]
    have hf1 := hf (k, v) (List.mem_cons_self ..)
    rcases setPath_spec hv hf1 (splitOn sep k) I ho (splitOn_ne_nil _ _) (by simpa using hG (k, v) (List.mem_cons_self ..)) hs with
      ⟨e, e1, e2, e3⟩ | ⟨ts', own', e1, e2, e3, e4, e5, -⟩
    · left
      refine ⟨e, by rw [e1]; rfl, ?_⟩
      generalize setPath v (.ref root) (splitOn sep k) h = r at *
      obtain ⟨r, h'⟩ := r
      simp only at e2 e3
      subst e2
      exact ⟨rfl, e3⟩
    · rw [e1]
      generalize setPath v (.ref root) (splitOn sep k) h = r at *
      obtain ⟨r, h'⟩ := r
      simp only at e2 e3 e4
      subst e2
      refine ih e3 e5 e4 (fun e he => hf e (List.mem_cons_of_mem _ he)) hb.tail ?_
      rintro e he g k2 ks (hg | ⟨⟨b, rfl⟩, rfl⟩)
      · exact hG e (List.mem_cons_of_mem _ he) g k2 ks hg
      · intro hc
        obtain ⟨tail, ht⟩ := below_of_split (by simpa using hc)
        exact hb [] k b pairs rfl e he tail ht

theorem forall₂_mem {α β : Type} {R : α → β → Prop} {l : List α} {m : List β} (h : List.Forall₂ R l m) {a : α} (ha : a ∈ l) : ∃ b ∈ m, R a b := by
  induction h with
  | nil => simp at ha
  | @cons x y _ _ hh _ ih =>
    rcases List.mem_cons.1 ha with rfl | ha
    · exact ⟨y, List.mem_cons_self .., hh⟩
    · obtain ⟨b, hb, hr⟩ := ih ha; exact ⟨b, List.mem_cons_of_mem _ hb, hr⟩

theorem within_old {w v : HVal} {t : PVal} (hp : h0 <+: h) (hw : Within h w v) (hs : Shows h0 v t) : Within h0 w v := by
  induction hw generalizing t with
  | here => exact .here
  | @ref b es k v hb hm _ ih =>
    obtain ⟨es', ts, hb', rfl, hse⟩ := shows_ref_inv hs
    have := getElem?_of_prefix hp hb'
    rw [hb] at this; cases this
    obtain ⟨t', -, ht'⟩ := forall₂_mem hse hm
    exact .ref hb' hm (ih ht'.2)
  | params hm _ ih =>
    obtain ⟨ts, rfl, hse⟩ := shows_params_inv hs
    obtain ⟨t', -, ht'⟩ := forall₂_mem hse hm
    exact .params hm (ih ht'.2)

/-- A dictionary that was made, or a part of a value of the caller. -/
def Good (h0 : Heap) (own : Own) (v : HVal) : Prop := (∃ q b, v = .ref b ∧ own q = some b) ∨ ((∃ t, Shows h0 v t) ∧ Frozen h0 v)

theorem Inv.within (I : Inv h0 h own G) {w v : HVal} (hw : Within h w v) (hv : Good h0 own v) : Good h0 own w := by
  induction hw with
  | here => exact hv
  | @ref b es k v hb hm _ ih =>
    refine ih ?_
    rcases hv with ⟨q, b', hb', ho⟩ | ⟨⟨t, ht⟩, hf⟩
    · cases hb'
      obtain ⟨-, es', he', hnd, hent⟩ := I.cell q b ho
      rw [hb] at he'; cases he'
      rcases hent k v ((dictGet_iff hnd _ _).2 hm) with ⟨c, rfl, hc⟩ | ⟨-, hg⟩
      · exact .inl ⟨_, c, rfl, hc⟩
      · exact .inr ⟨hg.shows, hg.frozen⟩
    · obtain ⟨es', ts, hb', rfl, hse⟩ := shows_ref_inv ht
      have := getElem?_of_prefix I.pre hb'
      rw [hb] at this; cases this
      obtain ⟨t', -, ht'⟩ := forall₂_mem hse hm
      exact .inr ⟨⟨_, ht'.2⟩, hf.of_mem hb' hm⟩
  | @params pfx es k v hm _ ih =>
    refine ih ?_
    rcases hv with ⟨q, b', hb', ho⟩ | ⟨⟨t, ht⟩, hf⟩
    · cases hb'
    · obtain ⟨ts, rfl, hse⟩ := shows_params_inv ht
      obtain ⟨t', -, ht'⟩ := forall₂_mem hse hm
      exact .inr ⟨⟨_, ht'.2⟩, fun pfx' es' a hw' => hf pfx' es' a (.params hm hw')⟩

theorem Inv.frozen (I : Inv h0 h own G) {q : List Str} {a : Nat} (ho : own q = some a) : Frozen h (.ref a) := by
  intro pfx es b hw hb
  rcases I.within hw (.inl ⟨q, a, rfl, ho⟩) with ⟨_, _, hc, _⟩ | ⟨⟨t, ht⟩, hf⟩
  · cases hc
  · exact hf pfx es b .here (within_old I.pre hb ht)

theorem inv_init (h0 : Heap) : Inv h0 (h0 ++ [[]]) (fun q => if q = [] then some h0.length else none) (fun _ => False) := by
  refine ⟨List.prefix_append _ _, ?_, ?_⟩
  · intro p q a hp hq
    by_cases h1 : p = [] <;> by_cases h2 : q = [] <;> simp_all
  · intro p a hp
    by_cases h1 : p = []
    · rw [if_pos h1] at hp
      cases hp
      exact ⟨Nat.le_refl _, [], by simp, by simp, by simp⟩
    · rw [if_neg h1] at hp; simp at hp

theorem always_iff {v : HVal} {t : PVal} : Always v t ↔ Shows [] v t :=
  ⟨fun h => h [], fun h h' => shows_frame h (fun a ha => absurd ha (by simp))⟩

/-- What the new value is like. -/
def Fresh (h : Heap) (r : HVal × Heap) (t : PVal) : Prop :=
  h <+: r.2 ∧ Shows r.2 r.1 t ∧ ∀ b, Within r.2 (.ref b) r.1 → h.length ≤ b

theorem dictifyEntries_fresh {es : HEntries} {ts : Entries}
    (hes : List.Forall₂ (fun e t => e.1 = t.1 ∧ Shows [] e.2 t.2 ∧ ∀ h, Fresh h (dictify e.2 h) (Params.dictify t.2)) es ts) :
    ∀ h, h <+: (dictifyEntries es h).2 ∧ ShowsE (dictifyEntries es h).2 (dictifyEntries es h).1 (Params.dictifyEntries ts) ∧
      ∀ e ∈ (dictifyEntries es h).1, ∀ b, Within (dictifyEntries es h).2 (.ref b) e.2 → h.length ≤ b := by
  induction hes with
  | nil => intro h; simp only [dictifyEntries, Params.dictifyEntries]; exact ⟨List.prefix_refl _, .nil, by simp⟩
  | @cons e t es ts hh _ ih =>
    intro h
    obtain ⟨k, v⟩ := e
    obtain ⟨k', t⟩ := t
    obtain ⟨rfl, -, hv⟩ := hh
    obtain ⟨h1, h2, h3⟩ := hv h
    simp only at h1 h2 h3
    obtain ⟨i1, i2, i3⟩ := ih (dictify v h).2
    simp only [dictifyEntries, dictifyEntry, Params.dictifyEntries, Params.dictifyEntry]
    refine ⟨h1.trans i1, .cons ⟨rfl, shows_prefix h2 i1⟩ i2, ?_⟩
    intro e he b hb
    rcases List.mem_cons.1 he with rfl | he
    · exact h3 b (within_old i1 hb h2)
    · exact Nat.le_trans h1.length_le (i3 e he b hb)

theorem dictify_fresh {v : HVal} {t : PVal} (hs : Always v t) : ∀ h, Fresh h (dictify v h) (Params.dictify t) := by
  refine Shows.ind (h := []) (P := fun v t => ∀ h, Fresh h (dictify v h) (Params.dictify t)) ?_ ?_ ?_ (always_iff.1 hs)
  · intro v hl h
    have h1 := hl.1
    have e1 : Params.dictify v = v := by cases v <;> first | rfl | (simp [PVal.isParams] at h1)
    rw [e1]
    refine ⟨List.prefix_refl _, .leaf hl, ?_⟩
    intro b hb
    cases hb
  · intro a es ts ha; simp at ha
  · intro pfx es ts _ ih h
    obtain ⟨i1, i2, i3⟩ := dictifyEntries_fresh ih h
    simp only [dictify, Params.dictify]
    generalize dictifyEntries es h = r at *
    have hn : (r.2 ++ [r.1])[r.2.length]? = some r.1 := by simp
    have hp : r.2 <+: r.2 ++ [r.1] := List.prefix_append _ _
    refine ⟨i1.trans hp, shows_ref hn (forall₂_imp i2 fun e _ t hx => ⟨hx.1, shows_prefix hx.2 hp⟩), ?_⟩
    intro b hb
    simp only at hb
    cases hb with
    | here => exact i1.length_le
    | ref h1 h2 h3 =>
      rw [hn] at h1; cases h1
      obtain ⟨t', -, ht'⟩ := forall₂_mem i2 h2
      exact i3 _ h2 b (within_old hp h3 ht'.2)

theorem fromEntries_sub_ok {sub : List Str → Nat → Res HVal} {pfx : List Str} {es r : HEntries} (h : fromEntries sub pfx es = .ok r) {k : Str} {a : Nat}
    (hm : (k, .ref a) ∈ es) : ∃ v, sub (pfx ++ [k]) a = .ok v := by
  induction es generalizing r with
  | nil => simp at hm
  | cons e es ih =>
    obtain ⟨k', x⟩ := e
    have hrest : ∀ y : HVal, (do let r ← fromEntries sub pfx es; .ok ((k', y) :: r) : Res HEntries) = .ok r → (k, HVal.ref a) ∈ es → ∃ v, sub (pfx ++ [k]) a = .ok v := by
      intro y hy hm
      cases hr : fromEntries sub pfx es with
      | error e => rw [hr] at hy; simp [bind, Except.bind] at hy
      | ok r' => exact ih hr hm
    cases x with
    | leaf x =>
      rcases List.mem_cons.1 hm with hc | hm
      · cases hc
      · exact hrest _ h hm
    | params p xs =>
      rcases List.mem_cons.1 hm with hc | hm
      · cases hc
      · exact hrest _ h hm
    | ref b =>
      simp only [fromEntries] at h
      cases hr : sub (pfx ++ [k']) b with
      | error e => rw [hr] at h; simp [bind, Except.bind] at h
      | ok v =>
        rw [hr] at h
        rcases List.mem_cons.1 hm with hc | hm
        · cases hc; exact ⟨v, hr⟩
        · exact hrest v h hm

theorem fromMapping_cycle (h : Heap) (limit : Nat) : ∀ (pfx : List Str) (a : Nat), Relation.TransGen (Holds h) a a → ∀ v, fromMapping h limit pfx a ≠ .ok v := by
  induction limit with
  | zero => intro pfx a _ v; simp [fromMapping]
  | succ n ih =>
    intro pfx a hc v hv
    obtain ⟨b, hab, hba⟩ := Relation.TransGen.head'_iff.1 hc
    obtain ⟨es, k, he, hm⟩ := hab
    simp only [fromMapping, he] at hv
    cases hr : fromEntries (fromMapping h n) pfx es with
    | error e => rw [hr] at hv; simp [bind, Except.bind] at hv
    | ok r =>
      obtain ⟨v', hv'⟩ := fromEntries_sub_ok hr hm
      exact ih _ b (Relation.TransGen.tail' hba ⟨es, k, he, hm⟩) v' hv'

/-- `from_key_value_pairs`. -/
theorem fromKeyValuePairs_spec {sep : Char} {pairs : List (Str × HVal)} {pairs' : List (Str × PVal)}
    (hp : List.Forall₂ (fun e t => e.1 = t.1 ∧ Shows h0 e.2 t.2) pairs pairs') (hf : ∀ e ∈ pairs, Frozen h0 e.2) (hb : NoneBelowDict sep pairs) :
    (∀ limit, h0 <+: (fromKeyValuePairs limit pairs sep h0).2 ∧
      ((fromKeyValuePairs limit pairs sep h0).1 = .error .recursionError ∨
        Agrees (fromKeyValuePairs limit pairs sep h0).1 (Params.fromKeyValuePairs pairs' sep))) ∧
    ∃ N, ∀ limit, N ≤ limit → (fromKeyValuePairs limit pairs sep h0).1 ≠ .error .recursionError := by
  have hn : (h0 ++ [[]])[h0.length]? = some [] := by simp
  rcases setPairs_spec (root := h0.length) hp (inv_init h0) (by simp) (shows_ref hn .nil) hf hb (fun _ _ _ _ _ h => h.elim) with
    ⟨e, e1, e2, e3⟩ | ⟨ts, own, G, e1, e2, e3, e4, e5⟩
  · have key : ∀ limit, fromKeyValuePairs limit pairs sep h0 = (.error e, (setPairs h0.length sep pairs (h0 ++ [[]])).2) := by
      intro limit
      unfold fromKeyValuePairs
      generalize setPairs h0.length sep pairs (h0 ++ [[]]) = r at *
      obtain ⟨r, h'⟩ := r
      simp only at e2
      subst e2
      rfl
    have hpure : Params.fromKeyValuePairs pairs' sep = .error e := by simp only [Params.fromKeyValuePairs, e1, bind, Except.bind]
    refine ⟨fun limit => ⟨by rw [key]; exact e3, .inr (by rw [hpure, key]; rfl)⟩, ⟨0, fun limit _ => ?_⟩⟩
    rw [key]
    have hne : e ≠ .recursionError := by
      rintro rfl
      exact setPairs_ne_recursion pairs' (.dict []) e1
    intro hc
    exact hne (by simpa using hc)
  · have key : ∀ limit, fromKeyValuePairs limit pairs sep h0 =
        (fromMapping (setPairs h0.length sep pairs (h0 ++ [[]])).2 limit [] h0.length, (setPairs h0.length sep pairs (h0 ++ [[]])).2) := by
      intro limit
      unfold fromKeyValuePairs
      generalize setPairs h0.length sep pairs (h0 ++ [[]]) = r at *
      obtain ⟨r, h'⟩ := r
      simp only at e2
      subst e2
      rfl
    have hpure : Params.fromKeyValuePairs pairs' sep = Params.fromMapping ts := by simp only [Params.fromKeyValuePairs, e1, bind, Except.bind]
    refine ⟨fun limit => ?_, ?_⟩
    · rw [key, hpure]
      exact ⟨e3.pre, fromMapping_agrees _ limit [] _ ts e5 (e3.frozen e4)⟩
    · obtain ⟨N, hN⟩ := fromMapping_limit e5
      refine ⟨N, fun limit hl => ?_⟩
      rw [key]
      exact hN _ rfl limit hl []

end ParamsHeap
end Vista
