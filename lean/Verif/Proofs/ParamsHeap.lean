import Verif.Spec.ParamsHeap
import Verif.Proofs.Params

/-!
# `Parameters` and dictionaries: lemmas
-/
set_option linter.unusedSectionVars false
set_option linter.unusedSimpArgs false
namespace Vista
namespace ParamsHeap
open PVal

/-- The items look like these. -/
abbrev ShowsE (h : Heap) (es : HEntries) (ts : Entries) : Prop := List.Forall₂ (fun e t => e.1 = t.1 ∧ Shows h e.2 t.2) es ts

theorem showsE_iff {h : Heap} {es : HEntries} {ts : Entries} :
    (es.map (·.1) = ts.map (·.1) ∧
      ∀ (i : Nat) (x : HVal) (t : PVal), (es.map (·.2))[i]? = some x → (ts.map (·.2))[i]? = some t → Shows h x t) ↔ ShowsE h es ts := by
  constructor
  · rintro ⟨h1, h2⟩
    induction es generalizing ts with
    | nil => cases ts with
      | nil => exact .nil
      | cons t ts => simp at h1
    | cons e es ih => cases ts with
      | nil => simp at h1
      | cons t ts =>
        simp only [List.map_cons, List.cons.injEq] at h1
        exact .cons ⟨h1.1, h2 0 _ _ rfl rfl⟩ (ih h1.2 fun i x t hx ht => h2 (i + 1) x t (by simpa using hx) (by simpa using ht))
  · intro hs
    induction hs with
    | nil => simp
    | cons hh _ ih =>
      refine ⟨by simp [hh.1, ih.1], ?_⟩
      intro i x t hx ht
      cases i with
      | zero => simp only [List.map_cons, List.getElem?_cons_zero, Option.some.injEq] at hx ht; subst hx; subst ht; exact hh.2
      | succ i => exact ih.2 i x t (by simpa using hx) (by simpa using ht)

theorem shows_ref {h : Heap} {a : Nat} {es : HEntries} {ts : Entries} (ha : h[a]? = some es) (hs : ShowsE h es ts) : Shows h (.ref a) (.dict ts) :=
  let ⟨h1, h2⟩ := showsE_iff.2 hs
  .ref ha h1 h2

theorem shows_params {h : Heap} {pfx : List Str} {es : HEntries} {ts : Entries} (hs : ShowsE h es ts) :
    Shows h (.params pfx es) (.params pfx ts) :=
  let ⟨h1, h2⟩ := showsE_iff.2 hs
  .params h1 h2

theorem shows_ref_inv {h : Heap} {a : Nat} {t : PVal} (hs : Shows h (.ref a) t) : ∃ es ts, h[a]? = some es ∧ t = .dict ts ∧ ShowsE h es ts := by
  cases hs with
  | ref h1 h2 h3 => exact ⟨_, _, h1, rfl, showsE_iff.1 ⟨h2, h3⟩⟩

theorem shows_params_inv {h : Heap} {pfx : List Str} {es : HEntries} {t : PVal} (hs : Shows h (.params pfx es) t) :
    ∃ ts, t = .params pfx ts ∧ ShowsE h es ts := by
  cases hs with
  | params h2 h3 => exact ⟨_, rfl, showsE_iff.1 ⟨h2, h3⟩⟩

/-- Induction over what a value shows. -/
theorem Shows.ind {h : Heap} {P : HVal → PVal → Prop} (leaf : ∀ v, v.Leaf → P (.leaf v) v)
    (ref : ∀ a es ts, h[a]? = some es → ShowsE h es ts → List.Forall₂ (fun e t => e.1 = t.1 ∧ Shows h e.2 t.2 ∧ P e.2 t.2) es ts → P (.ref a) (.dict ts))
    (params : ∀ pfx es ts, ShowsE h es ts → List.Forall₂ (fun e t => e.1 = t.1 ∧ Shows h e.2 t.2 ∧ P e.2 t.2) es ts → P (.params pfx es) (.params pfx ts))
    {v : HVal} {t : PVal} (hs : Shows h v t) : P v t := by
  have conv : ∀ (es : HEntries) (ts : Entries), es.map (·.1) = ts.map (·.1) →
      (∀ (i : Nat) (x : HVal) (t : PVal), (es.map (·.2))[i]? = some x → (ts.map (·.2))[i]? = some t → Shows h x t) →
      (∀ (i : Nat) (x : HVal) (t : PVal), (es.map (·.2))[i]? = some x → (ts.map (·.2))[i]? = some t → P x t) →
      List.Forall₂ (fun e t => e.1 = t.1 ∧ Shows h e.2 t.2 ∧ P e.2 t.2) es ts := by
    intro es
    induction es with
    | nil => intro ts h1 _ _; cases ts with
      | nil => exact .nil
      | cons t ts => simp at h1
    | cons e es ih => intro ts h1 h2 h3; cases ts with
      | nil => simp at h1
      | cons t ts =>
        simp only [List.map_cons, List.cons.injEq] at h1
        exact .cons ⟨h1.1, h2 0 _ _ rfl rfl, h3 0 _ _ rfl rfl⟩ (ih ts h1.2 (fun i x t hx ht => h2 (i + 1) x t (by simpa using hx) (by simpa using ht))
          (fun i x t hx ht => h3 (i + 1) x t (by simpa using hx) (by simpa using ht)))
  induction hs with
  | leaf hl => exact leaf _ hl
  | ref h1 h2 h3 ih => exact ref _ _ _ h1 (showsE_iff.1 ⟨h2, h3⟩) (conv _ _ h2 h3 ih)
  | params h2 h3 ih => exact params _ _ _ (showsE_iff.1 ⟨h2, h3⟩) (conv _ _ h2 h3 ih)

theorem forall₂_imp {α β : Type} {R S : α → β → Prop} {l : List α} {m : List β} (h : List.Forall₂ R l m)
    (hi : ∀ a ∈ l, ∀ b, R a b → S a b) : List.Forall₂ S l m := by
  induction h with
  | nil => exact .nil
  | cons hh _ ih => exact .cons (hi _ (List.mem_cons_self ..) _ hh) (ih fun a ha b => hi a (List.mem_cons_of_mem _ ha) b)

/-- A value without dictionaries does not depend on the heap. -/
theorem always_of_no_ref {h : Heap} {v : HVal} {t : PVal} (hs : Shows h v t) : (∀ a, ¬ Within h (.ref a) v) → Always v t := by
  refine Shows.ind (P := fun v t => (∀ a, ¬ Within h (.ref a) v) → Always v t) ?_ ?_ ?_ hs
  · intro v hl _ h'; exact .leaf hl
  · intro a es ts _ _ _ hn; exact absurd .here (hn a)
  · intro pfx es ts _ ih hn h'
    exact shows_params (forall₂_imp ih fun e he t hh => ⟨hh.1, hh.2.2 (fun a ha => hn a (.params (k := e.1) he ha)) h'⟩)

/-- Dictionaries that are as before show the same. -/
theorem shows_frame {h h' : Heap} {v : HVal} {t : PVal} (hs : Shows h v t) (hh : ∀ a, a < h.length → h'[a]? = h[a]?) : Shows h' v t := by
  refine Shows.ind (P := fun v t => Shows h' v t) ?_ ?_ ?_ hs
  · intro v hl; exact .leaf hl
  · intro a es ts ha _ ih
    have : a < h.length := by
      by_contra hc
      rw [List.getElem?_eq_none (Nat.le_of_not_lt hc)] at ha; simp at ha
    exact shows_ref (by rw [hh a this, ha]) (forall₂_imp ih fun e _ t x => ⟨x.1, x.2.2⟩)
  · intro pfx es ts _ ih; exact shows_params (forall₂_imp ih fun e _ t x => ⟨x.1, x.2.2⟩)

/-- Like `ShowsE`, for any relation. -/
abbrev RelE (R : HVal → PVal → Prop) (es : HEntries) (ts : Entries) : Prop := List.Forall₂ (fun e t => e.1 = t.1 ∧ R e.2 t.2) es ts

theorem relE_dictSet {R : HVal → PVal → Prop} {es : HEntries} {ts : Entries} (h : RelE R es ts) {k : Str} {v : HVal} {t : PVal} (hv : R v t) :
    RelE R (dictSet k v es) (dictSet k t ts) := by
  induction h with
  | nil => exact .cons ⟨rfl, hv⟩ .nil
  | @cons e t' es ts hh hrest ih =>
    obtain ⟨k1, v1⟩ := e
    obtain ⟨k2, t2⟩ := t'
    obtain ⟨rfl, hh2⟩ := hh
    simp only at hh2
    unfold dictSet
    by_cases hk : k1 = k
    · simp only [hk, if_true]; exact .cons ⟨rfl, hv⟩ hrest
    · simp only [hk, if_false]; exact .cons ⟨rfl, hh2⟩ ih

theorem relE_dictOf {R : HVal → PVal → Prop} {es : HEntries} {ts : Entries} (h : RelE R es ts) : RelE R (dictOf es) (dictOf ts) := by
  unfold dictOf
  suffices hs : ∀ d d', RelE R d d' → RelE R (es.foldl (fun d e => dictSet e.1 e.2 d) d) (ts.foldl (fun d e => dictSet e.1 e.2 d) d') from hs _ _ .nil
  induction h with
  | nil => intro d d' h; exact h
  | cons hh _ ih =>
    intro d d' hd
    simp only [List.foldl_cons]
    refine ih _ _ ?_
    rw [hh.1]
    exact relE_dictSet hd hh.2

theorem relE_keys {R : HVal → PVal → Prop} {es : HEntries} {ts : Entries} (h : RelE R es ts) : es.map (·.1) = ts.map (·.1) := by
  induction h with
  | nil => rfl
  | cons hh _ ih => simp [hh.1, ih]

theorem always_params {pfx : List Str} {es : HEntries} {ts : Entries} (h : RelE Always es ts) : Always (.params pfx es) (.params pfx ts) :=
  fun hp => shows_params (forall₂_imp h fun _ _ _ x => ⟨x.1, x.2 hp⟩)

/-- The constructor. -/
theorem new_agrees {es : HEntries} {ts : Entries} (h : RelE Always es ts) (pfx : List Str) : Agrees (new es pfx) (Params.new ts pfx) := by
  have h1 := relE_dictOf h
  have hall : (dictOf es).all (fun e => !(e.1.contains '.')) = (dictOf ts).all fun e => !(e.1.contains '.') := by
    have := relE_keys h1
    have e1 : (dictOf es).all (fun e => !(e.1.contains '.')) = ((dictOf es).map (·.1)).all fun k => !(k.contains '.') := by simp [List.all_map, Function.comp_def]
    have e2 : (dictOf ts).all (fun e => !(e.1.contains '.')) = ((dictOf ts).map (·.1)).all fun k => !(k.contains '.') := by simp [List.all_map, Function.comp_def]
    rw [e1, e2, this]
  unfold new Params.new
  simp only [hall, checkArg, bind, Except.bind]
  by_cases hc : (dictOf ts).all (fun e => !(e.1.contains '.')) = true
  · simp only [hc, if_true]
    exact ⟨_, rfl, always_params h1⟩
  · simp only [hc, if_false, Agrees]
    rfl

theorem Frozen.of_mem {h : Heap} {a : Nat} {es : HEntries} (hf : Frozen h (.ref a)) (ha : h[a]? = some es) {e : Str × HVal} (he : e ∈ es) :
    Frozen h e.2 := fun pfx es' b hw => hf pfx es' b (.ref ha (k := e.1) he hw)

/-- What one run of the loop gives. -/
def AgreesE (r : Res HEntries) (p : Res Entries) : Prop :=
  match p with
  | .ok ts => ∃ es, r = .ok es ∧ RelE Always es ts
  | .error e => r = .error e

theorem fromVal_dict (pfx : List Str) (ts : Entries) : Params.fromVal pfx (.dict ts) = (Params.fromMapping ts pfx).map Params.toVal := by
  simp only [Params.fromVal, Params.fromMapping, bind, Except.bind]
  cases Params.fromEntries pfx ts with
  | error e => rfl
  | ok r => cases Params.new r pfx <;> rfl

theorem fromEntries_cons (pfx : List Str) (k : Str) (t : PVal) (ts : Entries) :
    Params.fromEntries pfx ((k, t) :: ts) = (do
      let t' ← Params.fromVal (pfx ++ [k]) t
      let r ← Params.fromEntries pfx ts
      .ok ((k, t') :: r)) := by
  simp only [Params.fromEntries, Params.fromEntry, bind, Except.bind]
  cases Params.fromVal (pfx ++ [k]) t <;> rfl

theorem fromEntries_agrees {h : Heap} {sub : List Str → Nat → Res HVal} {pfx : List Str}
    {es : HEntries} {ts : Entries} (hs : ShowsE h es ts) (hf : ∀ e ∈ es, Frozen h e.2)
    (hsub : ∀ (e : Str × HVal) (pfx : List Str) (a : Nat) (ts : Entries), e ∈ es → e.2 = .ref a → Shows h (.ref a) (.dict ts) → Frozen h (.ref a) →
      sub pfx a = .error .recursionError ∨ Agrees (sub pfx a) (Params.fromMapping ts pfx)) :
    fromEntries sub pfx es = .error .recursionError ∨ AgreesE (fromEntries sub pfx es) (Params.fromEntries pfx ts) := by
  induction hs with
  | nil => exact .inr ⟨[], rfl, .nil⟩
  | @cons e t es ts hh _ ih =>
    obtain ⟨k, v⟩ := e
    obtain ⟨k', t⟩ := t
    obtain ⟨rfl, hv⟩ := hh
    simp only at hv
    have hfv := hf (k, v) (List.mem_cons_self ..)
    simp only at hfv
    have ih' := ih (fun e he => hf e (List.mem_cons_of_mem _ he)) (fun e pfx a ts he => hsub e pfx a ts (List.mem_cons_of_mem _ he))
    rw [fromEntries_cons]
    -- the entries after this one
    have rest : ∀ (x : HVal) (t' : PVal), Always x t' →
        (do let r ← fromEntries sub pfx es; .ok ((k, x) :: r) : Res HEntries) = .error .recursionError ∨
        AgreesE (do let r ← fromEntries sub pfx es; .ok ((k, x) :: r)) (do let r ← Params.fromEntries pfx ts; .ok ((k, t') :: r)) := by
      intro x t' hx
      rcases ih' with h1 | h1
      · left; rw [h1]; rfl
      · right
        cases hp : Params.fromEntries pfx ts with
        | error e => rw [hp] at h1; simp only [AgreesE] at h1; rw [h1]; simp [AgreesE, bind, Except.bind]
        | ok r =>
          rw [hp] at h1
          obtain ⟨es', e1, e2⟩ := h1
          rw [e1]
          exact ⟨_, rfl, .cons ⟨rfl, hx⟩ e2⟩
    cases v with
    | leaf v =>
      cases hv with
      | leaf hl =>
        have : Params.fromVal (pfx ++ [k]) t = .ok t := by
          have h1 := hl.2
          cases t <;> first | rfl | (simp [isMapping] at h1)
        simp only [this, fromEntries]
        exact rest _ _ fun _ => .leaf hl
    | params pfx' es' =>
      obtain ⟨ts', rfl, hs'⟩ := shows_params_inv hv
      have : Params.fromVal (pfx ++ [k]) (.params pfx' ts') = .ok (.params pfx' ts') := rfl
      simp only [this, fromEntries]
      exact rest _ _ (always_of_no_ref hv fun a => hfv pfx' es' a .here)
    | ref a =>
      obtain ⟨es', ts', ha, rfl, -⟩ := shows_ref_inv hv
      rw [fromVal_dict]
      simp only [fromEntries]
      rcases hsub (k, .ref a) (pfx ++ [k]) a ts' (List.mem_cons_self ..) rfl hv hfv with h1 | h1
      · left; rw [h1]; rfl
      · cases hp : Params.fromMapping ts' (pfx ++ [k]) with
        | error e => rw [hp] at h1; simp only [Agrees] at h1; right; rw [h1]; rfl
        | ok p =>
          rw [hp] at h1
          obtain ⟨x, e1, e2⟩ := h1
          rw [e1]
          exact rest x p.toVal e2

theorem fromMapping_agrees (h : Heap) (limit : Nat) : ∀ (pfx : List Str) (a : Nat) (ts : Entries), Shows h (.ref a) (.dict ts) → Frozen h (.ref a) →
    fromMapping h limit pfx a = .error .recursionError ∨ Agrees (fromMapping h limit pfx a) (Params.fromMapping ts pfx) := by
  induction limit with
  | zero => intro pfx a ts _ _; exact .inl rfl
  | succ n ih =>
    intro pfx a ts hs hf
    obtain ⟨es, ts', ha, heq, hse⟩ := shows_ref_inv hs
    cases heq
    simp only [fromMapping, ha, Params.fromMapping]
    rcases fromEntries_agrees (pfx := pfx) hse (fun e he => hf.of_mem ha he) (fun _ pfx a ts _ _ => ih pfx a ts) with h1 | h1
    · left; rw [h1]; rfl
    · cases hp : Params.fromEntries pfx ts with
      | error e => rw [hp] at h1; simp only [AgreesE] at h1; right; rw [h1]; rfl
      | ok r =>
        rw [hp] at h1
        obtain ⟨es', e1, e2⟩ := h1
        right
        rw [e1]
        exact new_agrees e2 pfx

/-- Something that is not nested too deeply can be converted. -/
theorem fromMapping_limit {h : Heap} {v : HVal} {t : PVal} (hs : Shows h v t) :
    ∃ N, ∀ a, v = .ref a → ∀ limit, N ≤ limit → ∀ pfx, fromMapping h limit pfx a ≠ .error .recursionError := by
  refine Shows.ind (P := fun v _ => ∃ N, ∀ a, v = .ref a → ∀ limit, N ≤ limit → ∀ pfx, fromMapping h limit pfx a ≠ .error .recursionError) ?_ ?_ ?_ hs
  · intro v _; exact ⟨0, fun a h => by cases h⟩
  · intro a es ts ha hse ih
    clear hse
    -- a bound for all the items
    have hb : ∃ N, ∀ e ∈ es, ∀ b, e.2 = .ref b → ∀ limit, N ≤ limit → ∀ pfx, fromMapping h limit pfx b ≠ .error .recursionError := by
      clear ha
      induction ih with
      | nil => exact ⟨0, by simp⟩
      | @cons e t es ts hh _ ih =>
        obtain ⟨N1, h1⟩ := hh.2.2
        obtain ⟨N2, h2⟩ := ih
        refine ⟨max N1 N2, fun e' he' b hb limit hl => ?_⟩
        rcases List.mem_cons.1 he' with rfl | he'
        · exact h1 b hb limit (Nat.le_trans (Nat.le_max_left ..) hl)
        · exact h2 e' he' b hb limit (Nat.le_trans (Nat.le_max_right ..) hl)
    obtain ⟨N, hN⟩ := hb
    refine ⟨N + 1, fun b hb limit hl pfx => ?_⟩
    cases hb
    obtain ⟨n, rfl⟩ : ∃ n, limit = n + 1 := ⟨limit - 1, by omega⟩
    have hn : N ≤ n := by omega
    simp only [fromMapping, ha]
    have hfe : fromEntries (fromMapping h n) pfx es ≠ .error .recursionError := by
      clear ha ih
      induction es with
      | nil => simp [fromEntries]
      | cons e es ih =>
        obtain ⟨k, v⟩ := e
        have ih' := ih (fun e he => hN e (List.mem_cons_of_mem _ he))
        cases v with
        | leaf v => simp only [fromEntries, bind, Except.bind]; cases hr : fromEntries (fromMapping h n) pfx es with
          | error e => simp only [hr] at ih' ⊢; exact fun hc => ih' (by simpa using hc)
          | ok r => simp
        | params p es' => simp only [fromEntries, bind, Except.bind]; cases hr : fromEntries (fromMapping h n) pfx es with
          | error e => simp only [hr] at ih' ⊢; exact fun hc => ih' (by simpa using hc)
          | ok r => simp
        | ref b =>
          have hb := hN (k, .ref b) (List.mem_cons_self ..) b rfl n hn (pfx ++ [k])
          simp only [fromEntries, bind, Except.bind]
          cases hr : fromMapping h n (pfx ++ [k]) b with
          | error e => rw [hr] at hb; simp only; exact fun hc => hb (by simpa using hc)
          | ok r =>
            simp only
            cases hr2 : fromEntries (fromMapping h n) pfx es with
            | error e => simp only [hr2] at ih' ⊢; exact fun hc => ih' (by simpa using hc)
            | ok r => simp
    cases hr : fromEntries (fromMapping h n) pfx es with
    | error e => rw [hr] at hfe; simp only [bind, Except.bind]; exact fun hc => hfe (by simpa using hc)
    | ok r =>
      simp only [bind, Except.bind, new, checkArg]
      by_cases hc : (dictOf r).all (fun e => !(e.1.contains '.')) = true
      · rw [if_pos hc]; exact fun h => by cases h
      · rw [if_neg hc]; exact fun h => by cases h
  · intro pfx es ts _ _; exact ⟨0, fun a h => by cases h⟩

end ParamsHeap
end Vista
