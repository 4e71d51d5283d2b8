import Verif.Proofs.InterpolateRun

/-!
# Interpolation: the result built from the mutable dicts
-/
set_option linter.unusedSectionVars false
set_option linter.unusedSimpArgs false
namespace Vista
namespace Interp
open PVal Params

/-! ## Contents of a value, whether dict or namespace -/

mutual
def norm (v : PVal) : PVal :=
  match v with
  | .dict es => .dict (normEntries es)
  | .params _ es => .dict (normEntries es)
  | v => v
termination_by structural v
def normEntry (e : Str × PVal) : Str × PVal :=
  match e with
  | (k, v) => (k, norm v)
termination_by structural e
def normEntries (es : Entries) : Entries :=
  match es with
  | [] => []
  | e :: rest => normEntry e :: normEntries rest
termination_by structural es
end

theorem normEntries_eq (es : Entries) : normEntries es = es.map fun e => (e.1, norm e.2) := by
  induction es with
  | nil => rfl
  | cons e es ih => obtain ⟨k, v⟩ := e; simp [normEntries, normEntry, ih]

theorem norm_leaf {v : PVal} (h : Leaf v) : norm v = v := by
  rcases v.shape with hl | ⟨es, rfl⟩ | ⟨pfx, es, rfl⟩
  · cases v <;> first | rfl | simp [Leaf, isParams, isMapping] at hl
  · exact absurd h.2 (by simp [isMapping])
  · exact absurd h.1 (by simp [isParams])

theorem dictify_eq_norm {v : PVal} (h : v.Tree) : dictify v = norm v := by
  induction h with
  | leaf h => rw [dictify_leaf h, norm_leaf h]
  | @params pfx es _ _ _ ih =>
    simp only [dictify, norm, PVal.dict.injEq]
    rw [dictifyEntries_eq, normEntries_eq]
    exact List.map_congr_left fun e he => by rw [ih e he]

theorem norm_isMapping {v : PVal} (h : Leaf v) {w : PVal} (he : norm w = v) (hw : w.Tree) : w = v := by
  rcases hw with hl | ⟨-, -, -⟩
  · rw [norm_leaf hl] at he; exact he
  · simp only [norm] at he; subst he; exact absurd h.2 (by simp [isMapping])

/-- Dicts (with distinct keys without `.`) down to trees of namespaces. -/
inductive Mixed : PVal → Prop
  | tree {v : PVal} : v.Tree → Mixed v
  | dict {es : Entries} : (es.map (·.1)).Nodup → (∀ e ∈ es, '.' ∉ e.1) → (∀ e ∈ es, Mixed e.2) → Mixed (.dict es)

theorem fromEntries_forall₂ {pfx : List Str} {es : Entries} (h : ∀ e ∈ es, ∃ u, fromVal (pfx ++ [e.1]) e.2 = .ok u) :
    ∃ es', fromEntries pfx es = .ok es' ∧ List.Forall₂ (fun e e' => e'.1 = e.1 ∧ fromVal (pfx ++ [e.1]) e.2 = .ok e'.2) es es' := by
  induction es with
  | nil => exact ⟨[], rfl, .nil⟩
  | cons e es ih =>
    obtain ⟨k, v⟩ := e
    obtain ⟨es', h1, h2⟩ := ih fun e he => h e (List.mem_cons_of_mem _ he)
    obtain ⟨u, hu⟩ := h (k, v) (by simp)
    exact ⟨(k, u) :: es', by simp only [fromEntries, fromEntry, bind, Except.bind] at *; simp only [hu, h1], .cons ⟨rfl, hu⟩ h2⟩

theorem forall₂_keys {α β γ : Type} {f : α → γ} {g : β → γ} {R : α → β → Prop} (hR : ∀ a b, R a b → g b = f a) {l : List α} {l' : List β}
    (h : List.Forall₂ R l l') : l'.map g = l.map f := by
  induction h with
  | nil => rfl
  | cons h _ ih => simp [hR _ _ h, ih]

theorem forall₂_mem_right {α β : Type} {R : α → β → Prop} {l : List α} {l' : List β} (h : List.Forall₂ R l l') {b : β} (hb : b ∈ l') :
    ∃ a ∈ l, R a b := by
  induction h with
  | nil => simp at hb
  | cons h _ ih =>
    rcases List.mem_cons.1 hb with rfl | hb
    · exact ⟨_, by simp, h⟩
    · obtain ⟨a, ha, hr⟩ := ih hb; exact ⟨a, List.mem_cons_of_mem _ ha, hr⟩

theorem forall₂_mem_left {α β : Type} {R : α → β → Prop} {l : List α} {l' : List β} (h : List.Forall₂ R l l') {a : α} (ha : a ∈ l) :
    ∃ b ∈ l', R a b := by
  induction h with
  | nil => simp at ha
  | cons h _ ih =>
    rcases List.mem_cons.1 ha with rfl | ha
    · exact ⟨_, by simp, h⟩
    · obtain ⟨b, hb, hr⟩ := ih ha; exact ⟨b, List.mem_cons_of_mem _ hb, hr⟩

theorem forall₂_map_eq {α β γ : Type} {f : α → γ} {g : β → γ} {R : α → β → Prop} {l : List α} {l' : List β}
    (h : List.Forall₂ R l l') (hR : ∀ a ∈ l, ∀ b, R a b → g b = f a) : l'.map g = l.map f := by
  induction h with
  | nil => rfl
  | cons h _ ih =>
    simp only [List.map_cons]
    rw [hR _ (by simp) _ h, ih fun a ha => hR a (List.mem_cons_of_mem _ ha)]

theorem fromVal_mixed {d : PVal} (h : Mixed d) : ∀ pfx, ∃ u, fromVal pfx d = .ok u ∧ u.Tree ∧ norm u = norm d ∧
    (∀ es, d = .dict es → ∃ es', u = .params pfx es' ∧
      List.Forall₂ (fun e e' => e'.1 = e.1 ∧ fromVal (pfx ++ [e.1]) e.2 = .ok e'.2) es es') := by
  induction h with
  | tree h =>
    intro pfx
    exact ⟨_, fromVal_of_not_mapping h.not_mapping pfx, h, rfl, fun es e => by subst e; exact absurd h.not_mapping (by simp [isMapping])⟩
  | @dict es hn hd _ ih =>
    intro pfx
    obtain ⟨es', h1, h2⟩ := fromEntries_forall₂ (pfx := pfx) (es := es) fun e he => by
      obtain ⟨u, hu, -⟩ := ih e he (pfx ++ [e.1]); exact ⟨u, hu⟩
    have hk : es'.map (·.1) = es.map (·.1) := forall₂_keys (f := (·.1)) (g := (·.1)) (fun _ _ h => h.1) h2
    have hn' : (es'.map (·.1)).Nodup := by rw [hk]; exact hn
    have hd' : ∀ e ∈ es', '.' ∉ e.1 := by
      intro e he
      obtain ⟨a, ha, hr, -⟩ := forall₂_mem_right h2 he
      rw [hr]; exact hd a ha
    have hf : fromVal pfx (.dict es) = .ok (.params pfx es') := by
      simp only [fromVal, h1, bind, Except.bind, new_ok hn' hd' pfx, toVal]
    refine ⟨_, hf, .params hn' hd' ?_, ?_, ?_⟩
    · intro e he
      obtain ⟨a, ha, -, hr⟩ := forall₂_mem_right h2 he
      obtain ⟨u, hu, ht, -⟩ := ih a ha (pfx ++ [a.1])
      rw [hr, Except.ok.injEq] at hu
      rw [hu]; exact ht
    · simp only [norm, PVal.dict.injEq]
      rw [normEntries_eq, normEntries_eq]
      refine forall₂_map_eq h2 fun a ha b hb => ?_
      obtain ⟨u, hu, -, hnorm, -⟩ := ih a ha (pfx ++ [a.1])
      rw [hb.2, Except.ok.injEq] at hu
      rw [hb.1, hu, hnorm]
    · rintro es1 e
      simp only [PVal.dict.injEq] at e
      subst e
      exact ⟨es', rfl, h2⟩

/-! ## `mapM` -/

theorem mapM_ok_iff {α β : Type} (f : α → Res β) (l : List α) (r : List β) :
    l.mapM f = .ok r ↔ List.Forall₂ (fun a b => f a = .ok b) l r := by
  induction l generalizing r with
  | nil => simp [pure, Except.pure, eq_comm]
  | cons a l ih =>
    simp only [List.mapM_cons, bind, Except.bind, pure, Except.pure]
    cases ha : f a with
    | error e =>
      simp only [reduceCtorEq, false_iff]
      intro h
      cases h with
      | cons h _ => rw [ha] at h; simp at h
    | ok b =>
      simp only
      cases hl : l.mapM f with
      | error e =>
        simp only [reduceCtorEq, false_iff]
        intro h
        cases h with
        | cons _ h => rw [(ih _).2 h] at hl; simp at hl
      | ok r' =>
        simp only [Except.ok.injEq]
        constructor
        · rintro rfl; exact .cons ha ((ih r').1 hl)
        · intro h
          cases h with
          | cons h1 h2 =>
            rw [ha, Except.ok.injEq] at h1
            have := (ih _).2 h2
            rw [hl, Except.ok.injEq] at this
            rw [h1, this]

theorem mapM_error {α β : Type} {f : α → Res β} {l : List α} {e : Exc} (h : l.mapM f = .error e) : ∃ a ∈ l, f a = .error e := by
  induction l with
  | nil => simp [pure, Except.pure] at h
  | cons a l ih =>
    simp only [List.mapM_cons, bind, Except.bind, pure, Except.pure] at h
    cases ha : f a with
    | error e' => simp only [ha, Except.error.injEq] at h; exact ⟨a, by simp, h ▸ ha⟩
    | ok b =>
      simp only [ha] at h
      cases hl : l.mapM f with
      | error e' =>
        simp only [hl, Except.error.injEq] at h
        obtain ⟨x, hx, hf⟩ := ih (h ▸ hl)
        exact ⟨x, List.mem_cons_of_mem _ hx, hf⟩
      | ok r => simp [hl] at h

theorem mapM_ok_of {α β : Type} {f : α → Res β} {l : List α} (h : ∀ a ∈ l, ∃ b, f a = .ok b) : ∃ r, l.mapM f = .ok r := by
  cases hm : l.mapM f with
  | ok r => exact ⟨r, rfl⟩
  | error e =>
    obtain ⟨a, ha, hf⟩ := mapM_error hm
    obtain ⟨b, hb⟩ := h a ha
    rw [hb] at hf; simp at hf

/-! ## Unrolling -/

theorem eq_map_keys {σ : Store} (h : (σ.map (·.1)).Nodup) : σ = (σ.map (·.1)).map fun q => (q, at? σ q) := by
  rw [List.map_map]
  conv_lhs => rw [← List.map_id σ]
  refine List.map_congr_left fun e he => ?_
  simp only [id, Function.comp, at?]
  rw [(dictGet_iff h e.1 e.2).2 he]
  rfl

theorem children_entries {σ : Store} (h : (σ.map (·.1)).Nodup) {p : List Str} {ks : List Str}
    (hk : (σ.map (·.1)).filter (fun q => decide (q.dropLast = p)) = ks.map fun k => p ++ [k]) :
    (σ.filter fun e => decide (e.1.dropLast = p)) = ks.map fun k => (p ++ [k], at? σ (p ++ [k])) := by
  conv_lhs => rw [eq_map_keys h]
  rw [List.filter_map]
  have : ((fun e : List Str × Cell => decide (e.1.dropLast = p)) ∘ fun q => (q, at? σ q)) = fun q => decide (q.dropLast = p) := rfl
  rw [this, hk, List.map_map]
  rfl

theorem unroll_val (σ : Store) (n : Nat) (v : PVal) : unroll σ n (.val v) = .ok v := by cases n <;> rfl

theorem map_ok_iff {α β : Type} (x : Res α) (f : α → β) (b : β) : x.map f = .ok b ↔ ∃ a, x = .ok a ∧ f a = b := by
  cases x <;> simp [Except.map]

theorem map_error_iff {α β : Type} (x : Res α) (f : α → β) (e : Exc) : x.map f = .error e ↔ x = .error e := by
  cases x <;> simp [Except.map]

theorem unroll_error {σ : Store} {n : Nat} : ∀ {c : Cell} {e : Exc}, unroll σ n c = .error e → e = .recursionError := by
  induction n with
  | zero =>
    intro c e h
    cases c with
    | val v => rw [unroll_val] at h; simp at h
    | ns p => simp only [unroll, Except.error.injEq] at h; exact h.symm
  | succ n ih =>
    intro c e h
    cases c with
    | val v => rw [unroll_val] at h; simp at h
    | ns p =>
      simp only [unroll, bind, Except.bind] at h
      split at h
      · rename_i e' hm
        simp only [Except.error.injEq] at h
        subst h
        obtain ⟨a, ha, hf⟩ := mapM_error hm
        exact ih ((map_error_iff _ _ _).1 hf)
      · simp at h

theorem unroll_mono {σ : Store} {n : Nat} : ∀ {c : Cell} {d : PVal}, unroll σ n c = .ok d → unroll σ (n + 1) c = .ok d := by
  induction n with
  | zero =>
    intro c d h
    cases c with
    | val v => rw [unroll_val] at h ⊢; exact h
    | ns p => simp [unroll] at h
  | succ n ih =>
    intro c d h
    cases c with
    | val v => rw [unroll_val] at h ⊢; exact h
    | ns p =>
      rw [unroll] at h ⊢
      simp only [bind, Except.bind] at h ⊢
      split at h
      · simp at h
      · rename_i es hm
        rw [mapM_ok_iff] at hm
        have : List.Forall₂ (fun a b => ((unroll σ (n + 1) a.2).map fun v => (a.1.getLastD [], v)) = Except.ok b)
            (σ.filter fun e => decide (e.1.dropLast = p)) es := by
          refine List.Forall₂.imp ?_ hm
          intro a b hab
          obtain ⟨v, h1, h2⟩ := (map_ok_iff _ _ _).1 hab
          exact (map_ok_iff _ _ _).2 ⟨v, ih h1, h2⟩
        rw [(mapM_ok_iff _ _ _).2 this]
        exact h

theorem unroll_mono' {σ : Store} {n m : Nat} (hnm : n ≤ m) {c : Cell} {d : PVal} (h : unroll σ n c = .ok d) : unroll σ m c = .ok d := by
  induction hnm with
  | refl => exact h
  | step _ ih => exact unroll_mono ih

theorem unroll_unique {σ : Store} {n m : Nat} {c : Cell} {d d' : PVal} (h : unroll σ n c = .ok d) (h' : unroll σ m c = .ok d') : d = d' := by
  rcases Nat.le_total n m with hnm | hnm
  · have := unroll_mono' hnm h; rw [this, Except.ok.injEq] at h'; exact h'
  · have := unroll_mono' hnm h'; rw [this, Except.ok.injEq] at h; exact h.symm

theorem unroll_ns {σ : Store} (h : (σ.map (·.1)).Nodup) {p : List Str} {ks : List Str}
    (hk : (σ.map (·.1)).filter (fun q => decide (q.dropLast = p)) = ks.map fun k => p ++ [k]) (n : Nat) (d : PVal) :
    unroll σ (n + 1) (.ns p) = .ok d ↔
      ∃ es : Entries, d = .dict es ∧ List.Forall₂ (fun k e => e.1 = k ∧ unroll σ n (at? σ (p ++ [k])) = .ok e.2) ks es := by
  rw [unroll, children_entries h hk]
  simp only [bind, Except.bind]
  rw [List.mapM_map]
  have hiff : ∀ r, (List.mapM ((fun e : List Str × Cell => (unroll σ n e.2).map fun v => (e.1.getLastD [], v)) ∘
        fun k => (p ++ [k], at? σ (p ++ [k]))) ks = .ok r) ↔
      List.Forall₂ (fun k e => e.1 = k ∧ unroll σ n (at? σ (p ++ [k])) = .ok e.2) ks r := by
    intro r
    rw [mapM_ok_iff]
    have : (fun (k : Str) (e : Str × PVal) => ((fun e : List Str × Cell => (unroll σ n e.2).map fun v => (e.1.getLastD [], v)) ∘
        fun k => (p ++ [k], at? σ (p ++ [k]))) k = Except.ok e) =
        fun k e => e.1 = k ∧ unroll σ n (at? σ (p ++ [k])) = .ok e.2 := by
      funext k e
      obtain ⟨a, b⟩ := e
      simp only [Function.comp, map_ok_iff, Prod.mk.injEq, eq_iff_iff]
      constructor
      · rintro ⟨v, h1, h2, rfl⟩
        exact ⟨by rw [← h2]; simp [List.getLastD_eq_getLast?], h1⟩
      · rintro ⟨rfl, h1⟩
        exact ⟨b, h1, by simp [List.getLastD_eq_getLast?], rfl⟩
    rw [this]
  constructor
  · intro hd
    split at hd
    · simp at hd
    · rename_i es hm
      simp only [Except.ok.injEq] at hd
      exact ⟨es, hd.symm, (hiff es).1 hm⟩
  · rintro ⟨es, rfl, hf⟩
    rw [(hiff es).2 hf]

end Interp
end Vista
