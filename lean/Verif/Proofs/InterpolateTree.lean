import Verif.Proofs.InterpolateFinish

/-!
# Interpolation always returns a tree of namespaces (whatever the placeholders look like)
-/
set_option linter.unusedSectionVars false
set_option linter.unusedSimpArgs false
namespace Vista
namespace Interp
open PVal Params

variable {word : Char → Bool}

/-- What `get_from_nested_dict` finds is stored somewhere, or is `None`. -/
theorem getFrom_stored {σ : Store} (ps : List Str) : ∀ {c0 c : Cell}, getFrom σ c0 ps = .ok c →
    c = .val .none ∨ ∃ q, dictGet σ q = some c := by
  induction ps with
  | nil => intro c0 c h; simp [getFrom] at h
  | cons k ps ih =>
    intro c0 c h
    cases ps with
    | nil =>
      cases c0 with
      | val v => simp [getFrom] at h
      | ns p =>
        simp only [getFrom, Except.ok.injEq] at h
        cases hg : dictGet σ (p ++ [k]) with
        | none => rw [hg] at h; exact .inl h.symm
        | some d => rw [hg] at h; simp only [Option.getD_some] at h; exact .inr ⟨_, h ▸ hg⟩
    | cons k' ks =>
      cases c0 with
      | val v =>
        simp only [getFrom] at h
        split at h
        · simp at h
        · simp only [Except.ok.injEq] at h; exact .inl h.symm
      | ns p =>
        simp only [getFrom] at h
        split at h
        · exact ih h
        · simp only [Except.ok.injEq] at h; exact .inl h.symm

/-- `set_in_nested_dict` replaces what `get_from_nested_dict` found. -/
theorem setIn_stored {σ : Store} (ps : List Str) : ∀ {c0 c w : Cell} {σ' : Store}, getFrom σ c0 ps = .ok c → c ≠ .val .none →
    setIn σ c0 ps w = .ok σ' → ∃ q, dictGet σ q = some c ∧ σ' = dictSet q w σ := by
  induction ps with
  | nil => intro c0 c w σ' h; simp [getFrom] at h
  | cons k ps ih =>
    intro c0 c w σ' h hc hs
    cases ps with
    | nil =>
      cases c0 with
      | val v => simp [getFrom] at h
      | ns p =>
        simp only [getFrom, Except.ok.injEq] at h
        simp only [setIn, Except.ok.injEq] at hs
        cases hg : dictGet σ (p ++ [k]) with
        | none => rw [hg] at h; exact absurd h.symm hc
        | some d => rw [hg] at h; simp only [Option.getD_some] at h; exact ⟨_, h ▸ hg, hs.symm⟩
    | cons k' ks =>
      cases c0 with
      | val v =>
        simp only [getFrom] at h
        split at h
        · simp at h
        · simp only [Except.ok.injEq] at h; exact absurd h.symm hc
      | ns p =>
        simp only [getFrom] at h
        simp only [setIn] at hs
        split at h
        · rename_i d hd
          rw [hd] at hs
          exact ih h hc hs
        · simp only [Except.ok.injEq] at h; exact absurd h.symm hc

theorem resolve_valid {σ0 σ : Store} (h : Evolved σ0 σ) (hv : Valid σ0 σ) {ctx : Params} (hctx : ctx.Tree) {m : Str} {c : Cell}
    (hr : resolve σ ctx m = .ok c) :
    (∀ v, c = .val v → v.Tree) ∧ (∀ p, c = .ns p → dictGet σ0 p = some (.ns p) ∧ truthy σ0 (.ns p) = true) := by
  unfold resolve at hr
  simp only [bind, Except.bind] at hr
  split at hr
  · simp at hr
  · rename_i d hd
    split at hr
    · rename_i ht
      simp only [Except.ok.injEq] at hr
      subst hr
      rcases getFrom_stored _ hd with rfl | ⟨q, hq⟩
      · simp [truthy, PVal.truthy] at ht
      · refine ⟨fun v e => hv.vals q v (e ▸ hq), fun p e => ⟨hv.nss q p (e ▸ hq), ?_⟩⟩
        subst e
        rw [← truthy_congr h.keys]; exact ht
    · split at hr
      · simp at hr
      · rename_i v hg
        simp only [Except.ok.injEq] at hr
        subst hr
        refine ⟨fun v' e => ?_, fun p e => by simp at e⟩
        simp only [Cell.val.injEq] at e
        subst e
        unfold privateGet at hg
        by_cases hex : ∃ w, ctx.toVal.Reaches (splitOn '.' m) w
        · obtain ⟨w, hw⟩ := hex
          rw [follow_ok (PVal.Tree.wf hctx) hw, Except.ok.injEq] at hg
          subst hg
          exact PVal.Tree.reaches hctx hw
        · rw [follow_missing (PVal.Tree.wf hctx) hex] at hg
          simp [missing, PVal.isNone] at hg

theorem stepNode_valid {σ0 σ σ' : Store} (h : Evolved σ0 σ) (hv : Valid σ0 σ) {ctx : Params} (hctx : ctx.Tree) {n : Str}
    (hs : stepNode word ctx σ n = .ok σ') : Evolved σ0 σ' ∧ Valid σ0 σ' := by
  unfold stepNode at hs
  simp only [bind, Except.bind] at hs
  split at hs
  · simp at hs
  · rename_i c hc
    split at hs
    · split at hs
      · rename_i s _
        split at hs
        · simp at hs
        · rename_i w hw
          obtain ⟨q, hq, rfl⟩ := setIn_stored _ hc (by simp) hs
          have hq0 : ∃ t, dictGet σ0 q = some (.val (.str t)) := by
            by_contra hne
            rw [h.same q fun t ht => hne ⟨t, ht⟩] at hq
            exact hne ⟨s, hq⟩
          obtain ⟨t, hq0⟩ := hq0
          have hk : q ∈ σ.map (·.1) := (dictGet_isSome_iff _ _).1 ⟨_, hq⟩
          have hwv : (∀ v, w = .val v → v.Tree) ∧ (∀ p, w = .ns p → dictGet σ0 p = some (.ns p) ∧ truthy σ0 (.ns p) = true) := by
            unfold interpolated at hw
            split at hw
            · exact resolve_valid h hv hctx hw
            · simp only [bind, Except.bind] at hw
              split at hw
              · simp at hw
              · simp only [Except.ok.injEq] at hw
                subst hw
                exact ⟨fun v e => by simp only [Cell.val.injEq] at e; exact e ▸ .leaf ⟨rfl, rfl⟩, fun p e => by simp at e⟩
          refine ⟨⟨?_, fun q' hq' => ?_⟩, ⟨fun q' v hg => ?_, fun q' p hg => ?_, fun q' p hg => ?_⟩⟩
          · rw [Vista.keys_dictSet_eq, if_pos hk, h.keys]
          · rw [dictGet_dictSet, if_neg, h.same q' hq']
            rintro rfl; exact hq' t hq0
          · rw [dictGet_dictSet] at hg
            split at hg
            · exact hwv.1 v (by simpa using hg)
            · exact hv.vals q' v hg
          · rw [dictGet_dictSet] at hg
            split at hg
            · exact (hwv.2 p (by simpa using hg)).1
            · exact hv.nss q' p hg
          · rw [dictGet_dictSet] at hg
            split at hg
            · exact .inr (hwv.2 p (by simpa using hg)).2
            · exact hv.shared q' p hg
      · simp only [Except.ok.injEq] at hs
        exact hs ▸ ⟨h, hv⟩
    · simp at hs

theorem run_valid {σ0 : Store} {ctx : Params} (hctx : ctx.Tree) (L : List Str) : ∀ {σ σ' : Store}, Evolved σ0 σ → Valid σ0 σ →
    L.foldlM (stepNode word ctx) σ = .ok σ' → Evolved σ0 σ' ∧ Valid σ0 σ' := by
  induction L with
  | nil =>
    intro σ σ' h hv hr
    simp only [List.foldlM_nil, pure, Except.pure, Except.ok.injEq] at hr
    exact hr ▸ ⟨h, hv⟩
  | cons n L ih =>
    intro σ σ' h hv hr
    simp only [List.foldlM_cons, bind, Except.bind] at hr
    split at hr
    · simp at hr
    · rename_i σ1 h1
      obtain ⟨h2, h3⟩ := stepNode_valid h hv hctx h1
      exact ih h2 h3 hr

theorem interpolate_tree {file ctx R : Params} (hf : file.Tree) (hctx : ctx.Tree) (h : interpolate word file ctx = .ok R) :
    R.Tree ∧ R.pfx = [] := by
  have hpfx : file.pfx = [] := by
    unfold interpolate checkArg at h
    cases hp : file.pfx with
    | nil => rfl
    | cons a l => simp [hp, bind, Except.bind] at h
  unfold interpolate at h
  simp only [bind, Except.bind] at h
  split at h
  · simp at h
  · split at h
    · simp at h
    · split at h
      · simp at h
      · split at h
        · simp at h
        · split at h
          · simp at h
          · split at h
            · simp at h
            · rename_i σ hσ
              obtain ⟨hev, hva⟩ := run_valid hctx _ (Evolved.refl _) (store0_valid hf) hσ
              have henv : Env file σ := ⟨hf, hev, hva⟩
              have hb := finish_ok henv hpfx h
              refine ⟨hb.tree henv ⟨by simp [root], fun p e => ?_⟩, ?_⟩
              · simp only [root, Cell.ns.injEq] at e; subst e; exact ⟨_, _, reaches_root file⟩
              · unfold finish fromMapping Params.new checkArg at h
                simp only [bind, Except.bind] at h
                split at h
                · simp at h
                · split at h
                  · simp at h
                  · split at h
                    · simp at h
                    · simp only [Except.ok.injEq] at h
                      rw [← h]; exact hpfx

end Interp
end Vista
