import Verif.Proofs.InterpolatePlan

/-!
# Interpolation: from the final dicts to the result
-/
set_option linter.unusedSectionVars false
set_option linter.unusedSimpArgs false
namespace Vista
namespace Interp
open PVal Params

theorem reaches_root (p : Params) : p.toVal.Reaches [] (.params p.pfx p.data) := .here _

theorem finish_ok {file : Params} {σ : Store} (h : Env file σ) (hpfx : file.pfx = []) {R : Params} (hR : finish file σ = .ok R) :
    Built σ [] root R.toVal := by
  simp only [finish, bind, Except.bind] at hR
  split at hR
  · simp at hR
  · rename_i es hm
    rw [mapM_ok_iff] at hm
    have hf : List.Forall₂ (fun k (e : Str × PVal) => e.1 = k ∧ unroll σ (σ.length + 1) (at? σ ([] ++ [k])) = .ok e.2)
        (file.data.map (·.1)) es := by
      rw [List.forall₂_map_left_iff]
      refine List.Forall₂.imp ?_ hm
      rintro ⟨k, v⟩ ⟨k', v'⟩ hab
      simp only [finalEntry] at hab
      cases hg : dictGet σ [k] with
      | none => simp [hg] at hab
      | some c =>
        simp only [hg] at hab
        obtain ⟨a, h1, h2⟩ := (map_ok_iff _ _ _).1 hab
        simp only [Prod.mk.injEq] at h2
        obtain ⟨rfl, rfl⟩ := h2
        exact ⟨rfl, by simpa [at?, hg] using h1⟩
    have hu := (unroll_ns h.nodup (h.children (reaches_root file)) (σ.length + 1) (.dict es)).2 ⟨es, rfl, hf⟩
    refine ⟨_, _, hu, ?_⟩
    rw [fromVal_dict, ← hpfx, hR]
    rfl

theorem finish_complete {file : Params} {σ : Store} (h : Env file σ) (hpfx : file.pfx = []) {d : PVal}
    (hd : unroll σ (σ.length + 1) root = .ok d) : ∃ R, finish file σ = .ok R ∧ fromVal [] d = .ok R.toVal := by
  have hc : CellOK file root := ⟨by simp [root], fun p e => by
    simp only [root, Cell.ns.injEq] at e; subst e; exact ⟨_, _, reaches_root file⟩⟩
  have hmix := unroll_mixed h _ _ _ hc hd
  obtain ⟨es, rfl, hf⟩ := (unroll_ns h.nodup (h.children (reaches_root file)) σ.length d).1 hd
  have hm : file.data.mapM (finalEntry σ) = Except.ok es := by
    rw [mapM_ok_iff]
    rw [List.forall₂_map_left_iff] at hf
    have hstored : ∀ e ∈ file.data, ∃ c, dictGet σ [e.1] = some c := by
      intro e he
      obtain ⟨c, hc, -⟩ := h.stored (q := [e.1]) (by simp) (.step (v := e.2) he (.here _))
      exact ⟨c, hc⟩
    clear hd hmix
    generalize file.data = l at hf hstored
    induction hf with
    | nil => exact .nil
    | @cons a b l l' hab _ ih =>
      refine .cons ?_ (ih fun e he => hstored e (List.mem_cons_of_mem _ he))
      obtain ⟨c, hg⟩ := hstored a (by simp)
      obtain ⟨e1, e2⟩ := hab
      simp only [finalEntry, hg]
      refine (map_ok_iff _ _ _).2 ⟨b.2, unroll_mono ?_, by rw [← e1]⟩
      simpa [at?, hg] using e2
  obtain ⟨u, hu, -, -, h4⟩ := fromVal_mixed hmix []
  obtain ⟨es', rfl, -⟩ := h4 es rfl
  rw [fromVal_dict] at hu
  obtain ⟨R, hR, hR'⟩ := (map_ok_iff _ _ _).1 hu
  refine ⟨R, ?_, by rw [fromVal_dict, hR]; rfl⟩
  simp only [finish, bind, Except.bind]
  rw [hm]
  simp only [hpfx, hR]

theorem finish_error {file : Params} {σ : Store} (h : Env file σ) (hpfx : file.pfx = []) {e : Exc} (he : finish file σ = .error e) :
    e = .recursionError := by
  simp only [finish, bind, Except.bind] at he
  split at he
  · rename_i e' hm
    simp only [Except.error.injEq] at he
    subst he
    obtain ⟨a, ha, hf⟩ := mapM_error hm
    obtain ⟨c, hc, -⟩ := h.stored (q := [a.1]) (by simp) (.step (v := a.2) ha (.here _))
    simp only [finalEntry, hc] at hf
    exact unroll_error ((map_error_iff _ _ _).1 hf)
  · rename_i es hm
    exfalso
    rw [mapM_ok_iff] at hm
    have hf : List.Forall₂ (fun k (e : Str × PVal) => e.1 = k ∧ unroll σ (σ.length + 1) (at? σ ([] ++ [k])) = .ok e.2)
        (file.data.map (·.1)) es := by
      rw [List.forall₂_map_left_iff]
      refine List.Forall₂.imp ?_ hm
      rintro ⟨k, v⟩ ⟨k', v'⟩ hab
      simp only [finalEntry] at hab
      cases hg : dictGet σ [k] with
      | none => simp [hg] at hab
      | some c =>
        simp only [hg] at hab
        obtain ⟨a, h1, h2⟩ := (map_ok_iff _ _ _).1 hab
        simp only [Prod.mk.injEq] at h2
        obtain ⟨rfl, rfl⟩ := h2
        exact ⟨rfl, by simpa [at?, hg] using h1⟩
    have hu := (unroll_ns h.nodup (h.children (reaches_root file)) (σ.length + 1) (.dict es)).2 ⟨es, rfl, hf⟩
    have hc : CellOK file root := ⟨by simp [root], fun p e => by
      simp only [root, Cell.ns.injEq] at e; subst e; exact ⟨_, _, reaches_root file⟩⟩
    obtain ⟨u, hu', -⟩ := fromVal_mixed (unroll_mixed h _ _ _ hc hu) []
    rw [fromVal_dict, ← hpfx, he] at hu'
    simp [Except.map] at hu'

/-! ## Fuel -/

/-- If unrolling ends at all, it ends with as much fuel as there are dicts. -/
theorem unroll_fuel {file : Params} {σ : Store} (h : Env file σ) (n : Nat) : ∀ (c : Cell) (d : PVal) (V : List (List Str)) (F : Nat), CellOK file c →
    V.Nodup → (∀ v ∈ V, v ∈ [] :: σ.map (·.1)) → (∀ v ∈ V, ∀ d, unroll σ n (.ns v) ≠ .ok d) → F + V.length = σ.length + 1 →
    unroll σ n c = .ok d → unroll σ F c = .ok d := by
  induction n using Nat.strong_induction_on with
  | _ n ih =>
    intro c d V F hc hnd hsub hV hF hu
    cases c with
    | val v => rw [unroll_val] at hu ⊢; exact hu
    | ns p =>
      cases n with
      | zero => simp [unroll] at hu
      | succ n =>
        by_cases hmin : ∃ d', unroll σ n (.ns p) = .ok d'
        · obtain ⟨d', hd'⟩ := hmin
          obtain rfl := unroll_unique hu hd'
          exact ih n (by omega) (.ns p) d V F hc hnd hsub (fun v hv d1 hd1 => hV v hv d1 (unroll_mono hd1)) hF hd'
        · obtain ⟨pfx, es0, hr⟩ := hc.2 p rfl
          have hpV : p ∉ V := fun hp => hV p hp d hu
          have hpk : p ∈ [] :: σ.map (·.1) := by
            by_cases hp : p = []
            · subst hp; simp
            · obtain ⟨c, hc, -⟩ := h.stored hp hr
              exact List.mem_cons_of_mem _ ((dictGet_isSome_iff _ _).1 ⟨c, hc⟩)
          have hlen : (p :: V).length ≤ ([] :: σ.map (·.1)).length := by
            refine (List.subperm_of_subset (List.nodup_cons.2 ⟨hpV, hnd⟩) ?_).length_le
            intro x hx
            rcases List.mem_cons.1 hx with rfl | hx
            · exact hpk
            · exact hsub x hx
          simp only [List.length_cons, List.length_map] at hlen
          obtain ⟨F', rfl⟩ : ∃ F', F = F' + 1 := ⟨F - 1, by omega⟩
          obtain ⟨es, rfl, hf⟩ := (unroll_ns h.nodup (h.children hr) n d).1 hu
          refine (unroll_ns h.nodup (h.children hr) F' _).2 ⟨es, rfl, ?_⟩
          have hch : ∀ k ∈ es0.map (·.1), CellOK file (at? σ (p ++ [k])) := fun k hk => h.child hr hk
          clear hu hr
          generalize es0.map (·.1) = ks at hf hch
          induction hf with
          | nil => exact .nil
          | @cons k e ks es hab _ ih' =>
            refine .cons ⟨hab.1, ?_⟩ (ih' fun k hk => hch k (List.mem_cons_of_mem _ hk))
            refine ih n (by omega) _ _ (p :: V) F' (hch k (by simp)) (List.nodup_cons.2 ⟨hpV, hnd⟩) ?_ ?_ ?_ hab.2
            · intro v hv
              rcases List.mem_cons.1 hv with rfl | hv
              · exact hpk
              · exact hsub v hv
            · intro v hv d1 hd1
              rcases List.mem_cons.1 hv with rfl | hv
              · exact hmin ⟨d1, hd1⟩
              · exact hV v hv d1 (unroll_mono hd1)
            · simp only [List.length_cons]; omega

/-! ## A correct result makes the unrolling end -/

theorem sizeOf_mem_lt {es : Entries} {e : Str × PVal} (h : e ∈ es) : sizeOf e.2 < sizeOf (PVal.dict es) := by
  have h1 := List.sizeOf_lt_of_mem h
  obtain ⟨k, v⟩ := e
  simp only [Prod.mk.sizeOf_spec] at h1
  simp only [PVal.dict.sizeOf_spec]
  omega

theorem unroll_sim {file R : Params} {σ : Store} (h : Env file σ) (hR : R.Tree) (hns : SameNamespaces file R) (hsim : ∀ q, SimAt σ R q)
    (N : Nat) : ∀ (c : Cell) (u : PVal), CellOK file c → Sim R c u → sizeOf (norm u) < N → ∃ d, unroll σ N c = .ok d ∧ norm d = norm u := by
  induction N with
  | zero => intro c u _ _ hN; omega
  | succ N ih =>
    intro c u hc hs hN
    cases c with
    | val v => exact ⟨v, unroll_val .., Eq.symm hs⟩
    | ns p =>
      obtain ⟨pfx, es0, hr⟩ := hc.2 p rfl
      obtain ⟨pfx', es', hr', hk⟩ := hns p pfx es0 hr
      obtain ⟨w, hw, hn⟩ := hs
      obtain rfl := reaches_unique (PVal.Tree.wf hR) hw hr'
      rw [hn] at hN ⊢
      have hchild : ∀ e ∈ es', ∃ d, unroll σ N (at? σ (p ++ [e.1])) = .ok d ∧ norm d = norm e.2 := by
        intro e he
        have hke : e.1 ∈ es0.map (·.1) := hk ▸ List.mem_map_of_mem (f := (·.1)) he
        obtain ⟨⟨k, v0⟩, he0, hk0⟩ := List.mem_map.1 hke
        obtain ⟨c, hc, -⟩ := h.stored (q := p ++ [e.1]) (by simp) (reaches_append.2 ⟨_, hr, .step (hk0 ▸ he0) (.here v0)⟩)
        obtain ⟨u', hu', hs'⟩ := hsim _ c hc
        have hre : R.toVal.Reaches (p ++ [e.1]) e.2 := reaches_append.2 ⟨_, hr', .step he (.here e.2)⟩
        obtain rfl := reaches_unique (PVal.Tree.wf hR) hu' hre
        have hlt : sizeOf (norm e.2) < N := by
          have : sizeOf (norm e.2) < sizeOf (norm (.params pfx' es')) := by
            simp only [norm]
            have hm : (e.1, norm e.2) ∈ normEntries es' := by
              rw [normEntries_eq]; exact List.mem_map_of_mem (f := fun e : Str × PVal => (e.1, norm e.2)) he
            exact sizeOf_mem_lt hm
          omega
        have := ih c e.2 (h.cellOK hc) hs' hlt
        simpa [at?, hc] using this
      have : ∃ es, List.Forall₂ (fun k (e : Str × PVal) => e.1 = k ∧ unroll σ N (at? σ (p ++ [k])) = .ok e.2) (es'.map (·.1)) es ∧
          normEntries es = normEntries es' := by
        clear hk hr' hN hn hw
        induction es' with
        | nil => exact ⟨[], .nil, rfl⟩
        | cons e es' ih' =>
          obtain ⟨es, h1, h2⟩ := ih' fun e he => hchild e (List.mem_cons_of_mem _ he)
          obtain ⟨d, hd1, hd2⟩ := hchild e (by simp)
          refine ⟨(e.1, d) :: es, .cons ⟨rfl, hd1⟩ h1, ?_⟩
          obtain ⟨k, v⟩ := e
          simp only [normEntries, normEntry, h2, hd2] at *
      obtain ⟨es, h1, h2⟩ := this
      rw [hk] at h1
      exact ⟨.dict es, (unroll_ns h.nodup (h.children hr) N _).2 ⟨es, rfl, h1⟩, by simp only [norm, h2]⟩

section
variable {word : Char → Bool}

/-- Strings with placeholders are done only when listed. -/
def Settled (word : Char → Bool) (σ0 : Store) (D : List Str) (q : List Str) : Prop :=
  (∃ n ∈ D, splitOn '.' n = q) ∨ ∀ s, dictGet σ0 q = some (.val (.str s)) → ¬ ∃ m, Mentions word s m

theorem cellOf_str {q : List Str} {v : PVal} {s : Str} (h : Cell.val (.str s) = cellOf q v) : v = .str s := by
  unfold cellOf at h
  split at h
  · simp at h
  · simpa using h.symm

/-- What has no placeholder stands for itself from the start. -/
theorem settled_start (hw : word '%' = false) {file ctx R : Params} (hf : file.Tree) (hctx : ctx.Tree) (hI : Interpolated word file ctx R)
    {q : List Str} (hq : ∀ s, dictGet (store0 file) q = some (.val (.str s)) → ¬ ∃ m, Mentions word s m) : SimAt (store0 file) R q := by
  intro c hc
  obtain ⟨hne, v, hv, rfl⟩ := (store0_get hf q c).1 hc
  rcases v.shape with hl | ⟨es, rfl⟩ | ⟨pfx, es, rfl⟩
  · have hcell : cellOf q v = .val v := by simp [cellOf, hl.1]
    rw [hcell] at hc ⊢
    by_cases hs : ∃ s, v = .str s
    · obtain ⟨s, rfl⟩ := hs
      obtain ⟨w, hrw, hrep⟩ := hI.strings q s hv
      have hno := hq s hc
      refine ⟨w, hrw, ?_⟩
      obtain ⟨c, hc1, hc2⟩ := (replaced_iff hw (env0 hf) hctx hI.tree hI.namespaces s (fun m hm => absurd ⟨m, hm⟩ hno)
        (fun m hm => absurd ⟨m, hm⟩ hno)).2 w (PVal.Tree.reaches hI.tree hrw) hrep
      rw [interpolated_plain hw _ _ _ hno, Except.ok.injEq] at hc1
      subst hc1
      exact hc2
    · exact ⟨v, hI.others q v hv hl fun s e => hs ⟨s, e⟩, rfl⟩
  · exact absurd (PVal.Tree.reaches hf hv).not_mapping (by simp [isMapping])
  · obtain ⟨pfx', es', hr, -⟩ := hI.namespaces q pfx es hv
    have hcell : cellOf q (.params pfx es) = .ns q := by simp [cellOf, isParams]
    rw [hcell]
    exact ⟨_, hr, _, hr, rfl⟩

/-- Given a correct result, every step succeeds and moves towards it. -/
theorem run_back (hw : word '%' = false) {file ctx R : Params} {L : List Str} (hf : file.Tree) (hctx : ctx.Tree)
    (hp : Plan word (store0 file) L) (hI : Interpolated word file ctx R) (rest : List Str) : ∀ (D : List Str) (σ : Store), L = D ++ rest →
      Inv word (store0 file) ctx D σ → (∀ q, Settled word (store0 file) D q → SimAt σ R q) →
      ∃ σ', rest.foldlM (stepNode word ctx) σ = .ok σ' ∧ Inv word (store0 file) ctx L σ' ∧ ∀ q, SimAt σ' R q := by
  induction rest with
  | nil =>
    intro D σ hL hi hs
    rw [List.append_nil] at hL
    subst hL
    refine ⟨σ, rfl, hi, fun q => hs q ?_⟩
    by_cases h : ∃ s, dictGet (store0 file) q = some (.val (.str s)) ∧ ∃ m, Mentions word s m
    · obtain ⟨s, h1, m, h2⟩ := h
      exact .inl (hp.covers q s m h1 h2).1
    · exact .inr fun s h1 h2 => h ⟨s, h1, h2⟩
  | cons n rest ih =>
    intro D σ hL hi hs
    have hcl := store0_closed hf
    obtain ⟨h1, h2⟩ := stepNode_eq hcl hp hL hi
    simp only [List.foldlM_cons, bind, Except.bind]
    by_cases hst : ∃ s, dictGet (store0 file) (splitOn '.' n) = some (.val (.str s))
    · obtain ⟨s, hst⟩ := hst
      obtain ⟨-, v, hv, hc⟩ := (store0_get hf _ _).1 hst
      obtain rfl := cellOf_str hc
      have hsim : ∀ m, Mentions word s m → SimAt σ R (splitOn '.' m) := by
        intro m hm
        apply hs
        by_cases htr : truthy (store0 file) (at? (store0 file) (splitOn '.' m)) = true
        · exact .inl ⟨m, hp.deps D n rest hL s m hst hm htr, rfl⟩
        · refine .inr fun t ht ⟨m', hm'⟩ => htr ?_
          simp only [at?, ht, Option.getD_some]
          exact str_truthy_of_mentions hm'
      obtain ⟨w, hrw, hrep⟩ := hI.strings _ s hv
      obtain ⟨c, hc1, hc2⟩ := (replaced_iff hw ⟨hf, hi.ev, hi.valid⟩ hctx hI.tree hI.namespaces s
        (fun m hm => (hp.covers _ _ _ hst hm).2) hsim).2 w (PVal.Tree.reaches hI.tree hrw) hrep
      rw [h1 s hst, hc1]
      simp only [Except.bind]
      refine ih (D ++ [n]) _ (by rw [hL]; simp) (hi.step hw hcl hctx hp hL hst hc1) ?_
      intro q hq c' hc'
      rw [dictGet_dictSet] at hc'
      split at hc'
      · rename_i heq
        subst heq
        simp only [Option.some.injEq] at hc'
        subst hc'
        exact ⟨w, hrw, hc2⟩
      · rename_i hne
        refine hs q ?_ c' hc'
        rcases hq with ⟨x, hx, rfl⟩ | hq
        · rcases List.mem_append.1 hx with hx | hx
          · exact .inl ⟨x, hx, rfl⟩
          · simp only [List.mem_singleton] at hx; subst hx; exact absurd rfl hne
        · exact .inr hq
    · have hst' : ∀ s, dictGet (store0 file) (splitOn '.' n) ≠ some (.val (.str s)) := fun s h => hst ⟨s, h⟩
      rw [h2 hst']
      refine ih (D ++ [n]) σ (by rw [hL]; simp) (hi.skip hst') ?_
      intro q hq
      apply hs
      rcases hq with ⟨x, hx, rfl⟩ | hq
      · rcases List.mem_append.1 hx with hx | hx
        · exact .inl ⟨x, hx, rfl⟩
        · simp only [List.mem_singleton] at hx; subst hx; exact .inr fun s h => absurd h (hst' s)
      · exact .inr hq

/-- A step fails only with `ParameterError`. -/
theorem run_error {file ctx : Params} (hw : word '%' = false) (hctx : ctx.Tree) {L : List Str} (hf : file.Tree)
    (hp : Plan word (store0 file) L) (rest : List Str) : ∀ (D : List Str) (σ : Store) (e : Exc), L = D ++ rest →
      Inv word (store0 file) ctx D σ → rest.foldlM (stepNode word ctx) σ = .error e → e = .parameterError := by
  have hcl := store0_closed hf
  induction rest with
  | nil => intro D σ e _ _ h; simp [pure, Except.pure] at h
  | cons n rest ih =>
    intro D σ e hL hi h
    obtain ⟨h1, h2⟩ := stepNode_eq hcl hp hL hi
    simp only [List.foldlM_cons, bind, Except.bind] at h
    by_cases hst : ∃ s, dictGet (store0 file) (splitOn '.' n) = some (.val (.str s))
    · obtain ⟨s, hst⟩ := hst
      rw [h1 s hst] at h
      cases hint : interpolated word σ ctx s with
      | ok c =>
        simp only [hint, Except.bind] at h
        exact ih (D ++ [n]) _ _ (by rw [hL]; simp) (hi.step hw hcl hctx hp hL hst hint) h
      | error e' =>
        simp only [hint, Except.bind, Except.error.injEq] at h
        subst h
        have hres : ∀ m, Mentions word s m → ∀ e, resolve σ ctx m = .error e → e = .parameterError := by
          intro m hm e he
          unfold resolve root at he
          rw [getFrom_clear hi.ev hcl _ _ (splitOn_ne_nil _ _) (by simpa using (hp.covers _ _ _ hst hm).2)] at he
          simp only [List.nil_append, bind, Except.bind] at he
          split at he
          · simp at he
          · unfold privateGet at he
            by_cases hr : ∃ w, ctx.toVal.Reaches (splitOn '.' m) w
            · obtain ⟨w, hw⟩ := hr
              simp [follow_ok (PVal.Tree.wf hctx) hw] at he
            · simp [follow_missing (PVal.Tree.wf hctx) hr, missing, PVal.isNone] at he
              exact he.symm
        unfold interpolated at hint
        cases hfm : fullMatch word s with
        | some m =>
          simp only [hfm] at hint
          exact hres m (.here ((fullMatch_iff hw s m).1 hfm)) _ hint
        | none =>
          simp only [hfm, bind, Except.bind] at hint
          split at hint
          · rename_i e2 hexp
            simp only [Except.error.injEq] at hint
            subst hint
            clear hfm h1 hst
            revert hexp e2
            induction s using scan_induction hw with
            | nil => intro e2 hexp; simp [tokens_nil, expand] at hexp
            | placeholder s n rest hs ih =>
              intro e2 hexp
              rw [tokens_starts hw hs] at hexp
              simp only [expand, bind, Except.bind] at hexp
              cases hr : resolve σ ctx n with
              | error e => simp only [hr, Except.error.injEq] at hexp; subst hexp; exact hres n (.here hs) _ hr
              | ok c =>
                simp only [hr] at hexp
                split at hexp
                · split at hexp
                  · rename_i hexp'
                    simp only [Except.error.injEq] at hexp
                    subst hexp
                    exact ih (fun m hm => hres m (.later hs hm)) _ hexp'
                  · simp at hexp
                · simp only [Except.error.injEq] at hexp; exact hexp.symm
            | char c s hs ih =>
              intro e2 hexp
              rw [tokens_char hw hs] at hexp
              simp only [expand, bind, Except.bind] at hexp
              split at hexp
              · rename_i hexp'
                simp only [Except.error.injEq] at hexp
                subst hexp
                exact ih (fun m hm => hres m (.char hs hm)) _ hexp'
              · simp at hexp
          · simp at hint
    · have hst' : ∀ s, dictGet (store0 file) (splitOn '.' n) ≠ some (.val (.str s)) := fun s h => hst ⟨s, h⟩
      rw [h2 hst'] at h
      exact ih (D ++ [n]) _ _ (by rw [hL]; simp) (hi.skip hst') h

end
end Interp
end Vista
