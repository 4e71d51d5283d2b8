import Verif.Spec.Objects
import Verif.Props.ParamsAccess
import Verif.Proofs.PyStr
import Verif.Props.Interpolate

/-!
# C53, C77: `object_from_parameters` and `evaluate`
-/
set_option linter.unusedSectionVars false
set_option linter.unusedSimpArgs false
namespace Vista
namespace Params
open PVal

/-! ## Module names -/

theorem mem_dottedPrefixes (parts : List Str) (k : Str) :
    k ∈ dottedPrefixes parts ↔ ∃ a b, parts = a ++ b ∧ a ≠ [] ∧ k = joinWith '.' a := by
  unfold dottedPrefixes
  simp only [List.mem_map, List.mem_range]
  constructor
  · rintro ⟨i, hi, rfl⟩
    refine ⟨parts.take (i + 1), parts.drop (i + 1), (List.take_append_drop _ _).symm, ?_, rfl⟩
    intro h
    have := congrArg List.length h
    simp only [List.length_take, List.length_nil] at this
    omega
  · rintro ⟨a, b, rfl, ha, rfl⟩
    have hl : 0 < a.length := List.length_pos_iff.2 ha
    refine ⟨a.length - 1, by simp only [List.length_append]; omega, ?_⟩
    rw [Nat.sub_add_cancel hl, List.take_left]

theorem mem_packages (s k : Str) : k ∈ dottedPrefixes (splitOn '.' s) ↔ PackageOf k s := by
  rw [mem_dottedPrefixes]
  constructor
  · rintro ⟨a, b, h, ha, rfl⟩
    have hs := joinWith_splitOn '.' s
    rw [h] at hs
    cases b with
    | nil => left; rw [← hs]; simp
    | cons x xs => right; exact ⟨joinWith '.' (x :: xs), by rw [← hs, joinWith_append ha (by simp)]⟩
  · rintro (rfl | ⟨rest, rfl⟩)
    · exact ⟨splitOn '.' k, [], by simp, splitOn_ne_nil _ _, (joinWith_splitOn _ _).symm⟩
    · exact ⟨splitOn '.' k, splitOn '.' rest, splitOn_append_sep _ _ _, splitOn_ne_nil _ _, (joinWith_splitOn _ _).symm⟩

theorem mem_contextModules (s k : Str) : k ∈ contextModulesFromPrefix s ↔ ∃ rest, s = k ++ '.' :: rest := by
  unfold contextModulesFromPrefix
  rw [mem_dottedPrefixes]
  constructor
  · rintro ⟨a, b, h, ha, rfl⟩
    have hs := joinWith_splitOn '.' s
    have hne := splitOn_ne_nil '.' s
    have hsplit := List.dropLast_append_getLast hne
    rw [h, List.append_assoc] at hsplit
    rw [← hsplit, joinWith_append ha (by simp)] at hs
    exact ⟨_, hs.symm⟩
  · rintro ⟨rest, rfl⟩
    refine ⟨splitOn '.' k, (splitOn '.' rest).dropLast, ?_, splitOn_ne_nil _ _, (joinWith_splitOn _ _).symm⟩
    rw [splitOn_append_sep, List.dropLast_append_of_ne_nil (splitOn_ne_nil _ _)]

/-- What a text needs: its proper parents. -/
theorem need_of_text (s k : Str) : (∃ m, PVal.str m ∈ (contextModulesFromPrefix s).map PVal.str ∧ PackageOf k m) ↔
    ∃ rest, s = k ++ '.' :: rest := by
  simp only [List.mem_map, PVal.str.injEq, exists_eq_right, mem_contextModules]
  constructor
  · rintro ⟨m, ⟨rest, rfl⟩, rfl | ⟨r, rfl⟩⟩
    · exact ⟨rest, rfl⟩
    · exact ⟨r ++ '.' :: rest, by simp⟩
  · rintro ⟨rest, rfl⟩
    exact ⟨k, ⟨rest, rfl⟩, .inl rfl⟩

/-! ## Evaluation -/

theorem importPackages_spec (py : Py) (ks : List Str) : ∀ ctx : Entries,
    (∀ env, ks.foldlM (importPackage py) ctx = .ok env →
      (∀ k ∈ ks, dictGet ctx k = Option.none → ∃ m, py.importModule k = .ok m ∧ dictGet env k = some m) ∧
      (∀ k v, dictGet ctx k = some v → dictGet env k = some v) ∧
      (∀ k, dictGet ctx k = Option.none → k ∉ ks → dictGet env k = Option.none)) ∧
    ((∀ k ∈ ks, dictGet ctx k = Option.none → ∃ m, py.importModule k = .ok m) → ∃ env, ks.foldlM (importPackage py) ctx = .ok env) := by
  induction ks with
  | nil =>
    intro ctx
    refine ⟨?_, fun _ => ⟨ctx, rfl⟩⟩
    intro env h
    simp only [List.foldlM_nil, pure, Except.pure, Except.ok.injEq] at h
    subst h
    exact ⟨by simp, fun k v h => h, fun k h _ => h⟩
  | cons a ks ih =>
    intro ctx
    simp only [List.foldlM_cons, bind, Except.bind, importPackage]
    cases hg : dictGet ctx a with
    | some w =>
      simp only [Option.isSome_some, if_true]
      obtain ⟨h1, h2⟩ := ih ctx
      refine ⟨fun env h => ?_, fun h => h2 fun k hk => h k (by simp [hk])⟩
      obtain ⟨e1, e2, e3⟩ := h1 env h
      refine ⟨fun k hk hn => ?_, e2, fun k hn hk => e3 k hn (by simp at hk; exact hk.2)⟩
      rcases List.mem_cons.1 hk with rfl | hk
      · rw [hg] at hn; simp at hn
      · exact e1 k hk hn
    | none =>
      simp only [Option.isSome_none, Bool.false_eq_true, if_false]
      cases hi : py.importModule a with
      | error e =>
        simp only [reduceCtorEq, false_implies, implies_true, true_and]
        intro h
        obtain ⟨m, hm⟩ := h a (by simp) hg
        rw [hi] at hm; simp at hm
      | ok m =>
        simp only
        obtain ⟨h1, h2⟩ := ih (dictSet a m ctx)
        refine ⟨fun env h => ?_, fun h => h2 fun k hk hn => ?_⟩
        · obtain ⟨e1, e2, e3⟩ := h1 env h
          have ha : dictGet env a = some m := e2 a m (by rw [dictGet_dictSet, if_pos rfl])
          refine ⟨fun k hk hn => ?_, fun k v hv => ?_, fun k hn hk => ?_⟩
          · by_cases hka : k = a
            · subst hka; exact ⟨m, hi, ha⟩
            · exact e1 k (by simpa [hka] using hk) (by rw [dictGet_dictSet, if_neg hka]; exact hn)
          · have hka : k ≠ a := by rintro rfl; rw [hg] at hv; simp at hv
            exact e2 k v (by rw [dictGet_dictSet, if_neg hka]; exact hv)
          · simp only [List.mem_cons, not_or] at hk
            exact e3 k (by rw [dictGet_dictSet, if_neg hk.1]; exact hn) hk.2
        · have hka : k ≠ a := by rintro rfl; rw [dictGet_dictSet, if_pos rfl] at hn; simp at hn
          rw [dictGet_dictSet, if_neg hka] at hn
          exact h k (by simp [hk]) hn

theorem importModules_eq (py : Py) (mods : List Str) : ∀ ctx : Entries,
    (mods.map PVal.str).foldlM (importOne py) ctx = (mods.flatMap fun s => dottedPrefixes (splitOn '.' s)).foldlM (importPackage py) ctx := by
  induction mods with
  | nil => intro ctx; rfl
  | cons a mods ih =>
    intro ctx
    simp only [List.map_cons, List.foldlM_cons, List.flatMap_cons, List.foldlM_append, importOne]
    congr 1
    funext env
    exact ih env

theorem importModules_strings (py : Py) (mods : List PVal) : ∀ ctx env : Entries, mods.foldlM (importOne py) ctx = .ok env →
    ∃ ss : List Str, mods = ss.map PVal.str := by
  induction mods with
  | nil => intro ctx env _; exact ⟨[], rfl⟩
  | cons a mods ih =>
    intro ctx env h
    simp only [List.foldlM_cons, bind, Except.bind] at h
    split at h
    · simp at h
    · rename_i env1 h1
      obtain ⟨ss, rfl⟩ := ih env1 env h
      cases a with
      | str s => exact ⟨s :: ss, rfl⟩
      | _ => simp [importOne] at h1

/-- `eval_in_context_of_modules`. -/
theorem evalInContext_iff (py : Py) (code : PVal) (ctx : Entries) (hctx : (ctx.map (·.1)).Nodup) (mods : List PVal)
    (expected : PVal → Bool) (v : PVal) : evalInContext py code ctx mods expected = .ok v ↔
      (∀ m ∈ mods, ∃ s, m = .str s) ∧ Evaluates py ctx (fun k => ∃ s, .str s ∈ mods ∧ PackageOf k s) code v ∧ expected v = true := by
  have hneed : ∀ (ss : List Str) k, k ∈ ss.flatMap (fun s => dottedPrefixes (splitOn '.' s)) ↔
      ∃ s, PVal.str s ∈ ss.map PVal.str ∧ PackageOf k s := by
    intro ss k
    simp only [List.mem_flatMap, mem_packages, List.mem_map, PVal.str.injEq, exists_eq_right]
  unfold evalInContext
  simp only [bind, Except.bind]
  constructor
  · intro h
    split at h
    · simp at h
    · rename_i env henv
      split at h
      · simp at h
      · rename_i w hw
        split at h
        · rename_i hexp
          simp only [Except.ok.injEq] at h
          subst h
          obtain ⟨ss, rfl⟩ := importModules_strings py mods ctx env henv
          refine ⟨by simp, ⟨dictGet env, ?_, ?_, ?_, hw⟩, hexp⟩
          all_goals
            rw [importModules_eq] at henv
            obtain ⟨e1, e2, e3⟩ := (importPackages_spec py _ ctx).1 env henv
          · intro k w hk
            exact e2 k w ((dictGet_iff hctx _ _).2 hk)
          · intro k hk hn
            exact e1 k ((hneed ss k).2 hn) ((dictGet_none_iff _ _).2 hk)
          · intro k hk hn
            exact e3 k ((dictGet_none_iff _ _).2 hk) (fun h => hn ((hneed ss k).1 h))
        · simp at h
  · rintro ⟨hm, ⟨env, g1, g2, g3, g4⟩, hexp⟩
    obtain ⟨ss, rfl⟩ : ∃ ss : List Str, mods = ss.map PVal.str := by
      clear g2 g3
      induction mods with
      | nil => exact ⟨[], rfl⟩
      | cons a mods ih =>
        obtain ⟨s, rfl⟩ := hm a (by simp)
        obtain ⟨ss, rfl⟩ := ih (fun m h => hm m (by simp [h]))
        exact ⟨s :: ss, rfl⟩
    rw [importModules_eq]
    obtain ⟨h1, h2⟩ := importPackages_spec py (ss.flatMap fun s => dottedPrefixes (splitOn '.' s)) ctx
    obtain ⟨env', henv'⟩ := h2 (by
      intro k hk hn
      obtain ⟨m, hm, -⟩ := g2 k ((dictGet_none_iff _ _).1 hn) ((hneed ss k).1 hk)
      exact ⟨m, hm⟩)
    obtain ⟨e1, e2, e3⟩ := h1 env' henv'
    have : dictGet env' = env := by
      funext k
      cases hg : dictGet ctx k with
      | some w => rw [e2 k w hg, g1 k w ((dictGet_iff hctx _ _).1 hg)]
      | none =>
        have hk := (dictGet_none_iff _ _).1 hg
        by_cases hn : ∃ s, PVal.str s ∈ ss.map PVal.str ∧ PackageOf k s
        · obtain ⟨m, hm, hgm⟩ := e1 k ((hneed ss k).2 hn) hg
          obtain ⟨m', hm', hgm'⟩ := g2 k hk hn
          rw [hm, Except.ok.injEq] at hm'
          rw [hgm, hgm', hm']
        · rw [e3 k hg (fun h => hn ((hneed ss k).1 h)), g3 k hk hn]
    simp only [henv', this, g4, hexp, if_true]

theorem contextOr_iff (given : Option Entries) (otherwise ctx : Entries) : ContextIs given otherwise ctx ↔ ctx = contextOr given otherwise := by
  unfold ContextIs contextOr
  cases given with
  | none => simp
  | some c =>
    cases c with
    | nil => simp
    | cons x xs =>
      simp only [Option.some.injEq, reduceCtorEq, or_self, false_and, or_false, List.isEmpty_cons, Bool.false_eq_true, if_false]
      constructor
      · rintro ⟨rfl, -⟩; rfl
      · rintro rfl; exact ⟨rfl, by simp⟩

theorem codeIs_iff {special : Entries} (h : (special.map (·.1)).Nodup) (s : Str) (code : PVal) :
    CodeIs special s code ↔ code = (dictGet special s).getD (.str s) := by
  unfold CodeIs
  rw [← dictGet_iff h, ← dictGet_none_iff]
  cases dictGet special s <;> simp [eq_comm]

theorem string_iff {p : Params} (h : p.WF) (name : Str) : (∀ v, p.string name = .ok v ↔ ∃ s, v = .str s ∧ p.toVal.Reaches (splitOn '.' name) v) ∧
    (∀ e, p.string name = .error e → Refused p name .none e) := by
  have := C47_string p h name Option.none .none
  refine ⟨fun v => ?_, this.2⟩
  rw [this.1 v]
  unfold Found
  simp only [ne_eq, not_true_eq_false, false_and, and_false, or_false]
  constructor
  · rintro ⟨h1, h2⟩
    obtain ⟨s, rfl, -⟩ := h2
    exact ⟨s, rfl, h1⟩
  · rintro ⟨s, rfl, h1⟩
    exact ⟨h1, s, rfl, by simp⟩

theorem import_split : splitOn '.' "import".toList = ["import".toList] := by decide +kernel

theorem imports_iff {ns : Params} (h : ns.WF) (mods : List PVal) :
    Imports ns mods ↔ ∃ w, ns.optionalArbitraryList "import".toList = .ok w ∧ orEmptyList w = mods := by
  obtain ⟨h1, h2⟩ := C48_arbitrary_list ns h "import".toList .none (.inl rfl)
  rw [import_split] at h1
  unfold Imports
  by_cases hp : Present ns "import".toList
  · have hp' := hp
    obtain ⟨v, hv, hr⟩ := hp
    rw [import_split] at hr
    obtain ⟨c1, c2, c3⟩ := h1 v hv hr
    constructor
    · rintro (h' | ⟨-, h'⟩)
      · have := reaches_unique h hr h'
        subst this
        exact ⟨_, c1 (.list _), rfl⟩
      · exact absurd ⟨v, hv, hr⟩ h'
    · rintro ⟨w, hw, rfl⟩
      by_cases hl : IsA v .list
      · rw [c1 hl] at hw
        simp only [Except.ok.injEq] at hw
        subst hw
        cases hl
        exact .inl hr
      · by_cases hu : Unprintable v
        · rw [c2 hl hu] at hw; cases hw
        · rw [c3 hl hu] at hw; cases hw
  · rw [(h2 hp).1 .none]
    unfold Present at hp
    rw [import_split] at hp
    constructor
    · rintro (h' | ⟨rfl, -⟩)
      · exact absurd ⟨_, by simp, h'⟩ hp
      · exact ⟨_, rfl, rfl⟩
    · rintro ⟨w, hw, rfl⟩
      simp only [truthy, Bool.false_eq_true, if_false, Except.ok.injEq] at hw
      subst hw
      exact .inr ⟨rfl, hp⟩

theorem asParameterError_ok {α : Type} (x : Res α) (v : α) : asParameterError x = .ok v ↔ x = .ok v := by
  cases x <;> simp [asParameterError]

theorem text_ok (v : PVal) (s : Str) : text v = .ok s ↔ v = .str s := by
  cases v <;> simp [text]

theorem reads_text {p : Params} (h : p.WF) (name : Str) (s : Str) :
    (do text (← p.string name)) = .ok s ↔ p.toVal.Reaches (splitOn '.' name) (.str s) := by
  obtain ⟨h1, h2⟩ := string_iff h name
  simp only [bind, Except.bind]
  cases hs : p.string name with
  | error e =>
    simp only [reduceCtorEq, false_iff]
    intro hr
    have := (h1 (.str s)).2 ⟨s, rfl, hr⟩
    rw [hs] at this; simp at this
  | ok w =>
    simp only [text_ok]
    obtain ⟨s', rfl, hr⟩ := (h1 w).1 hs
    constructor
    · rintro h'; rw [h'] at hr; exact hr
    · intro hr'; exact reaches_unique h hr hr'

/-! ## C77: `evaluate` -/

/-- The name leads to a namespace: its parameter `value` (or the name given) is looked up in the special values and evaluated, in the
context together with the modules listed under `import`. -/
theorem C77_namespace (py : Py) (p : Params) (h : p.WF) (name : Str) (expected : PVal → Bool) (context : Option Entries) (nsParam : Str)
    (special : Entries) (hsp : (special.map (·.1)).Nodup) (dflt : PVal) (ns : Params) (hns : p.toVal.Reaches (splitOn '.' name) ns.toVal)
    (ctx : Entries) (hctx : ContextIs context (py.locals p name) ctx) (hnd : (ctx.map (·.1)).Nodup) (v : PVal) :
    p.evaluate py name expected context nsParam special dflt = .ok v ↔
      ∃ s code mods, ns.toVal.Reaches (splitOn '.' nsParam) (.str s) ∧ CodeIs special s code ∧ Imports ns mods ∧
        (∀ m ∈ mods, ∃ t, m = .str t) ∧ Evaluates py ctx (fun k => ∃ t, .str t ∈ mods ∧ PackageOf k t) code v ∧ expected v = true := by
  have hnwf : ns.WF := PVal.WF.reaches h hns
  rw [contextOr_iff] at hctx
  subst hctx
  unfold evaluate
  rw [((C48_namespaces p h name).1 ns hns).1]
  simp only [bind, Except.bind, asParameterError_ok]
  have hbody : evaluateBody py p name expected context nsParam special dflt (some ns) = (do
      let s ← (do text (← ns.string nsParam))
      let modules ← ns.optionalArbitraryList "import".toList
      evalInContext py ((dictGet special s).getD (.str s)) (contextOr context (py.locals p name)) (orEmptyList modules) expected) := by
    simp only [evaluateBody, bind, Except.bind]
    cases ns.string nsParam <;> rfl
  rw [hbody]
  have hrt := reads_text hnwf nsParam
  constructor
  · intro hh
    cases hs : (do text (← ns.string nsParam) : Res Str) with
    | error e => rw [hs] at hh; simp [bind, Except.bind] at hh
    | ok s =>
      rw [hs] at hh
      simp only [bind, Except.bind] at hh
      split at hh
      · simp at hh
      · rename_i w hw
        obtain ⟨g1, g2, g3⟩ := (evalInContext_iff py _ _ hnd _ _ _).1 hh
        exact ⟨s, _, _, (hrt s).1 hs, (codeIs_iff hsp s _).2 rfl, (imports_iff hnwf _).2 ⟨w, hw, rfl⟩, g1, g2, g3⟩
  · rintro ⟨s, code, mods, h1, h2, h3, h4⟩
    obtain ⟨w, hw, rfl⟩ := (imports_iff hnwf _).1 h3
    have := (codeIs_iff hsp s _).1 h2
    subst this
    rw [(hrt s).2 h1]
    simp only [bind, Except.bind, hw]
    exact (evalInContext_iff py _ _ hnd _ _ _).2 h4

/-- The name leads to something else than a namespace: it must be a string, which is looked up in the special values and evaluated in
the context together with all the proper dotted prefixes of the string, as modules. -/
theorem C77_string (py : Py) (p : Params) (h : p.WF) (name : Str) (expected : PVal → Bool) (context : Option Entries) (nsParam : Str)
    (special : Entries) (hsp : (special.map (·.1)).Nodup) (dflt : PVal) (u : PVal) (hu : u ≠ .none) (hup : u.isParams = false)
    (hr : p.toVal.Reaches (splitOn '.' name) u)
    (ctx : Entries) (hctx : ContextIs context (py.locals p name) ctx) (hnd : (ctx.map (·.1)).Nodup) (v : PVal) :
    p.evaluate py name expected context nsParam special dflt = .ok v ↔
      ∃ s code, u = .str s ∧ CodeIs special s code ∧
        Evaluates py ctx (fun k => ∃ rest, s = k ++ '.' :: rest) code v ∧ expected v = true := by
  rw [contextOr_iff] at hctx
  subst hctx
  unfold evaluate
  rw [((C48_namespaces p h name).2.2 u hu hup hr).1]
  simp only [bind, Except.bind, asParameterError_ok]
  have hin : p.contains name = true := (contains_present h name).2 ⟨u, hu, hr⟩
  have hbody : evaluateBody py p name expected context nsParam special dflt Option.none = (do
      let s ← (do text (← p.string name))
      evalInContext py ((dictGet special s).getD (.str s)) (contextOr context (py.locals p name))
        ((contextModulesFromPrefix s).map .str) expected) := by
    simp only [evaluateBody, bind, Except.bind, hin, if_true]
    cases p.string name <;> rfl
  rw [hbody]
  have hrt := reads_text h name
  have hneed : ∀ s, (fun k => ∃ m, PVal.str m ∈ (contextModulesFromPrefix s).map PVal.str ∧ PackageOf k m) =
      fun k => ∃ rest, s = k ++ '.' :: rest := by
    intro s; funext k; rw [need_of_text]
  constructor
  · intro hh
    cases hs : (do text (← p.string name) : Res Str) with
    | error e => rw [hs] at hh; simp [bind, Except.bind] at hh
    | ok s =>
      rw [hs] at hh
      simp only [bind, Except.bind] at hh
      obtain ⟨g1, g2, g3⟩ := (evalInContext_iff py _ _ hnd _ _ _).1 hh
      rw [hneed] at g2
      exact ⟨s, _, reaches_unique h hr ((hrt s).1 hs), (codeIs_iff hsp s _).2 rfl, g2, g3⟩
  · rintro ⟨s, code, rfl, h2, h3, h4⟩
    have := (codeIs_iff hsp s _).1 h2
    subst this
    rw [(hrt s).2 hr]
    simp only [bind, Except.bind]
    refine (evalInContext_iff py _ _ hnd _ _ _).2 ⟨by simp, ?_, h4⟩
    rw [hneed]; exact h3

/-- The name leads nowhere (or to `None`): the default, unchecked, if there is one. -/
theorem C77_absent (py : Py) (p : Params) (h : p.WF) (name : Str) (expected : PVal → Bool) (context : Option Entries) (nsParam : Str)
    (special : Entries) (dflt : PVal) (hp : ¬ Present p name) :
    p.evaluate py name expected context nsParam special dflt = if dflt.isNone then .error .parameterError else .ok dflt := by
  unfold evaluate
  rw [((C48_namespaces p h name).2.1 hp).1]
  have hin : p.contains name = false := by
    rw [← Bool.not_eq_true, contains_present h name]; exact hp
  simp only [bind, Except.bind, evaluateBody, hin, Bool.false_eq_true, if_false]
  cases dflt.isNone <;> simp [asParameterError]

/-- `optional_evaluate` is `evaluate` where the name leads to something, and `None` elsewhere. -/
theorem C77_optional (py : Py) (p : Params) (h : p.WF) (name : Str) (expected : PVal → Bool) (nsParam : Str) (special : Entries) :
    (Present p name → p.optionalEvaluate py name expected nsParam special = p.evaluate py name expected Option.none nsParam special) ∧
    (¬ Present p name → p.optionalEvaluate py name expected nsParam special = .ok .none) := by
  unfold optionalEvaluate
  rw [← contains_present h]
  exact ⟨fun hp => by rw [if_pos hp], fun hp => by rw [if_neg hp]⟩

/-- Every failure is a `ParameterError`. -/
theorem C77_errors (py : Py) (p : Params) (h : p.WF) (name : Str) (expected : PVal → Bool) (context : Option Entries) (nsParam : Str)
    (special : Entries) (dflt : PVal) (e : Exc) (he : p.evaluate py name expected context nsParam special dflt = .error e) :
    e = .parameterError := by
  have hns : ∃ o, p.optionalNamespace name = .ok o := by
    by_cases hp : Present p name
    · obtain ⟨v, hv, hr⟩ := hp
      cases hvp : v.isParams with
      | true =>
        obtain ⟨a, b, rfl⟩ := (isParams_iff v).1 hvp
        exact ⟨_, ((C48_namespaces p h name).1 ⟨a, b⟩ hr).1⟩
      | false => exact ⟨_, ((C48_namespaces p h name).2.2 v hv hvp hr).1⟩
    · exact ⟨_, ((C48_namespaces p h name).2.1 hp).1⟩
  obtain ⟨o, ho⟩ := hns
  unfold evaluate at he
  rw [ho] at he
  simp only [bind, Except.bind] at he
  unfold asParameterError at he
  split at he
  · simp at he
  · simp only [Except.error.injEq] at he; exact he.symm

/-- Evaluating a text with a dot needs its dotted prefixes as modules: `1.5` can only be evaluated where a module `1` can be
imported. -/
theorem C77_number_counterexample (py : Py) (p : Params) (h : p.WF) (name : Str) (expected : PVal → Bool) (e : Exc)
    (hr : p.toVal.Reaches (splitOn '.' name) (.str "1.5".toList)) (hno : py.importModule "1".toList = .error e)
    (hl : ((py.locals p name).map (·.1)).Nodup) (hctx : "1".toList ∉ (py.locals p name).map (·.1)) :
    p.evaluate py name expected = .error .parameterError := by
  cases hev : p.evaluate py name expected with
  | error e' => rw [C77_errors py p h name expected _ _ _ _ e' hev]
  | ok v =>
    obtain ⟨s, code, hs, -, ⟨env, -, h2, -⟩, -⟩ := (C77_string py p h name expected Option.none "value".toList [] (by simp) .none _
      (by simp) rfl hr (py.locals p name) (.inr ⟨.inl rfl, rfl⟩) hl v).1 hev
    rw [PVal.str.injEq] at hs
    subst hs
    obtain ⟨m, hm, -⟩ := h2 "1".toList hctx ⟨"5".toList, rfl⟩
    rw [hno] at hm; simp at hm

/-! ## C53: `object_from_parameters` -/

theorem validate_iff (expected : PVal → Bool) (u v : PVal) : validate expected u = .ok v ↔ u = v ∧ expected v = true := by
  unfold validate
  split
  · rename_i h
    simp only [Except.ok.injEq]
    constructor
    · rintro rfl; exact ⟨rfl, h⟩
    · exact fun h => h.1
  · rename_i h
    simp only [reduceCtorEq, false_iff]
    rintro ⟨rfl, h'⟩
    exact h h'

theorem applyFactory_iff (py : Py) (f : PVal) (params : Params) (v : PVal) : applyFactory py f params = .ok v ↔ Makes py f params v := by
  unfold applyFactory
  constructor
  · intro h
    split at h
    · rename_i hc
      split at h
      · rename_i g hg; exact .fromParameters hc hg h
      · rename_i hg; exact .class hc hg h
    · rename_i hc
      split at h
      · rename_i hcall; exact .function (by simpa using hc) hcall h
      · simp at h
  · intro h
    cases h with
    | fromParameters h1 h2 h3 => simp [h1, h2, h3]
    | «class» h1 h2 h3 => simp [h1, h2, h3]
    | function h1 h2 h3 => simp [h1, h2, h3]

theorem bind_validate (x : Res PVal) (expected : PVal → Bool) (v : PVal) :
    (x >>= fun u => validate expected u) = .ok v ↔ x = .ok v ∧ expected v = true := by
  cases x with
  | error e => simp [bind, Except.bind]
  | ok u => simp only [bind, Except.bind, validate_iff, Except.ok.injEq]

/-- Nothing at the name: the default value, or what the default factory makes of an empty `Parameters` object, as long as it is of
the expected type; with neither, `ParameterError`.  (The prefix of that object consists of the characters of the name.) -/
theorem C53_absent (py : Py) (p : Params) (h : p.WF) (name : Str) (expected : PVal → Bool) (a : ObjectArgs) (hp : ¬ Present p name) :
    (∀ v, p.objectFromParameters py name expected a = .ok v ↔ expected v = true ∧
      ((a.defaultValue ≠ .none ∧ v = a.defaultValue) ∨
       (a.defaultValue = .none ∧ a.defaultFactory ≠ .none ∧ Makes py a.defaultFactory (empty (name.map fun c => [c])) v))) ∧
    (a.defaultValue = .none → a.defaultFactory = .none → p.objectFromParameters py name expected a = .error .parameterError) := by
  have hin : p.contains name = false := by
    rw [← Bool.not_eq_true, contains_present h name]; exact hp
  unfold objectFromParameters
  simp only [hin, Bool.false_eq_true, if_false]
  constructor
  · intro v
    by_cases hd : a.defaultValue = .none
    · have h0 : PVal.none.isNone = true := rfl
      simp only [hd, h0, Bool.not_true, Bool.false_eq_true, if_false, hd, ne_eq, not_true_eq_false, false_and, true_and, false_or]
      by_cases hf : a.defaultFactory = .none
      · simp [h0, hf]
      · simp only [isNone_false_iff.2 hf, Bool.not_false, if_true, bind_validate, applyFactory_iff, extendPrefix, hf,
          not_false_eq_true, true_and]
        exact and_comm
    · simp only [isNone_false_iff.2 hd, Bool.not_false, if_true, validate_iff, ne_eq, hd, not_false_eq_true, true_and, false_and,
        or_false]
      constructor
      · rintro ⟨h1, h2⟩; exact ⟨h2, h1.symm⟩
      · rintro ⟨h1, h2⟩; exact ⟨h2.symm, h1⟩
  · intro h1 h2
    simp [h1, h2, isNone]

/-- A parameter that is no namespace must be a string.  One of the special values: that value.  One of the special factories: what
the *default* factory makes (see `C53_special_factory_counterexample`).  Otherwise the string is evaluated with its dotted prefixes as
modules. -/
theorem C53_string (py : Py) (p : Params) (h : p.WF) (name : Str) (expected : PVal → Bool) (a : ObjectArgs)
    (hsv : (a.specialValues.map (·.1)).Nodup) (u : PVal) (hu : u ≠ .none) (hup : u.isParams = false)
    (hr : p.toVal.Reaches (splitOn '.' name) u) (ctx : Entries) (hctx : ContextIs a.context py.globals ctx)
    (hnd : (ctx.map (·.1)).Nodup) (v : PVal) :
    p.objectFromParameters py name expected a = .ok v ↔ expected v = true ∧ ∃ s, u = .str s ∧
      ((s, v) ∈ a.specialValues ∨
       (s ∉ a.specialValues.map (·.1) ∧ s ∈ a.specialFactories.map (·.1) ∧ Makes py a.defaultFactory (empty (name.map fun c => [c])) v) ∨
       (s ∉ a.specialValues.map (·.1) ∧ s ∉ a.specialFactories.map (·.1) ∧
         Evaluates py ctx (fun k => ∃ rest, s = k ++ '.' :: rest) (.str s) v)) := by
  rw [contextOr_iff] at hctx
  subst hctx
  have hin : p.contains name = true := (contains_present h name).2 ⟨u, hu, hr⟩
  have hns : p.hasNamespace name = false := by
    rw [← Bool.not_eq_true, (C47_namespace p h name).2.2]
    rintro ⟨q, hq⟩
    have := reaches_unique h hr hq
    subst this
    simp [toVal, isParams] at hup
  unfold objectFromParameters
  simp only [hin, hns, Bool.false_eq_true, if_true, if_false]
  have hbody : objectFromString py p name expected a = (do
      let s ← (do text (← p.string name))
      match dictGet a.specialValues s with
      | some v => validate expected v
      | Option.none =>
        if (dictGet a.specialFactories s).isSome then
          (applyFactory py a.defaultFactory (empty (extendPrefix p.pfx name)) >>= fun u => validate expected u)
        else
          (evalInContext py (.str s) (contextOr a.context py.globals) ((contextModulesFromPrefix s).map .str) expected
            >>= fun u => validate expected u)) := by
    simp only [objectFromString, bind, Except.bind]
    cases p.string name <;> rfl
  rw [hbody]
  have hrt := reads_text h name
  have hneed : ∀ s, (fun k => ∃ m, PVal.str m ∈ (contextModulesFromPrefix s).map PVal.str ∧ PackageOf k m) =
      fun k => ∃ rest, s = k ++ '.' :: rest := by
    intro s; funext k; rw [need_of_text]
  -- the string is there
  by_cases hstr : ∃ s, u = .str s
  · obtain ⟨s, rfl⟩ := hstr
    rw [(hrt s).2 hr]
    simp only [PVal.str.injEq, bind_validate, exists_eq_left']
    show (match dictGet a.specialValues s with
      | some v => validate expected v
      | Option.none =>
        if (dictGet a.specialFactories s).isSome = true then
          (applyFactory py a.defaultFactory (empty (extendPrefix p.pfx name)) >>= fun u => validate expected u)
        else
          (evalInContext py (.str s) (contextOr a.context py.globals) ((contextModulesFromPrefix s).map .str) expected
            >>= fun u => validate expected u)) = .ok v ↔ _
    rw [← dictGet_iff hsv, ← dictGet_none_iff, ← dictGet_none_iff]
    cases hg : dictGet a.specialValues s with
    | some w =>
      simp only [validate_iff, Option.some.injEq, reduceCtorEq, false_and, or_false]
      exact and_comm
    | none =>
      simp only [reduceCtorEq, true_and, false_or]
      have hmem : s ∈ a.specialFactories.map (·.1) ↔ (dictGet a.specialFactories s).isSome = true := by
        have := dictGet_none_iff a.specialFactories s
        cases hf : dictGet a.specialFactories s with
        | none => simp [(this.1 hf)]
        | some w => rw [hf] at this; simp at this; simpa using this
      rw [hmem]
      cases hf : dictGet a.specialFactories s with
      | some w =>
        simp only [Option.isSome_some, if_true, bind_validate, applyFactory_iff, extendPrefix, true_and, reduceCtorEq, false_and,
          or_false]
        exact and_comm
      | none =>
        simp only [Option.isSome_none, Bool.false_eq_true, if_false, bind_validate, false_and, true_and, false_or]
        rw [evalInContext_iff py _ _ hnd, hneed]
        constructor
        · rintro ⟨⟨-, h1, h2⟩, -⟩; exact ⟨h2, h1⟩
        · rintro ⟨h1, h2⟩; exact ⟨⟨by simp, h2, h1⟩, h1⟩
  · constructor
    · intro hh
      cases hs : (do text (← p.string name) : Res Str) with
      | error e => rw [hs] at hh; simp [bind, Except.bind] at hh
      | ok s => exact absurd ⟨s, reaches_unique h hr ((hrt s).1 hs)⟩ hstr
    · rintro ⟨-, s, hs, -⟩; exact absurd ⟨s, hs⟩ hstr

/-- A namespace must have exactly one of `value` and `factory` (or the names given).  With `value`, the result is its evaluation
(special values are expressions here); with `factory`, what the evaluated factory makes of the namespace. -/
theorem C53_namespace (py : Py) (p : Params) (h : p.WF) (name : Str) (expected : PVal → Bool) (a : ObjectArgs)
    (hsv : (a.specialValues.map (·.1)).Nodup) (hsf : (a.specialFactories.map (·.1)).Nodup) (ns : Params)
    (hns : p.toVal.Reaches (splitOn '.' name) ns.toVal) (ctx : Entries) (hctx : ContextIs a.context (py.locals p name) ctx)
    (hnd : (ctx.map (·.1)).Nodup) (v : PVal) :
    p.objectFromParameters py name expected a = .ok v ↔ expected v = true ∧ ∃ s code mods, Imports ns mods ∧ (∀ m ∈ mods, ∃ t, m = .str t) ∧
      ((¬ Present ns a.factoryName ∧ ns.toVal.Reaches (splitOn '.' a.valueName) (.str s) ∧ CodeIs a.specialValues s code ∧
        Evaluates py ctx (fun k => ∃ t, .str t ∈ mods ∧ PackageOf k t) code v) ∨
       (¬ Present ns a.valueName ∧ ns.toVal.Reaches (splitOn '.' a.factoryName) (.str s) ∧ CodeIs a.specialFactories s code ∧
        ∃ f, Evaluates py ctx (fun k => ∃ t, .str t ∈ mods ∧ PackageOf k t) code f ∧ Makes py f ns v)) := by
  have hnwf : ns.WF := PVal.WF.reaches h hns
  have hin : p.contains name = true := (contains_present h name).2 ⟨ns.toVal, by simp [toVal], hns⟩
  have hhas : p.hasNamespace name = true := (C47_namespace p h name).2.2.2 ⟨ns, hns⟩
  have hget : p.namespace name = .ok ns := ((C47_namespace p h name).1 ns).2 hns
  obtain ⟨h1, h2⟩ := C49_exactly_one ns hnwf [a.valueName, a.factoryName]
  have hone : ns.assertExactlyOnePresent [a.valueName, a.factoryName] = .ok () ↔
      (Present ns a.valueName ∧ ¬ Present ns a.factoryName) ∨ (¬ Present ns a.valueName ∧ Present ns a.factoryName) := by
    rw [h1]
    constructor
    · rintro ⟨before, n, after, he, g1, g2, g3⟩
      cases before with
      | nil =>
        simp only [List.nil_append, List.cons.injEq] at he
        obtain ⟨rfl, rfl⟩ := he
        exact .inl ⟨g1, g3 _ (by simp)⟩
      | cons b bs =>
        cases bs with
        | nil =>
          simp only [List.cons_append, List.nil_append, List.cons.injEq] at he
          obtain ⟨rfl, rfl, -⟩ := he
          exact .inr ⟨g2 _ (by simp), g1⟩
        | cons c cs => simp at he
    · rintro (⟨g1, g2⟩ | ⟨g1, g2⟩)
      · exact ⟨[], _, [a.factoryName], rfl, g1, by simp, by simpa using g2⟩
      · exact ⟨[a.valueName], _, [], rfl, g2, by simpa using g1, by simp⟩
  have hev : ∀ (nm : Str) (special : Entries) (hs : (special.map (·.1)).Nodup) (w : PVal),
      p.evaluate py name (fun _ => true) a.context nm special = .ok w ↔ _ := fun nm special hs w =>
    C77_namespace py p h name (fun _ => true) a.context nm special hs .none ns hns ctx hctx hnd w
  have hpres : ∀ (q : Params) (nm s : Str), q.toVal.Reaches (splitOn '.' nm) (.str s) → Present q nm := fun q nm s hr => ⟨_, by simp, hr⟩
  unfold objectFromParameters objectFromNamespace
  simp only [hin, hhas, if_true, hget]
  show ((ns.assertExactlyOnePresent [a.valueName, a.factoryName]) >>= fun _ => _) = .ok v ↔ _
  cases hass : ns.assertExactlyOnePresent [a.valueName, a.factoryName] with
  | error e =>
    have hno : ¬ ((Present ns a.valueName ∧ ¬ Present ns a.factoryName) ∨ (¬ Present ns a.valueName ∧ Present ns a.factoryName)) := by
      rw [← hone, hass]; simp
    simp only [bind, Except.bind, reduceCtorEq, false_iff]
    rintro ⟨-, s, code, mods, -, -, ⟨g1, g2, -⟩ | ⟨g1, g2, -⟩⟩
    · exact hno (.inl ⟨hpres _ _ _ g2, g1⟩)
    · exact hno (.inr ⟨g1, hpres _ _ _ g2⟩)
  | ok x =>
    rcases hone.1 hass with ⟨g1, g2⟩ | ⟨g1, g2⟩
    · have hc := (contains_present hnwf _).2 g1
      show (if ns.contains a.valueName = true then _ else _ : Res PVal) = .ok v ↔ _
      rw [if_pos hc, bind_validate, hev _ _ hsv]
      constructor
      · rintro ⟨⟨s, code, mods, e1, e2, e3, e4, e5, -⟩, e6⟩
        exact ⟨e6, s, code, mods, e3, e4, .inl ⟨g2, e1, e2, e5⟩⟩
      · rintro ⟨e6, s, code, mods, e3, e4, ⟨-, e1, e2, e5⟩ | ⟨e, -⟩⟩
        · exact ⟨⟨s, code, mods, e1, e2, e3, e4, e5, rfl⟩, e6⟩
        · exact absurd g1 e
    · have hc : ¬ ns.contains a.valueName = true := by rw [contains_present hnwf]; exact g1
      have hc' := (contains_present hnwf _).2 g2
      show (if ns.contains a.valueName = true then _ else if ns.contains a.factoryName = true then _ else _ : Res PVal) = .ok v ↔ _
      rw [if_neg hc, if_pos hc']
      show (p.evaluate py name (fun _ => true) a.context a.factoryName a.specialFactories >>= fun f =>
        (applyFactory py f ns >>= fun u => validate expected u)) = .ok v ↔ _
      constructor
      · intro hh
        cases hf : p.evaluate py name (fun _ => true) a.context a.factoryName a.specialFactories with
        | error e => rw [hf] at hh; simp [bind, Except.bind] at hh
        | ok f =>
          rw [hf] at hh
          have hh' : (applyFactory py f ns >>= fun u => validate expected u) = .ok v := hh
          rw [bind_validate, applyFactory_iff] at hh'
          obtain ⟨s, code, mods, e1, e2, e3, e4, e5, -⟩ := (hev _ _ hsf f).1 hf
          exact ⟨hh'.2, s, code, mods, e3, e4, .inr ⟨g1, e1, e2, f, e5, hh'.1⟩⟩
      · rintro ⟨e6, s, code, mods, e3, e4, ⟨e, -⟩ | ⟨-, e1, e2, f, e5, e7⟩⟩
        · exact absurd g2 e
        · rw [(hev _ _ hsf f).2 ⟨s, code, mods, e1, e2, e3, e4, e5, rfl⟩]
          show (applyFactory py f ns >>= fun u => validate expected u) = .ok v
          rw [bind_validate, applyFactory_iff]
          exact ⟨e7, e6⟩

/-- Whatever is returned is of the expected type. -/
theorem C53_type (py : Py) (p : Params) (name : Str) (expected : PVal → Bool) (a : ObjectArgs) (v : PVal)
    (h : p.objectFromParameters py name expected a = .ok v) : expected v = true := by
  have hv : ∀ u, validate expected u = .ok v → expected v = true := fun u hu => ((validate_iff expected u v).1 hu).2
  have hb : ∀ x : Res PVal, (x >>= fun u => validate expected u) = .ok v → expected v = true := fun x hx =>
    ((bind_validate x expected v).1 hx).2
  unfold objectFromParameters at h
  split at h
  · split at h
    · simp only [objectFromNamespace, bind, Except.bind] at h
      repeat' split at h
      all_goals first | (simp at h; done) | exact hv _ h
    · simp only [objectFromString, bind, Except.bind] at h
      repeat' split at h
      all_goals first | (simp at h; done) | exact hv _ h
  · split at h
    · exact hv _ h
    · split at h
      · exact hb _ h
      · simp at h

/-- The name leads to a string that is none of the special ones, so that it is evaluated. -/
def EvaluatedString (p : Params) (name : Str) (a : ObjectArgs) : Prop :=
  ∃ s, p.toVal.Reaches (splitOn '.' name) (.str s) ∧ s ∉ a.specialValues.map (·.1) ∧ s ∉ a.specialFactories.map (·.1)

/-- The expected type is only used to accept or refuse what was found: a failure to find it stays the same, and an object of the wrong
type is refused by a `ParameterError`; if a string that was evaluated gave it, by a `TypeError`; or (`RaisedWith`) by a `RuntimeError`, if it is a
`Parameters` object that cannot be written as text. -/
theorem C53_expected (py : Py) (p : Params) (h : p.WF) (name : Str) (expected : PVal → Bool) (a : ObjectArgs) :
    (∀ e, p.objectFromParameters py name (fun _ => true) a = .error e → p.objectFromParameters py name expected a = .error e) ∧
    (∀ v, p.objectFromParameters py name (fun _ => true) a = .ok v → expected v = true → p.objectFromParameters py name expected a = .ok v) ∧
    (∀ v, p.objectFromParameters py name (fun _ => true) a = .ok v → expected v = false →
      ∃ e, p.objectFromParameters py name expected a = .error e ∧
        (EvaluatedString p name a → RaisedWith .typeError v e) ∧ (¬ EvaluatedString p name a → RaisedWith .parameterError v e)) := by
  -- what is found, and how it is refused
  have key : ∀ (x : Res PVal) (y : (PVal → Bool) → Res PVal) (refused : Exc),
      (∀ f, y f = x >>= fun u => if f u then .ok u else .error (raising refused u)) →
      (EvaluatedString p name a → refused = .typeError) → (¬ EvaluatedString p name a → refused = .parameterError) →
      (∀ e, y (fun _ => true) = .error e → y expected = .error e) ∧
      (∀ v, y (fun _ => true) = .ok v → expected v = true → y expected = .ok v) ∧
      (∀ v, y (fun _ => true) = .ok v → expected v = false →
        ∃ e, y expected = .error e ∧
          (EvaluatedString p name a → RaisedWith .typeError v e) ∧ (¬ EvaluatedString p name a → RaisedWith .parameterError v e)) := by
    intro x y refused hy h1 h2
    rw [hy, hy]
    cases x with
    | error e => exact ⟨fun _ h => h, fun v h => (by cases h), fun v h => (by cases h)⟩
    | ok u =>
      simp only [bind, Except.bind, if_true]
      refine ⟨fun _ h => (by cases h), fun v h he => ?_, fun v h he => ?_⟩
      · cases h; rw [if_pos he]
      · cases h
        rw [he]
        exact ⟨raising refused u, rfl, fun h => h1 h ▸ raising_spec refused u, fun h => h2 h ▸ raising_spec refused u⟩
  by_cases hin : p.contains name = true
  · by_cases hns : p.hasNamespace name = true
    · have hno : ¬ EvaluatedString p name a := by
        rintro ⟨s, hs, -⟩
        obtain ⟨q, hq⟩ := (C47_namespace p h name).2.2.1 hns
        cases reaches_unique h hs hq
      refine key (objectFromNamespace py p name (fun _ => true) a) (fun f => p.objectFromParameters py name f a) .parameterError (fun f => ?_)
        (fun h => absurd h hno) (fun _ => rfl)
      simp only [objectFromParameters, hin, hns, if_true, objectFromNamespace, bind, Except.bind]
      repeat' split
      all_goals first | rfl | simp_all [validate]
    · simp only [Bool.not_eq_true] at hns
      cases hs : (do text (← p.string name) : Res Str) with
      | error e =>
        have hno : ¬ EvaluatedString p name a := by
          rintro ⟨s, hr, -⟩
          rw [((string_iff h name).1 _).2 ⟨s, rfl, hr⟩] at hs
          cases hs
        refine key (.error e) (fun f => p.objectFromParameters py name f a) .parameterError (fun f => ?_) (fun h => absurd h hno) (fun _ => rfl)
        simp only [objectFromParameters, hin, hns, if_true, if_false, Bool.false_eq_true, objectFromString, bind, Except.bind] at hs ⊢
        cases hp : p.string name with
        | error e' => rw [hp] at hs; cases hs; rfl
        | ok u => rw [hp] at hs; simp only at hs ⊢; rw [hs]
      | ok s =>
        have hobj : ∀ f, p.objectFromParameters py name f a = (match dictGet a.specialValues s with
            | some v => validate f v
            | Option.none =>
              if (dictGet a.specialFactories s).isSome then
                (applyFactory py a.defaultFactory (empty (extendPrefix p.pfx name)) >>= fun u => validate f u)
              else
                (evalInContext py (.str s) (contextOr a.context py.globals) ((contextModulesFromPrefix s).map .str) f
                  >>= fun u => validate f u)) := by
          intro f
          simp only [objectFromParameters, hin, hns, if_true, if_false, Bool.false_eq_true, objectFromString, bind, Except.bind] at hs ⊢
          cases hp : p.string name with
          | error e' => rw [hp] at hs; cases hs
          | ok u => rw [hp] at hs; simp only at hs ⊢; rw [hs]; rfl
        have hr : p.toVal.Reaches (splitOn '.' name) (.str s) := by
          simp only [bind, Except.bind] at hs
          cases hp : p.string name with
          | error e' => rw [hp] at hs; cases hs
          | ok u =>
            rw [hp] at hs
            obtain ⟨t, rfl, ht⟩ := ((string_iff h name).1 u).1 hp
            cases hs
            exact ht
        have huniq : ∀ t, p.toVal.Reaches (splitOn '.' name) (.str t) → t = s := by
          intro t ht
          cases reaches_unique h ht hr
          rfl
        cases hsv : dictGet a.specialValues s with
        | some v =>
          refine key (.ok v) (fun f => p.objectFromParameters py name f a) .parameterError (fun f => by simp only [hobj, hsv]; rfl) ?_ (fun _ => rfl)
          rintro ⟨t, ht, h1, -⟩
          rw [huniq t ht, ← dictGet_none_iff, hsv] at h1
          cases h1
        | none =>
          cases hsf : (dictGet a.specialFactories s).isSome with
          | true =>
            refine key (applyFactory py a.defaultFactory (empty (extendPrefix p.pfx name))) (fun f => p.objectFromParameters py name f a) .parameterError
              (fun f => by simp only [hobj, hsv, hsf, if_true]; rfl) ?_ (fun _ => rfl)
            rintro ⟨t, ht, -, h1⟩
            rw [huniq t ht, ← dictGet_none_iff] at h1
            rw [h1] at hsf
            cases hsf
          | false =>
            refine key (evalInContext py (.str s) (contextOr a.context py.globals) ((contextModulesFromPrefix s).map .str) fun _ => true)
              (fun f => p.objectFromParameters py name f a) .typeError (fun f => ?_) (fun _ => rfl) fun hno => ?_
            · simp only [hobj, hsv, hsf, Bool.false_eq_true, if_false, evalInContext, bind, Except.bind, validate, if_true]
              clear key hobj hs
              cases ((contextModulesFromPrefix s).map PVal.str).foldlM (importOne py) (contextOr a.context py.globals) with
              | error e => rfl
              | ok env =>
                simp only
                cases py.eval (.str s) (dictGet env) with
                | error e => rfl
                | ok v => cases hf : f v <;> simp [hf]
            · refine absurd ⟨s, hr, (dictGet_none_iff _ _).1 hsv, (dictGet_none_iff _ _).1 ?_⟩ hno
              cases hg : dictGet a.specialFactories s with
              | none => rfl
              | some _ => rw [hg] at hsf; cases hsf
  · have hno : ¬ EvaluatedString p name a := by
      rintro ⟨s, hs, -⟩
      exact hin ((contains_present h name).2 ⟨_, (by simp), hs⟩)
    simp only [Bool.not_eq_true] at hin
    refine key (p.objectFromParameters py name (fun _ => true) a) (fun f => p.objectFromParameters py name f a) .parameterError (fun f => ?_)
      (fun h => absurd h hno) (fun _ => rfl)
    simp only [objectFromParameters, hin, Bool.false_eq_true, if_false]
    split
    · simp [validate, bind, Except.bind]
    · split
      · simp only [bind, Except.bind, validate, if_true]
        cases applyFactory py a.defaultFactory (empty (extendPrefix p.pfx name)) <;> rfl
      · rfl

/-! ### Deviations from the documentation -/

/-- A toy interpreter: the names `f` and `pkg.f` are a function, `C` a class with `from_parameters` (which is `f`), `D` one without;
the function returns its argument, calling `D` gives an instance; `pkg` can be imported, nothing else. -/
def toyPy : Py where
  eval code env := match code with
    | .str s => if s = ['f'] then .ok (.obj 1) else if s = ['C'] then .ok (.obj 2) else if s = ['D'] then .ok (.obj 3)
        else if s = "pkg.f".toList ∧ (env "pkg".toList).isSome then .ok (.obj 1) else .error .other
    | _ => .error .typeError
  importModule s := if s = "pkg".toList then .ok (.obj 9) else .error .other
  isClass v := match v with | .obj 2 => true | .obj 3 => true | _ => false
  fromParameters v := match v with | .obj 2 => some (.obj 1) | _ => Option.none
  callable v := match v with | .obj _ => true | _ => false
  call f args := match f, args with
    | .obj 1, [x] => .ok x
    | .obj 3, [] => .ok (.obj 30)
    | _, _ => .error .typeError
  globals := []
  locals _ _ := []

/-- Documented: a string that is one of the special factories has that factory used.  In fact the *default* factory is used: without
one, the call fails. -/
theorem C53_special_factory_counterexample (py : Py) (p : Params) (h : p.WF) (name s : Str) (expected : PVal → Bool) (a : ObjectArgs)
    (hsv : (a.specialValues.map (·.1)).Nodup) (hr : p.toVal.Reaches (splitOn '.' name) (.str s))
    (h1 : s ∉ a.specialValues.map (·.1)) (h2 : s ∈ a.specialFactories.map (·.1)) (h3 : a.defaultFactory = .none)
    (hg : (py.globals.map (·.1)).Nodup) (hc : ∀ c, a.context = some c → (c.map (·.1)).Nodup)
    (hn : py.isClass .none = false ∧ py.callable .none = false) : ¬ ∃ v, p.objectFromParameters py name expected a = .ok v := by
  rintro ⟨v, hv⟩
  have hnd : ((contextOr a.context py.globals).map (·.1)).Nodup := by
    unfold contextOr
    split
    · rename_i c hcx
      split
      · exact hg
      · exact hc c hcx
    · exact hg
  obtain ⟨-, s', hs', h'⟩ := (C53_string py p h name expected a hsv _ (by simp) rfl hr _ ((contextOr_iff ..).2 rfl) hnd v).1 hv
  rw [PVal.str.injEq] at hs'
  subst hs'
  rcases h' with h' | ⟨-, -, h'⟩ | ⟨-, h', -⟩
  · exact h1 (List.mem_map.2 ⟨_, h', rfl⟩)
  · rw [h3] at h'
    cases h' with
    | fromParameters e _ _ => rw [hn.1] at e; simp at e
    | «class» e _ _ => rw [hn.1] at e; simp at e
    | function _ e _ => rw [hn.2] at e; simp at e
  · exact h' h2

/-- Such a call, although the special factory would do. -/
example : (Params.mk [] [(['x'], .str ['s'])]).WF ∧
    Interp.errorOf ((Params.mk [] [(['x'], .str ['s'])]).objectFromParameters toyPy ['x'] (fun _ => true)
      { specialFactories := [(['s'], .obj 1)] }) = some .parameterError := by
  refine ⟨.params (by simp) ?_ ?_, by decide +kernel⟩
  · intro e he; simp only [List.mem_singleton] at he; subst he; decide
  · intro e he; simp only [List.mem_singleton] at he; subst he; exact .leaf ⟨rfl, rfl⟩

/-- Documented: a `value` that is one of the special values has the corresponding value returned.  In fact the corresponding value
is evaluated as an expression, and a value that is no expression fails. -/
theorem C53_special_value_counterexample : ∃ (p : Params) (a : ObjectArgs), p.WF ∧
    p.toVal.Reaches [['x'], "value".toList] (.str ['s']) ∧ (['s'], PVal.obj 7) ∈ a.specialValues ∧
    p.objectFromParameters toyPy ['x'] (fun _ => true) a = .error .parameterError := by
  refine ⟨⟨[], [(['x'], .params [['x']] [("value".toList, .str ['s'])])]⟩, { specialValues := [(['s'], .obj 7)] }, ?_, ?_, by simp, ?_⟩
  · refine .params (by simp) ?_ ?_
    · intro e he; simp only [List.mem_singleton] at he; subst he; decide
    · intro e he; simp only [List.mem_singleton] at he; subst he
      refine .params (by simp) ?_ ?_
      · intro e he; simp only [List.mem_singleton] at he; subst he; decide +kernel
      · intro e he; simp only [List.mem_singleton] at he; subst he; exact .leaf ⟨rfl, rfl⟩
  · exact .step (List.mem_singleton.2 rfl) (.step (List.mem_singleton.2 rfl) (.here _))
  · exact (Interp.errorOf_iff _ _).1 (by decide +kernel)

/-- The object a default factory is given claims to be a namespace named after the *characters* of the parameter name, not the
namespace `name` of these parameters. -/
theorem C53_prefix_counterexample :
    (Params.mk [['a']] []).objectFromParameters toyPy "xyz".toList (fun _ => true) { defaultFactory := .obj 1 } =
      .ok (.params [['x'], ['y'], ['z']] []) := rfl

/-- A string of the wrong type is a `TypeError`, not a `ParameterError`. -/
theorem C53_error_counterexample :
    (Params.mk [] [(['x'], .str ['f'])]).objectFromParameters toyPy ['x'] (fun _ => false) = .error .typeError :=
  (Interp.errorOf_iff _ _).1 (by decide +kernel)

/-- By default `optional_evaluate` looks for `value` in a namespace. -/
example : ((Params.mk [] [(['x'], .params [['x']] [("value".toList, .str ['f'])])]).optionalEvaluate toyPy ['x'] (fun _ => true)).toOption.map
    (·.same (.obj 1)) = some true := by decide +kernel
example : EvaluatedString (Params.mk [] [(['x'], .str ['f'])]) ['x'] {} :=
  ⟨['f'], .step (List.mem_cons_self ..) (.here _), by simp, by simp⟩

/-! ### Examples: each way of giving an object works -/

example : ((Params.mk [] [(['x'], .str "pkg.f".toList)]).objectFromParameters toyPy ['x'] (fun _ => true)).toOption.map
    (·.same (.obj 1)) = some true := by decide +kernel
example : ((Params.mk [] [(['x'], .params [['x']] [("factory".toList, .str ['C']), (['n'], .int 3)])]).objectFromParameters toyPy ['x']
    (fun _ => true)).toOption.map (·.same (.params [['x']] [("factory".toList, .str ['C']), (['n'], .int 3)])) = some true := by
  decide +kernel
example : ((Params.mk [] [(['x'], .params [['x']] [("factory".toList, .str ['D'])])]).objectFromParameters toyPy ['x']
    (fun _ => true)).toOption.map (·.same (.obj 30)) = some true := by decide +kernel
example : ((Params.mk [] [(['x'], .params [['x']] [("value".toList, .str "pkg.f".toList), ("import".toList, .list [.str "pkg".toList])])]).objectFromParameters
    toyPy ['x'] (fun _ => true)).toOption.map (·.same (.obj 1)) = some true := by decide +kernel
example : ((Params.mk [] []).objectFromParameters toyPy ['x'] (fun _ => true) { defaultValue := .int 4, defaultFactory := .obj 1 }).toOption.map
    (·.same (.int 4)) = some true := by decide +kernel
example : ((Params.mk [] [(['x'], .str ['s'])]).objectFromParameters toyPy ['x'] (fun _ => true) { specialValues := [(['s'], .int 5)] }).toOption.map
    (·.same (.int 5)) = some true := by decide +kernel
example : Interp.errorOf ((Params.mk [] [(['x'], .str "1.5".toList)]).evaluate toyPy ['x'] (fun _ => true)) = some .parameterError := by decide +kernel

/-- Documented: an object of the wrong type is refused by a `ParameterError`.  A `Parameters` object in which something cannot be written as text is
refused by a `RuntimeError` raised while the message is made; any other by the `ParameterError`. -/
theorem C53_unprintable_counterexample (py : Py) (p : Params) (h : p.WF) (name : Str) (hp : ¬ Present p name) (q : Params) :
    (Unprintable q.toVal → p.objectFromParameters py name (fun _ => false) { defaultValue := q.toVal } = .error .runtimeError) ∧
    (¬ Unprintable q.toVal → p.objectFromParameters py name (fun _ => false) { defaultValue := q.toVal } = .error .parameterError) := by
  have hin : p.contains name = false := by rw [Bool.eq_false_iff, ne_eq, contains_present h]; exact hp
  have : p.objectFromParameters py name (fun _ => false) { defaultValue := q.toVal } = .error (raising .parameterError q.toVal) := by
    simp only [objectFromParameters, hin, Bool.false_eq_true, if_false, Params.toVal, PVal.isNone, Bool.not_false, if_true, validate]
  exact ⟨fun hu => by rw [this, raising_unprintable hu], fun hu => by rw [this, raising_printable hu]⟩

/-- Both cases are met. -/
example : Unprintable (Params.mk [] [(['k'], .none)]).toVal ∧ ¬ Unprintable (Params.mk [] [(['k'], .int 1)]).toVal := by
  refine ⟨⟨_, rfl, .none, .dict (e := (['k'], .none)) (List.mem_cons_self ..) (.here _), nofun⟩, ?_⟩
  intro h
  have := raising_unprintable (e := .parameterError) h
  revert this
  decide

end Params
end Vista
