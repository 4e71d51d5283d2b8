import Verif.Spec.Logging
import Verif.Props.Files
import Verif.Props.ParamsPairsMore
import Verif.Props.ParamsUnify
import Verif.Props.Loader

/-!
# C81: configuring logging, C83: the entry point
-/
set_option linter.unusedSectionVars false
set_option linter.unusedSimpArgs false
namespace Vista
namespace Logging
open Params (Present Found PathIs)
open PVal

variable {E : Env} {p : Params} {fs : FS} {st : State}

/-! ## Levels -/

theorem level_iff (s : Str) (l : Nat) : levels.lookup s = some l ↔ Level s l := by
  have hlook : ∀ (t : List (Str × Nat)) (k : Str) (n : Nat), (t.map (·.1)).Nodup → (t.lookup k = some n ↔ (k, n) ∈ t) := by
    intro t
    induction t with
    | nil => simp
    | cons e t ih =>
      intro k n hnd
      obtain ⟨a, b⟩ := e
      simp only [List.map_cons, List.nodup_cons] at hnd
      by_cases hk : k = a
      · subst hk
        simp only [List.lookup_cons, beq_self_eq_true, if_true, Option.some.injEq, List.mem_cons, Prod.mk.injEq, true_and]
        constructor
        · rintro rfl; exact .inl rfl
        · rintro (h | h)
          · exact h.symm
          · exact absurd (List.mem_map_of_mem (f := (·.1)) h) hnd.1
      · have : (k == a) = false := by simpa using hk
        simp only [List.lookup_cons, this, List.mem_cons, Prod.mk.injEq, hk, false_and, false_or]
        exact ih k n hnd.2
  rw [hlook levels s l (by decide)]
  constructor
  · intro h
    simp only [levels, List.mem_cons, Prod.mk.injEq, List.not_mem_nil, or_false] at h
    rcases h with ⟨rfl, rfl⟩ | ⟨rfl, rfl⟩ | ⟨rfl, rfl⟩ | ⟨rfl, rfl⟩ | ⟨rfl, rfl⟩ | ⟨rfl, rfl⟩ | ⟨rfl, rfl⟩ <;> constructor
  · intro h
    cases h <;> decide

/-- The name of the level: the string under `logging.root_level`, `INFO` if there is none. -/
def LevelName (p : Params) (s : Str) : Prop :=
  p.toVal.Reaches (splitOn '.' "logging.root_level".toList) (.str s) ∨ (¬ Present p "logging.root_level".toList ∧ s = "INFO".toList)

theorem rootLevelName_spec (h : p.WF) :
    (∀ s, rootLevelName p = .ok (.str s) ↔ LevelName p s) ∧ (∀ v, rootLevelName p = .ok v → ∃ s, v = .str s) ∧
    ∀ e, rootLevelName p = .error e → Params.Refused p "logging.root_level".toList .none e := by
  obtain ⟨h1, h2⟩ := Params.C47_string p h "logging.root_level".toList none .none
  have hf : ∀ v, Found p "logging.root_level".toList .none v ↔ p.toVal.Reaches (splitOn '.' "logging.root_level".toList) v := by
    intro v; simp only [Found, ne_eq, not_true_eq_false, false_and, and_false, or_false]
  unfold rootLevelName LevelName
  by_cases hp : Present p "logging.root_level".toList
  · rw [if_pos ((Params.contains_present h _).2 hp)]
    refine ⟨fun s => ?_, fun v hv => ?_, h2⟩
    · rw [h1, hf]
      constructor
      · exact fun hh => .inl hh.1
      · rintro (hh | hh)
        · exact ⟨hh, s, rfl, by simp⟩
        · exact absurd hp hh.1
    · obtain ⟨-, s, hs, -⟩ := (h1 v).1 hv
      exact ⟨s, hs⟩
  · rw [if_neg (fun hc => hp ((Params.contains_present h _).1 hc))]
    refine ⟨fun s => ?_, fun v hv => ?_, fun e he => by simp at he⟩
    · simp only [Except.ok.injEq, PVal.str.injEq]
      constructor
      · rintro rfl; exact .inr ⟨hp, rfl⟩
      · rintro (hh | hh)
        · exact absurd ⟨_, by simp, hh⟩ hp
        · exact hh.2.symm
    · simp only [Except.ok.injEq] at hv
      exact ⟨_, hv.symm⟩

/-- Without `logging.config_file`: with a valid level (`INFO` by default) the root logger has that level and one more handler prints
messages of that level and above; nothing else changes.  Otherwise a `ParameterError` (see `Refused`), and nothing changes. -/
theorem C81_root_level (h : p.WF) (hc : ¬ Present p "logging.config_file".toList) :
    (∀ s l, LevelName p s → Level s l → configure E p false fs st = (.ok (), { st with rootLevel := l, handlers := st.handlers ++ [l] })) ∧
    ((¬ ∃ s l, LevelName p s ∧ Level s l) →
      ∃ e, Params.Refused p "logging.root_level".toList .none e ∧ configure E p false fs st = (.error e, st)) := by
  obtain ⟨h1, h2, h3⟩ := rootLevelName_spec h
  have hconf : configureOnly E p fs st = configRoot p st := by
    rw [configureOnly, if_neg (fun hh => hc ((Params.contains_present h _).1 hh))]
  constructor
  · intro s l hs hl
    have hr : configRoot p st = (.ok (), { st with rootLevel := l, handlers := st.handlers ++ [l] }) := by
      simp only [configRoot, (h1 s).2 hs, (level_iff s l).2 hl]
    rw [configure, hconf, hr]
    rfl
  · intro hno
    have hr : ∃ e, Params.Refused p "logging.root_level".toList .none e ∧ configRoot p st = (.error e, st) := by
      unfold configRoot
      cases hn : rootLevelName p with
      | error e => exact ⟨e, h3 e hn, rfl⟩
      | ok v =>
        obtain ⟨s, rfl⟩ := h2 v hn
        cases hl : levels.lookup s with
        | none =>
          refine ⟨.parameterError, ?_, by simp [hl]⟩
          rcases (h1 s).1 hn with hr | ⟨-, rfl⟩
          · exact Params.refused_printable (Params.found_unique h (.inl hr)) (Params.not_unprintable rfl)
          · exact absurd hl (by decide)
        | some l => exact absurd ⟨s, l, (h1 s).1 hn, (level_iff s l).1 hl⟩ hno
    obtain ⟨e, he, hr⟩ := hr
    refine ⟨e, he, ?_⟩
    rw [configure, hconf, hr]

/-- In a program that had no handlers before, exactly the messages of the level and above are printed then, once each. -/
theorem C81_printed (h : p.WF) (hc : ¬ Present p "logging.config_file".toList) (h0 : st.handlers = []) {s : Str} {l : Nat} (hs : LevelName p s) (hl : Level s l)
    {st' : State} (hr : configure E p false fs st = (.ok (), st')) (level : Nat) : timesPrinted st' level = if l ≤ level then 1 else 0 := by
  rw [(C81_root_level h hc).1 s l hs hl, Prod.mk.injEq] at hr
  rw [← hr.2]
  simp only [timesPrinted, h0, List.nil_append, List.countP_cons, List.countP_nil]
  by_cases hle : l ≤ level
  · simp [hle, Nat.not_lt.2 hle]
  · simp [hle]

/-- With `logging.config_file`: the existing file configures logging, whatever `logging.root_level` says; a `ParameterError` (see `Refused`) if there is no
such file, and nothing changes. -/
theorem C81_config_file (h : p.WF) (hc : Present p "logging.config_file".toList) :
    (∀ l, PathIs E.cwd p "logging.config_file".toList l → (∃ c, fs.node l = some (.file c)) → configure E p false fs st = E.fileConfig fs l st) ∧
    ((¬ ∃ l, PathIs E.cwd p "logging.config_file".toList l ∧ ∃ c, fs.node l = some (.file c)) →
      ∃ e, Params.Refused p "logging.config_file".toList .none e ∧ configure E p false fs st = (.error e, st)) := by
  obtain ⟨h1, h2⟩ := Params.C73_existing_file E.cwd p h "logging.config_file".toList fs
  have hconf := (Params.contains_present h _).2 hc
  constructor
  · intro l hl hn
    have : configureOnly E p fs st = E.fileConfig fs l st := by simp only [configureOnly, hconf, if_true, h1 l hl hn]
    rw [configure, this]
    rcases E.fileConfig fs l st with ⟨_ | ⟨⟩, st'⟩ <;> simp
  · intro hno
    obtain ⟨e, he, hx⟩ := h2 hno
    have : configureOnly E p fs st = (.error e, st) := by simp only [configureOnly, hconf, if_true, hx]
    exact ⟨e, he, by rw [configure, this]⟩

/-- `log_params`: after that the text of the parameters is logged; it must exist even if it is not printed. -/
theorem C81_log_params (st' : State) (r : Res Unit) (h : configure E p false fs st = (r, st')) :
    (∀ e, r = .error e → configure E p true fs st = (.error e, st')) ∧
    (r = .ok () → (∀ e, E.text p = .error e → configure E p true fs st = (.error e, st')) ∧
      ∀ s, E.text p = .ok s → ∃ st'', configure E p true fs st = (.ok (), st'') ∧ st''.rootLevel = st'.rootLevel ∧ st''.handlers = st'.handlers ∧
        st''.disabled = st'.disabled ∧
        st''.printed = st'.printed ++ List.replicate (if st'.disabled then 0 else timesPrinted st' 20) s) := by
  have hc : configureOnly E p fs st = (r, st') := by
    rw [configure] at h
    rcases hco : configureOnly E p fs st with ⟨_ | ⟨⟩, s0⟩ <;> rw [hco] at h <;> simpa using h
  constructor
  · rintro e rfl
    rw [configure, hc]
  · rintro rfl
    constructor
    · intro e he
      simp only [configure, hc, if_true, he]
    · intro s hs
      refine ⟨emit 20 (.ok s) st', by simp only [configure, hc, if_true, hs], ?_⟩
      unfold emit timesPrinted
      by_cases hd : st'.disabled = true ∨ 20 < st'.rootLevel
      · rw [if_pos hd]
        refine ⟨rfl, rfl, rfl, ?_⟩
        rcases hd with hd | hd <;> simp [hd]
      · rw [if_neg hd]
        rw [not_or] at hd
        refine ⟨rfl, rfl, rfl, ?_⟩
        simp only [hd.1, hd.2, if_false, Bool.false_eq_true, List.append_cancel_left_eq]
        rw [List.map_const', List.countP_eq_length_filter]

/-! ## The entry point -/

/-- The pairs given on the command line. -/
def strings (pairs : List (Str × Str)) : List (Str × PVal) := pairs.map fun e => (e.1, .str e.2)

theorem strings_leaf (pairs : List (Str × Str)) : ∀ e ∈ strings pairs, Leaf e.2 := by
  intro e he
  obtain ⟨x, -, rfl⟩ := List.mem_map.1 he
  exact ⟨rfl, rfl⟩

theorem assigned_string {pairs : List (Str × Str)} {path : List Str} {v : PVal} (h : Params.Assigned (strings pairs) path v) : ∃ s, v = .str s := by
  obtain ⟨a, n, b, h1, -⟩ := h
  have : (n, v) ∈ strings pairs := by rw [h1]; simp
  obtain ⟨x, -, hx⟩ := List.mem_map.1 this
  exact ⟨x.2, by simpa using (congrArg Prod.snd hx).symm⟩

/-- A name given on the command line is a namespace of the file, or goes through something that is not. -/
def Clash (P : Params) (pairs : List (Str × Str)) : Prop :=
  ∃ path v, Params.Assigned (strings pairs) path v ∧ ((∃ u, u.isParams = true ∧ P.toVal.Reaches path u) ∨
    ∃ q u, q <+: path ∧ q ≠ path ∧ u.isParams = false ∧ P.toVal.Reaches q u)

theorem assigned_leaf {pairs : List (Str × Str)} {path : List Str} {v : PVal} (h : Params.Assigned (strings pairs) path v) : Leaf v := by
  obtain ⟨s, rfl⟩ := assigned_string h
  exact ⟨rfl, rfl⟩

theorem conflict_iff {P Q : Params} (hP : P.Tree) {pairs : List (Str × Str)} (hQ : Params.fromKeyValuePairs (strings pairs) = .ok Q) :
    Params.Conflict P.toVal Q.toVal ↔ Clash P pairs := by
  have hres := (Params.C44_result _ (strings_leaf pairs)).2 Q hQ
  have hns := Params.C44_namespaces _ (strings_leaf pairs) Q hQ
  have hQt : Q.Tree := Params.loaded_tree hres.1
  constructor
  · rintro ⟨path, u, w, h1, h2, h3, h4⟩
    cases hw : w.isParams with
    | true =>
      have hu : u.isParams = false := by rw [hw] at h4; simpa using h4
      rcases (hns path).1 ⟨w, hw, h2⟩ with rfl | ⟨path', v, a1, a2, a3⟩
      · rw [PVal.reaches_nil] at h1
        subst h1
        simp [Params.toVal, isParams] at hu
      · exact ⟨path', v, a1, .inr ⟨path, u, a2, a3, hu, h1⟩⟩
    | false =>
      have hu : u.isParams = true := by rw [hw] at h4; simpa using h4
      have hwl : Leaf w := by
        rcases Params.tree_leaf_or_params (PVal.Tree.reaches hQt h2) with hl | ⟨a, b, rfl⟩
        · exact hl
        · simp [isParams] at hw
      exact ⟨path, w, (hres.2 _ _ hwl).1 h2, .inl ⟨u, hu, h1⟩⟩
  · rintro ⟨path, v, ha, h⟩
    have hl := assigned_leaf ha
    obtain ⟨s, rfl⟩ := assigned_string ha
    have hr := (hres.2 _ _ hl).2 ha
    rcases h with ⟨u, h1, h2⟩ | ⟨q, u, h1, h2, h3, h4⟩
    · exact ⟨path, u, .str s, h2, hr, by simp, by rw [h1]; simp [isParams]⟩
    · obtain ⟨w, hw, hrw⟩ := (hns q).2 (.inr ⟨path, _, ha, h1, h2⟩)
      exact ⟨q, u, w, h4, hrw, by rintro rfl; simp [isParams] at hw, by simp [h3, hw]⟩

/-- Overriding parameters on the command line.  It fails exactly if a name is empty, a name goes through another one given (`-p a 1 -p a.b
2`), or it does not fit the namespaces of the file; otherwise the parameters are those given, the last of each name, always as strings, and
those of the file that are not overridden. -/
theorem C83_override {P : Params} (hP : P.Tree) (pairs : List (Str × Str)) :
    ((∃ P', override P pairs = .ok P') ↔ Params.GoodPairs (strings pairs) ∧ ¬ Clash P pairs) ∧
    (∀ e, override P pairs = .error e → e = .runtimeError ∨ e = .typeError ∨ e = .ioError) ∧
    ∀ P', override P pairs = .ok P' → P'.Tree ∧ ∀ path v, Leaf v →
      (P'.toVal.Reaches path v ↔ Params.Assigned (strings pairs) path v ∨ (P.toVal.Reaches path v ∧ ¬ ∃ w, Params.Assigned (strings pairs) path w)) := by
  by_cases h0 : pairs = []
  · subst h0
    have hno : ∀ path w, ¬ Params.Assigned (strings []) path w := by
      rintro path w ⟨a, n, b, h, -⟩
      simp [strings] at h
    simp only [override, if_true, Except.ok.injEq, exists_eq', true_iff, reduceCtorEq, false_implies, implies_true, true_and]
    refine ⟨⟨?_, ?_⟩, ?_⟩
    · intro a n v b h
      simp [strings] at h
    · rintro ⟨path, v, h, -⟩
      exact hno _ _ h
    · rintro P' rfl
      refine ⟨hP, fun path v hv => ?_⟩
      simp [hno]
  · obtain ⟨hiff, hres⟩ := Params.C44_result _ (strings_leaf pairs)
    have hov : override P pairs = (Params.fromKeyValuePairs (strings pairs)).bind fun Q => P.unify Q := by
      simp only [override, if_neg h0, strings, bind]
    rw [hov]
    cases hQ : Params.fromKeyValuePairs (strings pairs) with
    | error e =>
      refine ⟨⟨fun ⟨_, h⟩ => by simp [Except.bind] at h, fun h => ?_⟩, fun x hx => ?_, fun P' h => by simp [Except.bind] at h⟩
      · obtain ⟨Q, h'⟩ := hiff.2 h.1
        rw [hQ] at h'; simp at h'
      · simp only [Except.bind, Except.error.injEq] at hx
        subst hx
        obtain ⟨b, n, v, a, -, h | h⟩ := Params.C44_failure _ (strings_leaf pairs) _ hQ
        · exact .inl h.2
        · exact .inr (.inl h.2)
    | ok Q =>
      obtain ⟨hQl, hQr⟩ := hres Q hQ
      have hQt : Q.Tree := Params.loaded_tree hQl
      obtain ⟨c1, c2⟩ := Params.C45_conflict P Q hP hQt []
      simp only [Except.bind]
      refine ⟨?_, fun e he => .inr (.inr ((c1 e).1 he).2), fun P' h => ?_⟩
      · rw [c2, conflict_iff hP hQ]
        exact ⟨fun h => ⟨hiff.1 ⟨Q, hQ⟩, h⟩, fun h => h.2⟩
      · obtain ⟨v1, -, v2, -⟩ := Params.C45_values P Q P' hP hQt [] h
        have hnc : ¬ Params.Conflict P.toVal Q.toVal := c2.1 ⟨P', h⟩
        refine ⟨v1, fun path v hv => ?_⟩
        rw [v2 path v hv, hQr path v hv]
        constructor
        · rintro (⟨h1, -⟩ | ⟨h1, h2⟩)
          · exact .inl h1
          · refine .inr ⟨h1, ?_⟩
            rintro ⟨w, hw⟩
            obtain ⟨s, rfl⟩ := assigned_string hw
            exact h2 ⟨_, by simp, (hQr path _ (assigned_leaf hw)).2 hw⟩
        · rintro (h1 | ⟨h1, h2⟩)
          · obtain ⟨s, rfl⟩ := assigned_string h1
            exact .inl ⟨h1, .inl (by simp)⟩
          · refine .inr ⟨h1, ?_⟩
            rintro ⟨w, hw, hr⟩
            rcases Params.tree_leaf_or_params (PVal.Tree.reaches hQt hr) with hl | ⟨a, b, rfl⟩
            · exact h2 ⟨w, (hQr path w hl).1 hr⟩
            · exact hnc ⟨path, v, _, h1, hr, hw, by rw [hv.1]; simp [isParams]⟩

/-- An overridden parameter is a string, so that no number, boolean or list can be given. -/
theorem C83_strings_only {P P' : Params} (hP : P.Tree) {pairs : List (Str × Str)} (h : override P pairs = .ok P') {name : Str} {s : Str}
    (ha : Params.Assigned (strings pairs) (splitOn '.' name) (.str s)) :
    P'.string name = .ok (.str s) ∧ P'.integer name = .error .parameterError ∧ P'.floatingPoint name = .error .parameterError ∧
      P'.boolean name = .error .parameterError ∧ P'.arbitraryList name = .error .parameterError := by
  obtain ⟨ht, hv⟩ := (C83_override hP pairs).2.2 P' h
  have hr := (hv _ _ (assigned_leaf ha)).2 (.inl ha)
  have hwf : P'.WF := ht.wf
  have hf : ∀ v, Found P' name .none v → v = .str s := by
    intro v hv'
    rcases hv' with h' | ⟨-, h', -⟩
    · exact PVal.reaches_unique hwf h' hr
    · exact absurd rfl h'
  have herr : ∀ (r : Res PVal), (∀ v, r = .ok v → False) → (∀ e, r = .error e → Params.Refused P' name .none e) →
      r = .error .parameterError := by
    intro r h1 h2
    cases r with
    | ok v => exact (h1 v rfl).elim
    | error e =>
      rw [(h2 e rfl).2]
      rintro ⟨v, hv, hu⟩
      obtain rfl := hf v hv
      exact Params.not_unprintable rfl hu
  refine ⟨((Params.C47_string P' hwf name none .none).1 _).2 ⟨.inl hr, s, rfl, by simp⟩, ?_, ?_, ?_, ?_⟩
  · refine herr _ (fun v hv => ?_) (Params.C47_integer P' hwf name none .none).2
    obtain ⟨h1, i, h2, -⟩ := ((Params.C47_integer P' hwf name none .none).1 v).1 hv
    rw [hf v h1] at h2
    cases h2
  · refine herr _ (fun v hv => ?_) (Params.C47_floating_point P' hwf name none .none).2
    obtain ⟨h1, q, h2, -⟩ := ((Params.C47_floating_point P' hwf name none .none).1 v).1 hv
    rw [hf v h1] at h2
    simp at h2
  · refine herr _ (fun v hv => ?_) (fun e he => (Params.C47_boolean_and_list P' hwf name .none).2.2 e (.inl he))
    obtain ⟨h1, b, h2⟩ := ((Params.C47_boolean_and_list P' hwf name .none).1 v).1 hv
    rw [hf v h1] at h2
    simp at h2
  · refine herr _ (fun v hv => ?_) (fun e he => (Params.C47_boolean_and_list P' hwf name .none).2.2 e (.inr he))
    obtain ⟨h1, b, h2⟩ := ((Params.C47_boolean_and_list P' hwf name .none).2.1 v).1 hv
    rw [hf v h1] at h2
    simp at h2

variable {W : Loader.World} {depth : Nat} {main : Params → FS → State → Res Unit × FS × State} {file : Str} {pairs : List (Str × Str)}

/-- The program is run exactly once, if the parameters can be loaded and overridden and logging can be configured from them: with these
parameters, and with logging already configured (and the parameters logged).  Otherwise it is not run, no file changes, and the error of
the step that failed is raised; errors before logging is configured leave logging alone. -/
theorem C83_runs :
    (∀ P0 P, Loader.load W true depth file none none [] = .ok P0 → override P0 pairs = .ok P →
      (∀ st', configure E P false fs st = (.ok (), st') → ∃ st'', st''.rootLevel = st'.rootLevel ∧ st''.handlers = st'.handlers ∧
        st''.disabled = st'.disabled ∧ entryPoint E W depth main none file pairs fs st = main P fs st'') ∧
      (∀ e st', configure E P false fs st = (.error e, st') → entryPoint E W depth main none file pairs fs st = (.error e, fs, st'))) ∧
    (∀ e, Loader.load W true depth file none none [] = .error e → entryPoint E W depth main none file pairs fs st = (.error e, fs, st)) ∧
    (∀ P0 e, Loader.load W true depth file none none [] = .ok P0 → override P0 pairs = .error e →
      entryPoint E W depth main none file pairs fs st = (.error e, fs, st)) := by
  refine ⟨fun P0 P h1 h2 => ⟨fun st' h3 => ?_, fun e st' h3 => ?_⟩, fun e h1 => ?_, fun P0 e h1 h2 => ?_⟩
  · refine ⟨emit 20 ((E.text P).map ("Ran with parameters:\n".toList ++ ·)) st', ?_, ?_, ?_, ?_⟩
    · unfold emit; split <;> [rfl; (split <;> rfl)]
    · unfold emit; split <;> [rfl; (split <;> rfl)]
    · unfold emit; split <;> [rfl; (split <;> rfl)]
    · simp only [entryPoint, Option.isSome_none, Bool.false_eq_true, if_false, h1, h2, h3]
  · simp only [entryPoint, Option.isSome_none, Bool.false_eq_true, if_false, h1, h2, h3]
  · simp only [entryPoint, Option.isSome_none, Bool.false_eq_true, if_false, h1]
  · simp only [entryPoint, Option.isSome_none, Bool.false_eq_true, if_false, h1, h2]

/-- The documented way to give the parameters directly never works: an `AttributeError`, and the program is not run. -/
theorem C83_given_counterexample (P : Params) : entryPoint E W depth main (some P) file pairs fs st = (.error .attributeError, fs, st) := rfl

/-- The values the program sees: what is given on the command line counts more than the file. -/
theorem C83_values (hW : W.OK) {P0 P : Params} (h0 : Loader.load W true depth file none none [] = .ok P0) (h1 : override P0 pairs = .ok P) :
    P0.Tree ∧ P.Tree ∧ ∀ path v, Leaf v →
      (P.toVal.Reaches path v ↔ Params.Assigned (strings pairs) path v ∨ (P0.toVal.Reaches path v ∧ ¬ ∃ w, Params.Assigned (strings pairs) path w)) := by
  have ht : P0.Tree := by
    have hl := ((Loader.C52_load (W := W) (useEnv := true) depth file none none []).2 Params.empty (.inr (.inr ⟨rfl, rfl, rfl⟩)))
    cases hr : W.read file with
    | error e => rw [hl.1 e hr] at h0; simp at h0
    | ok text =>
      rw [hl.2 text hr] at h0
      exact (Loader.C52_layers hW (depth + 1) ⟨some (W.parent file), text⟩ Params.empty (.params List.nodup_nil (fun _ h => absurd h List.not_mem_nil) (fun _ h => absurd h List.not_mem_nil)) [] P0 h0).1
  exact ⟨ht, (C83_override ht pairs).2.2 P h1⟩

end Logging

end Vista
