import Verif.Model.EvalModules
import Verif.Props.Objects

/-!
# C72: evaluating in the context of modules
-/
set_option linter.unusedSectionVars false
set_option linter.unusedSimpArgs false
namespace Vista
namespace Params
open PVal

/-! ## The dotted prefixes of a name -/

theorem joinWith_proper {c : Char} {a b : List Str} (ha : a ≠ []) (hb : b ≠ []) :
    ∃ rest, joinWith c (a ++ b) = joinWith c a ++ c :: rest := ⟨_, joinWith_append ha hb⟩

/-- The prefixes come in order, each one is a proper prefix, up to a dot, of the later ones. -/
theorem dottedPrefixes_ordered (parts : List Str) : (dottedPrefixes parts).Pairwise fun a b => ∃ rest, b = a ++ '.' :: rest := by
  unfold dottedPrefixes
  rw [List.pairwise_map]
  refine List.Pairwise.imp_of_mem ?_ List.pairwise_lt_range
  intro i j hi hj hij
  simp only [List.mem_range] at hi hj
  obtain ⟨rest, hr⟩ := joinWith_proper (c := '.') (a := parts.take (i + 1)) (b := (parts.take (j + 1)).drop (i + 1))
    (by intro h; have := congrArg List.length h; simp only [List.length_take, List.length_nil] at this; omega)
    (by intro h; have := congrArg List.length h; simp only [List.length_drop, List.length_take, List.length_nil] at this; omega)
  refine ⟨rest, ?_⟩
  rw [← hr]
  congr 1
  have := List.take_append_drop (i + 1) (parts.take (j + 1))
  rwa [List.take_take, Nat.min_eq_left (by omega), eq_comm] at this

/-- `_context_modules_from_prefix` lists exactly the proper dotted prefixes of the name, shorter ones first. -/
theorem C72_prefixes (name : Str) :
    (∀ k, k ∈ contextModulesFromPrefix name ↔ ∃ rest, name = k ++ '.' :: rest) ∧
    (contextModulesFromPrefix name).Pairwise fun a b => ∃ rest, b = a ++ '.' :: rest :=
  ⟨mem_contextModules name, dottedPrefixes_ordered _⟩

example : contextModulesFromPrefix "foo.bar.baz.meep".toList = ["foo".toList, "foo.bar".toList, "foo.bar.baz".toList] := by decide +kernel

/-! ## Imports -/

/-- `parent` is a proper parent package of `k`. -/
def ParentOf (parent k : Str) : Prop := ∃ rest, k = parent ++ '.' :: rest

theorem EvalWorld.at_set (w : EvalWorld) (d : Nat) (hd : d < w.dicts.length) (c : Entries) (imp : List Str) :
    (EvalWorld.mk (w.dicts.set d c) imp).at d = c := by
  simp [EvalWorld.at, hd]

/-- What importing a list of packages into dictionary `d` does, and which imports it makes. -/
structure Imported (py : Py) (d : Nat) (names : List Str) (w : EvalWorld) (r : Res Unit × EvalWorld) (L : List Str) : Prop where
  size : r.2.dicts.length = w.dicts.length
  others : ∀ i, i ≠ d → r.2.dicts[i]? = w.dicts[i]?
  log : r.2.imported = w.imported ++ L
  success : r.1 = .ok () → names.foldlM (importPackage py) (w.at d) = .ok (r.2.at d) ∧ (∀ k ∈ names, dictGet (w.at d) k = Option.none → k ∈ L) ∧
    ∀ k ∈ L, ∃ m, py.importModule k = .ok m
  error : ∀ e, r.1 = .error e → names.foldlM (importPackage py) (w.at d) = .error e ∧
    ∃ a k, L = a ++ [k] ∧ py.importModule k = .error e ∧ ∀ j ∈ a, ∃ m, py.importModule j = .ok m
  mem : ∀ k ∈ L, k ∈ names ∧ dictGet (w.at d) k = Option.none
  nodup : L.Nodup
  order : ∀ a k b, L = a ++ k :: b → ∃ pre post, names = pre ++ k :: post ∧ ∀ j ∈ pre, dictGet (w.at d) j = Option.none → j ∈ a

theorem importPackagesIn_spec (py : Py) (d : Nat) (names : List Str) : ∀ w : EvalWorld, d < w.dicts.length →
    ∃ L, Imported py d names w (importPackagesIn py d names w) L := by
  induction names with
  | nil =>
    intro w hd
    exact ⟨[], rfl, fun _ _ => rfl, by simp [importPackagesIn], by simp [importPackagesIn, pure, Except.pure], by simp [importPackagesIn],
      by simp, by simp, by simp⟩
  | cons x names ih =>
    intro w hd
    simp only [importPackagesIn, importPackageIn]
    cases hx : dictGet (w.at d) x with
    | some v =>
      simp only [Option.isSome_some, if_true]
      obtain ⟨L, h⟩ := ih w hd
      have hfold : (x :: names).foldlM (importPackage py) (w.at d) = names.foldlM (importPackage py) (w.at d) := by
        simp only [List.foldlM_cons, importPackage, hx, Option.isSome_some, if_true, bind, Except.bind]
      refine ⟨L, h.size, h.others, h.log, fun hr => ?_, fun e he => ?_, fun k hk => ?_, h.nodup, fun a k b hL => ?_⟩
      · rw [hfold]
        refine ⟨(h.success hr).1, fun k hk hn => ?_, (h.success hr).2.2⟩
        rcases List.mem_cons.1 hk with rfl | hk
        · rw [hx] at hn; simp at hn
        · exact (h.success hr).2.1 k hk hn
      · rw [hfold]; exact h.error e he
      · exact ⟨List.mem_cons_of_mem _ (h.mem k hk).1, (h.mem k hk).2⟩
      · obtain ⟨pre, post, h1, h2⟩ := h.order a k b hL
        refine ⟨x :: pre, post, by rw [h1]; rfl, fun j hj hn => ?_⟩
        rcases List.mem_cons.1 hj with rfl | hj
        · rw [hx] at hn; simp at hn
        · exact h2 j hj hn
    | none =>
      simp only [Option.isSome_none, Bool.false_eq_true, if_false]
      cases hi : py.importModule x with
      | error e =>
        have hfold : (x :: names).foldlM (importPackage py) (w.at d) = .error e := by
          simp only [List.foldlM_cons, importPackage, hx, Option.isSome_none, Bool.false_eq_true, if_false, bind, Except.bind, hi]
        refine ⟨[x], rfl, fun _ _ => rfl, rfl, by simp, fun e' he => ?_, fun k hk => ?_, by simp, fun a k b hL => ?_⟩
        · simp only [Except.error.injEq] at he
          subst he
          exact ⟨hfold, [], x, rfl, hi, by simp⟩
        · simp only [List.mem_cons, List.not_mem_nil, or_false] at hk
          subst hk
          exact ⟨by simp, hx⟩
        · cases a with
          | nil => simp only [List.nil_append, List.cons.injEq] at hL; exact ⟨[], names, by rw [hL.1]; rfl, by simp⟩
          | cons y a => simp at hL
      | ok m =>
        simp only
        set w1 : EvalWorld := { dicts := w.dicts.set d (dictSet x m (w.at d)), imported := w.imported ++ [x] } with hw1
        have hat : w1.at d = dictSet x m (w.at d) := EvalWorld.at_set w d hd _ _
        have hnew : ∀ k, dictGet (w1.at d) k = Option.none ↔ k ≠ x ∧ dictGet (w.at d) k = Option.none := by
          intro k
          rw [hat, dictGet_dictSet]
          split <;> simp_all
        have hfold : (x :: names).foldlM (importPackage py) (w.at d) = names.foldlM (importPackage py) (w1.at d) := by
          simp only [List.foldlM_cons, importPackage, hx, Option.isSome_none, Bool.false_eq_true, if_false, bind, Except.bind, hi, hat]
        obtain ⟨L, h⟩ := ih w1 (by simp [hw1, hd])
        refine ⟨x :: L, ?_, fun i hi' => ?_, ?_, fun hr => ?_, fun e he => ?_, fun k hk => ?_, ?_, fun a k b hL => ?_⟩
        · rw [h.size]; simp [hw1]
        · rw [h.others i hi']; simp [hw1, Ne.symm hi']
        · rw [h.log]; simp [hw1]
        · rw [hfold]
          obtain ⟨h1, h2, h3⟩ := h.success hr
          refine ⟨h1, fun k hk hn => ?_, fun k hk => ?_⟩
          · by_cases hkx : k = x
            · simp [hkx]
            · exact List.mem_cons_of_mem _ (h2 k (by simpa [hkx] using hk) ((hnew k).2 ⟨hkx, hn⟩))
          · rcases List.mem_cons.1 hk with rfl | hk
            · exact ⟨m, hi⟩
            · exact h3 k hk
        · rw [hfold]
          obtain ⟨h1, a, k, rfl, h2, h3⟩ := h.error e he
          refine ⟨h1, x :: a, k, rfl, h2, fun j hj => ?_⟩
          rcases List.mem_cons.1 hj with rfl | hj
          · exact ⟨m, hi⟩
          · exact h3 j hj
        · rcases List.mem_cons.1 hk with rfl | hk
          · exact ⟨by simp, hx⟩
          · exact ⟨List.mem_cons_of_mem _ (h.mem k hk).1, ((hnew k).1 (h.mem k hk).2).2⟩
        · exact List.nodup_cons.2 ⟨fun hk => ((hnew x).1 (h.mem x hk).2).1 rfl, h.nodup⟩
        · cases a with
          | nil => simp only [List.nil_append, List.cons.injEq] at hL; exact ⟨[], names, by rw [hL.1]; rfl, by simp⟩
          | cons y a =>
            simp only [List.cons_append, List.cons.injEq] at hL
            obtain ⟨rfl, hL⟩ := hL
            obtain ⟨pre, post, h1, h2⟩ := h.order a k b hL
            refine ⟨x :: pre, post, by rw [h1]; rfl, fun j hj hn => ?_⟩
            by_cases hjx : j = x
            · simp [hjx]
            · exact List.mem_cons_of_mem _ (h2 j (by simpa [hjx] using hj) ((hnew j).2 ⟨hjx, hn⟩))

/-- The modules are strings, up to one that is not (if there is one). -/
theorem split_strings (mods : List PVal) : ∃ ss : List Str, mods = ss.map PVal.str ∨
    ∃ bad rest, mods = ss.map PVal.str ++ bad :: rest ∧ ∀ s, bad ≠ .str s := by
  induction mods with
  | nil => exact ⟨[], .inl rfl⟩
  | cons a mods ih =>
    obtain ⟨ss, h⟩ := ih
    by_cases ha : ∃ s, a = .str s
    · obtain ⟨s, rfl⟩ := ha
      refine ⟨s :: ss, ?_⟩
      rcases h with rfl | ⟨bad, rest, rfl, hb⟩
      · exact .inl rfl
      · exact .inr ⟨bad, rest, rfl, hb⟩
    · exact ⟨[], .inr ⟨a, mods, rfl, fun s hs => ha ⟨s, hs⟩⟩⟩

theorem importPackagesIn_append (py : Py) (d : Nat) (xs ys : List Str) (w : EvalWorld) : importPackagesIn py d (xs ++ ys) w =
    (match importPackagesIn py d xs w with
    | (.ok _, w') => importPackagesIn py d ys w'
    | (.error e, w') => (.error e, w')) := by
  induction xs generalizing w with
  | nil => rfl
  | cons x xs ih =>
    simp only [List.cons_append, importPackagesIn]
    cases h : importPackageIn py d x w with
    | mk r w' =>
      cases r with
      | error e => rfl
      | ok _ => exact ih w'

/-- Importing the modules is importing all their packages. -/
theorem importModulesIn_strings (py : Py) (d : Nat) (ss : List Str) (more : List PVal) (w : EvalWorld) :
    importModulesIn py d (ss.map PVal.str ++ more) w =
      (match importPackagesIn py d (ss.flatMap fun s => dottedPrefixes (splitOn '.' s)) w with
      | (.ok _, w') => importModulesIn py d more w'
      | (.error e, w') => (.error e, w')) := by
  induction ss generalizing w with
  | nil => rfl
  | cons s ss ih =>
    simp only [List.map_cons, List.cons_append, importModulesIn, List.flatMap_cons, importPackagesIn_append]
    cases h : importPackagesIn py d (dottedPrefixes (splitOn '.' s)) w with
    | mk r w' =>
      cases r with
      | error e => rfl
      | ok _ => exact ih w'

theorem importModulesIn_bad (py : Py) (d : Nat) (bad : PVal) (hb : ∀ s, bad ≠ .str s) (rest : List PVal) (w : EvalWorld) :
    ∃ e, importModulesIn py d (bad :: rest) w = (.error e, w) ∧ ∀ c, importOne py c bad = .error e := by
  cases bad with
  | str s => exact absurd rfl (hb s)
  | _ => exact ⟨_, rfl, fun _ => rfl⟩

theorem parents_before (ss : List Str) : ∀ pre k post, ss.flatMap (fun s => dottedPrefixes (splitOn '.' s)) = pre ++ k :: post →
    ∀ j, ParentOf j k → j ∈ pre := by
  induction ss with
  | nil => intro pre k post h; simp at h
  | cons s ss ih =>
    intro pre k post h j hj
    rw [List.flatMap_cons, List.append_eq_append_iff] at h
    rcases h with ⟨pre', rfl, h⟩ | ⟨post', h, h'⟩
    · exact List.mem_append_right _ (ih pre' k post h j hj)
    · cases post' with
      | nil =>
        simp only [List.append_nil] at h
        simp only [List.nil_append] at h'
        have := ih [] k post h'.symm j hj
        simp at this
      | cons x post' =>
        simp only [List.cons_append, List.cons.injEq] at h'
        obtain ⟨rfl, -⟩ := h'
        have hks : PackageOf k s := (mem_packages s k).1 (by rw [h]; simp)
        have hjs : j ∈ dottedPrefixes (splitOn '.' s) := by
          obtain ⟨r, rfl⟩ := hj
          rw [mem_packages]
          rcases hks with rfl | ⟨r', rfl⟩
          · exact .inr ⟨r, rfl⟩
          · exact .inr ⟨r ++ '.' :: r', by simp⟩
        have hord := dottedPrefixes_ordered (splitOn '.' s)
        rw [h] at hjs hord
        obtain ⟨r, hr⟩ := hj
        rcases List.mem_append.1 hjs with hm | hm
        · exact hm
        · exfalso
          rcases List.mem_cons.1 hm with rfl | hm
          · have := congrArg List.length hr; simp at this
          · obtain ⟨r', hr'⟩ := (List.pairwise_cons.1 (List.pairwise_append.1 hord).2.1).1 j hm
            have h1 := congrArg List.length hr
            have h2 := congrArg List.length hr'
            simp at h1 h2; omega

/-- The dictionaries that existed before, and so the caller's context, are left alone, however the evaluation ends. -/
theorem evalInModules_all (py : Py) (after : PVal → Entries → Entries) (code : PVal) (context : Nat) (mods : List PVal) (expected : PVal → Bool)
    (w : EvalWorld) : 
    (∀ i, i < w.dicts.length → (evalInModules py after code context mods expected w).2.dicts[i]? = w.dicts[i]?) ∧
    (evalInModules py after code context mods expected w).1 = evalInContext py code (w.at context) mods expected ∧
    ∃ L, (evalInModules py after code context mods expected w).2.imported = w.imported ++ L ∧ L.Nodup ∧
      (∀ k ∈ L, dictGet (w.at context) k = Option.none ∧ ∃ s, .str s ∈ mods ∧ PackageOf k s) ∧
      (∀ a k b, L = a ++ k :: b → ∀ j, ParentOf j k → dictGet (w.at context) j ≠ Option.none ∨ j ∈ a) ∧
      ((∀ m ∈ mods, ∃ s, m = .str s) → (∀ k ∈ L, ∃ m, py.importModule k = .ok m) → ∀ s k, .str s ∈ mods → PackageOf k s →
        dictGet (w.at context) k = Option.none → k ∈ L) ∧
      (∀ k e, k ∈ L → py.importModule k = .error e → (evalInModules py after code context mods expected w).1 = .error e ∧ L.getLast? = some k) := by
  obtain ⟨ss, hss⟩ := split_strings mods
  set names := ss.flatMap fun s => dottedPrefixes (splitOn '.' s) with hnames
  set d := (w.copy context).1 with hd
  set w0 := (w.copy context).2 with hw0
  have hd0 : d < w0.dicts.length := by simp [hd, hw0, EvalWorld.copy]
  have hat : w0.at d = w.at context := by simp [hd, hw0, EvalWorld.copy, EvalWorld.at]
  have hlog0 : w0.imported = w.imported := rfl
  have hold : ∀ i, i < w.dicts.length → w0.dicts[i]? = w.dicts[i]? := by
    intro i hi; simp [hw0, EvalWorld.copy, List.getElem?_append_left hi]
  have hne : ∀ i, i < w.dicts.length → i ≠ d := by intro i hi; simp [hd, EvalWorld.copy]; omega
  obtain ⟨L, hL⟩ := importPackagesIn_spec py d names w0 hd0
  have hmods : importModulesIn py d mods w0 = match importPackagesIn py d names w0 with
      | (.ok _, w') => importModulesIn py d (mods.drop ss.length) w'
      | (.error e, w') => (.error e, w') := by
    rcases hss with rfl | ⟨bad, rest, rfl, -⟩
    · have := importModulesIn_strings py d ss [] w0
      rw [List.drop_of_length_le (by simp)]
      simpa [hnames] using this
    · have := importModulesIn_strings py d ss (bad :: rest) w0
      simpa [hnames] using this
  have hpure : mods.foldlM (importOne py) (w.at context) =
      (names.foldlM (importPackage py) (w.at context) >>= fun env => (mods.drop ss.length).foldlM (importOne py) env) := by
    have h1 := importModules_eq py ss (w.at context)
    rw [hnames, ← h1, ← List.foldlM_append]
    rcases hss with rfl | ⟨bad, rest, rfl, -⟩
    · rw [List.drop_of_length_le (by simp)]; simp
    · simp
  have hmemnames : ∀ k, k ∈ names ↔ ∃ s, s ∈ ss ∧ PackageOf k s := by
    intro k; simp [hnames, List.mem_flatMap, mem_packages]
  have hin : ∀ s, s ∈ ss → PVal.str s ∈ mods := by
    intro s hs
    rcases hss with rfl | ⟨bad, rest, rfl, -⟩ <;> simp [hs]
  have hmem : ∀ k ∈ L, dictGet (w.at context) k = Option.none ∧ ∃ s, .str s ∈ mods ∧ PackageOf k s := by
    intro k hk
    obtain ⟨h1, h2⟩ := hL.mem k hk
    rw [hat] at h2
    obtain ⟨s, hs, hp⟩ := (hmemnames k).1 h1
    exact ⟨h2, s, hin s hs, hp⟩
  have hparents : ∀ a k b, L = a ++ k :: b → ∀ j, ParentOf j k → dictGet (w.at context) j ≠ Option.none ∨ j ∈ a := by
    intro a k b hab j hj
    obtain ⟨pre, post, h1, h2⟩ := hL.order a k b hab
    by_cases hc : dictGet (w.at context) j = Option.none
    · exact .inr (h2 j (parents_before ss pre k post h1 j hj) (by rw [hat]; exact hc))
    · exact .inl hc
  unfold evalInModules
  rw [← hd, ← hw0, hmods]
  unfold evalInContext
  rw [hpure]
  cases hr : importPackagesIn py d names w0 with
  | mk r w1 =>
    rw [hr] at hL
    cases r with
    | error e =>
      obtain ⟨h1, a, k, hak, h2, h3⟩ := hL.error e rfl
      rw [hat] at h1
      simp only [h1, bind, Except.bind]
      refine ⟨fun i hi => by rw [hL.others i (hne i hi), hold i hi], trivial, L, by rw [hL.log, hlog0], hL.nodup, hmem, hparents, ?_, ?_⟩
      · intro _ hall
        obtain ⟨m, hm⟩ := hall k (by simp [hak])
        rw [h2] at hm; simp at hm
      · intro k' e' hk' he'
        rw [hak] at hk'
        rcases List.mem_append.1 hk' with hk' | hk'
        · obtain ⟨m, hm⟩ := h3 k' hk'
          rw [he'] at hm; simp at hm
        · simp only [List.mem_cons, List.not_mem_nil, or_false] at hk'
          subst hk'
          rw [h2] at he'
          simp only [Except.error.injEq] at he'
          exact ⟨by rw [he'], by simp [hak]⟩
    | ok u =>
      obtain ⟨h1, h2, h3⟩ := hL.success rfl
      rw [hat] at h1
      simp only [h1, bind, Except.bind]
      have hnoerr : ∀ k e, k ∈ L → py.importModule k = .error e → False := by
        intro k e hk he
        obtain ⟨m, hm⟩ := h3 k hk
        rw [he] at hm; simp at hm
      rcases hss with hss | ⟨bad, rest, hss, hb⟩
      · have hdrop : mods.drop ss.length = [] := by rw [hss]; simp
        simp only [hdrop, importModulesIn, List.foldlM_nil, pure, Except.pure]
        have hcomplete : (∀ m ∈ mods, ∃ s, m = .str s) → (∀ k ∈ L, ∃ m, py.importModule k = .ok m) → ∀ s k, .str s ∈ mods → PackageOf k s →
            dictGet (w.at context) k = Option.none → k ∈ L := by
          intro _ _ s k hs hp hn
          rw [hss] at hs
          refine h2 k ((hmemnames k).2 ⟨s, by simpa using hs, hp⟩) (by rw [hat]; exact hn)
        cases py.eval code (dictGet (w1.at d)) with
        | error e =>
          refine ⟨fun i hi => ?_, rfl, L, by rw [← hlog0]; exact hL.log, hL.nodup, hmem, hparents, hcomplete, fun k e' hk he => (hnoerr k e' hk he).elim⟩
          simp only [List.getElem?_set_ne (Ne.symm (hne i hi))]
          rw [hL.others i (hne i hi), hold i hi]
        | ok v =>
          refine ⟨fun i hi => ?_, rfl, L, by rw [← hlog0]; exact hL.log, hL.nodup, hmem, hparents, hcomplete, fun k e' hk he => (hnoerr k e' hk he).elim⟩
          simp only [List.getElem?_set_ne (Ne.symm (hne i hi))]
          rw [hL.others i (hne i hi), hold i hi]
      · have hdrop : mods.drop ss.length = bad :: rest := by rw [hss]; simp
        obtain ⟨e, he, he'⟩ := importModulesIn_bad py d bad hb rest w1
        simp only [hdrop, he, List.foldlM_cons, he', bind, Except.bind]
        refine ⟨fun i hi => by rw [hL.others i (hne i hi), hold i hi], trivial, L, by rw [← hlog0]; exact hL.log, hL.nodup, hmem, hparents, ?_,
          fun k e' hk he => (hnoerr k e' hk he).elim⟩
        intro hall
        obtain ⟨s, hs⟩ := hall bad (by rw [hss]; simp)
        exact absurd hs (hb s)

/-- Evaluating never changes the caller's context, nor any other dictionary there was before, whether it succeeds or not. -/
theorem C72_context_untouched (py : Py) (after : PVal → Entries → Entries) (code : PVal) (context : Nat) (mods : List PVal)
    (expected : PVal → Bool) (w : EvalWorld) (i : Nat) (hi : i < w.dicts.length) :
    (evalInModules py after code context mods expected w).2.dicts[i]? = w.dicts[i]? :=
  (evalInModules_all py after code context mods expected w).1 i hi

/-- Success with `v` means: the modules are named by strings, the packages they need and the context does not have can be imported, the
expression has the value `v` in the context together with these, and `v` is of the expected type. -/
theorem C72_evaluates (py : Py) (after : PVal → Entries → Entries) (code : PVal) (context : Nat) (mods : List PVal)
    (expected : PVal → Bool) (w : EvalWorld) (ctx : Entries) (hctx : w.dicts[context]? = some ctx) (hnd : (ctx.map (·.1)).Nodup) (v : PVal) :
    (evalInModules py after code context mods expected w).1 = .ok v ↔
      (∀ m ∈ mods, ∃ s, m = .str s) ∧ Evaluates py ctx (fun k => ∃ s, .str s ∈ mods ∧ PackageOf k s) code v ∧ expected v = true := by
  have : w.at context = ctx := by simp [EvalWorld.at, hctx]
  rw [(evalInModules_all py after code context mods expected w).2.1, this, evalInContext_iff py code ctx hnd]

/-- The imports made: packages of the modules that the context does not have, none twice, parents before what is in them; all of them,
unless a module name is no string or an import fails, and then that is the exception raised, and the last import tried. -/
theorem C72_imports (py : Py) (after : PVal → Entries → Entries) (code : PVal) (context : Nat) (mods : List PVal)
    (expected : PVal → Bool) (w : EvalWorld) (ctx : Entries) (hctx : w.dicts[context]? = some ctx) :
    ∃ L, (evalInModules py after code context mods expected w).2.imported = w.imported ++ L ∧ L.Nodup ∧
      (∀ k ∈ L, k ∉ ctx.map (·.1) ∧ ∃ s, .str s ∈ mods ∧ PackageOf k s) ∧
      (∀ a k b, L = a ++ k :: b → ∀ j, ParentOf j k → j ∈ ctx.map (·.1) ∨ j ∈ a) ∧
      ((∀ m ∈ mods, ∃ s, m = .str s) → (∀ k ∈ L, ∃ m, py.importModule k = .ok m) → ∀ s k, .str s ∈ mods → PackageOf k s →
        k ∉ ctx.map (·.1) → k ∈ L) ∧
      (∀ k e, k ∈ L → py.importModule k = .error e → (evalInModules py after code context mods expected w).1 = .error e ∧ L.getLast? = some k) := by
  have : w.at context = ctx := by simp [EvalWorld.at, hctx]
  obtain ⟨-, -, L, h1, h2, h3, h4, h5, h6⟩ := evalInModules_all py after code context mods expected w
  rw [this] at h3 h4 h5
  simp only [dictGet_none_iff, ne_eq, not_not] at h3 h4 h5
  exact ⟨L, h1, h2, h3, h4, h5, h6⟩

/-- An interpreter that can import everything. -/
def generousPy : Py := { toyPy with importModule := fun _ => .ok (.obj 9), eval := fun _ _ => .ok (.obj 7) }

/-- A context with one module; two modules are asked for. -/
def evalExample : Res PVal × EvalWorld :=
  evalInModules generousPy (fun _ c => c ++ [("__builtins__".toList, .none)]) (.str "a.b".toList) 0 [.str "a.b.c".toList, .str "a.d".toList] (fun _ => true)
    ⟨[[("a".toList, .obj 1)]], []⟩
example : evalExample.2.imported = ["a.b".toList, "a.b.c".toList, "a.d".toList] := by decide +kernel
example : (evalExample.2.dicts.map fun d => d.map (·.1)) =
    [["a".toList], ["a".toList, "a.b".toList, "a.b.c".toList, "a.d".toList, "__builtins__".toList]] := by decide +kernel
example := C72_imports toyPy (fun _ c => c) (.str "x".toList) 0 [.str "a.b.c".toList] (fun _ => true) ⟨[[("a".toList, .obj 1)]], []⟩ _ rfl
example := C72_evaluates toyPy (fun _ c => c) (.str "x".toList) 0 [.str "a.b.c".toList] (fun _ => true) ⟨[[("a".toList, .obj 1)]], []⟩ _ rfl (by decide)

end Params
end Vista
