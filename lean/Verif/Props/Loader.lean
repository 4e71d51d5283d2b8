import Verif.Proofs.Loader

/-!
# C52: loading parameter files
-/
set_option linter.unusedSectionVars false
set_option linter.unusedSimpArgs false
namespace Vista
namespace Loader
open PVal Params

variable {W : World} {useEnv : Bool}

/-! ## Proof steps -/

theorem stacked_of_fold (hW : W.OK) : ∀ {fs : List Params} {p r : Params}, (∀ f ∈ fs, f.Loaded) → p.Tree → fs.foldlM (step W useEnv) p = .ok r →
    ∃ qs, Stacked W useEnv p fs qs r := by
  intro fs
  induction fs with
  | nil =>
    intro p r _ _ h
    simp only [List.foldlM_nil, pure, Except.pure, Except.ok.injEq] at h
    exact ⟨[], h ▸ .nil p⟩
  | cons f fs ih =>
    intro p r hf hp h
    simp only [List.foldlM_cons, bind, Except.bind] at h
    split at h
    · simp at h
    · rename_i p1 h1
      obtain ⟨c, q, e1, e2, e3⟩ := step_ok h1
      have hft := loaded_tree (hf f (by simp))
      have hqt := layer_tree hp hft e1 e2
      have hc := context_of hW hp e1
      obtain ⟨qs, hqs⟩ := ih (fun g hg => hf g (by simp [hg])) (step_tree hp hft h1) h
      obtain ⟨-, -, v1, v2⟩ := C45_values p q p1 hp hqt [] e3
      exact ⟨q :: qs, .cons hc (fun hnl => Interp.C50_interpolated hW.word f c q (hf f (by simp)) hc.tree hnl e2) ⟨v1, v2⟩ hqs⟩

theorem same_reaches {p q : Params} (hp : p.Tree) (hq : q.Tree) (h : Same p q) (path : List Str) (v : PVal) (hv : Leaf v) :
    p.toVal.Reaches path v ↔ q.toVal.Reaches path v := by
  rw [← dictReaches_dictify hp path v hv, ← dictReaches_dictify hq path v hv, (same_iff p q).1 h]

theorem last_wins {p r : Params} {fs qs : List Params} (h : Stacked W useEnv p fs qs r) (path : List Str) (v : PVal) (hv : Leaf v)
    (hn : v ≠ .none) : r.toVal.Reaches path v ↔
      ∃ before q after, p :: qs = before ++ q :: after ∧ q.toVal.Reaches path v ∧ ∀ q' ∈ after, ¬ HasValue q' path := by
  induction h with
  | nil p =>
    constructor
    · intro h; exact ⟨[], p, [], rfl, h, by simp⟩
    · rintro ⟨before, q, after, he, hq, -⟩
      cases before with
      | nil => simp only [List.nil_append, List.cons.injEq] at he; rw [he.1]; exact hq
      | cons b bs => simp at he
  | @cons p c f q p' r fs qs _ _ ho _ ih =>
    rw [ih]
    constructor
    · rintro ⟨before, l, after, he, hl, ha⟩
      cases before with
      | nil =>
        simp only [List.nil_append, List.cons.injEq] at he
        obtain ⟨rfl, rfl⟩ := he
        rcases (ho.parameters path v hv).1 hl with ⟨h1, -⟩ | ⟨h1, h2⟩
        · exact ⟨[p], q, qs, rfl, h1, ha⟩
        · refine ⟨[], p, q :: qs, rfl, h1, ?_⟩
          intro q' hq'
          rcases List.mem_cons.1 hq' with rfl | hq'
          · exact h2
          · exact ha q' hq'
      | cons b bs =>
        simp only [List.cons_append, List.cons.injEq] at he
        obtain ⟨rfl, rfl⟩ := he
        exact ⟨p :: q :: bs, l, after, rfl, hl, ha⟩
    · rintro ⟨before, l, after, he, hl, ha⟩
      cases before with
      | nil =>
        simp only [List.nil_append, List.cons.injEq] at he
        obtain ⟨rfl, rfl⟩ := he
        exact ⟨[], p', qs, rfl, (ho.parameters path v hv).2 (.inr ⟨hl, ha q (by simp)⟩), fun q' hq' => ha q' (by simp [hq'])⟩
      | cons b bs =>
        simp only [List.cons_append, List.cons.injEq] at he
        obtain ⟨rfl, he⟩ := he
        cases bs with
        | nil =>
          simp only [List.nil_append, List.cons.injEq] at he
          obtain ⟨rfl, rfl⟩ := he
          exact ⟨[], p', qs, rfl, (ho.parameters path v hv).2 (.inl ⟨hl, .inl hn⟩), ha⟩
        | cons b' bs =>
          simp only [List.cons_append, List.cons.injEq] at he
          obtain ⟨rfl, rfl⟩ := he
          exact ⟨p' :: bs, l, after, rfl, hl, ha⟩

theorem reads_unique (hW : W.OK) {x : Source} {own own' : Entries} {items items' : List PVal} (h : Reads W x own items)
    (h' : Reads W x own' items') : own = own' ∧ items = items' := by
  obtain ⟨es, h1, -, rfl, h2⟩ := (reads_iff ..).1 h
  obtain ⟨es', h1', -, rfl, h2'⟩ := (reads_iff ..).1 h'
  rw [h1] at h1'
  simp only [Except.ok.injEq, Yaml.map.injEq] at h1'
  subst h1'
  refine ⟨rfl, ?_⟩
  have hn : ((toEntries es).map (·.1)).Nodup := by
    have := toVal_plain (hW.parse _ _ h1)
    rw [toVal] at this
    exact this.inv.1
  rcases h2 with ⟨rfl, h2⟩ | ⟨v, hv, hi⟩ <;> rcases h2' with ⟨rfl, h2'⟩ | ⟨v', hv', hi'⟩
  · rfl
  · exact absurd (List.mem_map.2 ⟨_, hv', rfl⟩) h2
  · exact absurd (List.mem_map.2 ⟨_, hv, rfl⟩) h2'
  · rw [← dictGet_iff hn] at hv hv'
    rw [hv, Option.some.injEq] at hv'
    subst hv'
    rw [hi, Except.ok.injEq] at hi'
    exact hi'

theorem names_unique {x y y' : Source} {item : PVal} (h : Names W x item y) (h' : Names W x item y') : y = y' := by
  obtain ⟨path, h1, h2, h3⟩ := (names_iff ..).1 h
  obtain ⟨path', h1', h2', h3'⟩ := (names_iff ..).1 h'
  rw [h1, Except.ok.injEq] at h1'
  subst h1'
  rw [h2, Except.ok.injEq] at h2'
  cases y; cases y'
  simp only at *
  rw [h2', h3, h3']

theorem listing_acc (hW : W.OK) {x : Source} {fs : List Params} (h : Listing W x fs) : Acc (fun y x => Includes W x y) x := by
  refine Listing.rec (W := W) (motive_1 := fun x _ _ => Acc (fun y x => Includes W x y) x)
    (motive_2 := fun x items _ _ => ∀ item ∈ items, ∀ y, Names W x item y → Acc (fun y x => Includes W x y) y) ?_ ?_ ?_ h
  · intro x own items fs f hr _ _ ih
    refine Acc.intro _ fun y hy => ?_
    obtain ⟨own', items', hr', item, hi, hn⟩ := hy
    obtain ⟨-, rfl⟩ := reads_unique hW hr hr'
    exact ih item hi y hn
  · simp
  · intro x y item items fs gs hn _ _ ih1 ih2 i hi z hz
    rcases List.mem_cons.1 hi with rfl | hi
    · rw [names_unique hz hn]; exact ih1
    · exact ih2 i hi z hz

theorem acc_no_cycle {x y : Source} (h : Acc (fun y x => Includes W x y) x) (hxy : Relation.ReflTransGen (Includes W) x y)
    (hyy : Relation.TransGen (Includes W) y y) : False := by
  have hy : Acc (fun y x => Includes W x y) y := by
    clear hyy
    induction hxy with
    | refl => exact h
    | tail _ hs ih => exact Acc.inv ih hs
  clear h hxy
  induction hy with
  | intro y _ ih =>
    obtain ⟨z, hz, hzy⟩ := Relation.TransGen.head'_iff.1 hyy
    exact ih z hz (Relation.TransGen.tail' hzy hz)

theorem innerLoad_error (depth : Nat) (content : Str) (dir : Option Str) (ctx : Params) (pfx : List Str) (e : Exc)
    (h : innerLoad W useEnv (depth + 1) content dir ctx pfx = .error e) : e = .ioError := by
  rw [innerLoad] at h
  unfold asIOError at h
  split at h
  · simp at h
  · simp only [Except.error.injEq] at h; exact h.symm

/-! ## C52 -/

/-- `load_string` is the loading of a source without directory. -/
theorem C52_string (depth : Nat) (content : Str) (ctx : Params) (pfx : List Str) :
    loadString W useEnv depth content ctx pfx = innerLoad W useEnv (depth + 1) content none ctx pfx := rfl

/-- `load`: giving both contexts is a `ParameterError`; otherwise, if the file cannot be read, that error; otherwise the file's text
is loaded (relative includes refer to the file's directory) with the given context, the empty one by default. -/
theorem C52_load (depth : Nat) (f : Str) (context includedContext : Option Params) (pfx : List Str) :
    (context.isSome ∧ includedContext.isSome → load W useEnv depth f context includedContext pfx = .error .parameterError) ∧
    (∀ ctx, (context = some ctx ∧ includedContext = Option.none) ∨ (context = Option.none ∧ includedContext = some ctx) ∨
        (context = Option.none ∧ includedContext = Option.none ∧ ctx = Params.empty) →
      (∀ e, W.read f = .error e → load W useEnv depth f context includedContext pfx = .error e) ∧
      (∀ text, W.read f = .ok text → load W useEnv depth f context includedContext pfx =
        innerLoad W useEnv (depth + 1) text (some (W.parent f)) ctx pfx)) := by
  constructor
  · rintro ⟨h1, h2⟩
    obtain ⟨a, rfl⟩ := Option.isSome_iff_exists.1 h1
    obtain ⟨b, rfl⟩ := Option.isSome_iff_exists.1 h2
    rfl
  · rintro ctx (⟨rfl, rfl⟩ | ⟨rfl, rfl⟩ | ⟨rfl, rfl, rfl⟩) <;>
    · refine ⟨fun e he => ?_, fun t ht => ?_⟩
      · simp only [load, bind, Except.bind, he]
      · simp only [load, bind, Except.bind, ht]

/-- Every failure while the text is being processed is an `IOError`. -/
theorem C52_failures (depth : Nat) (content : Str) (dir : Option Str) (ctx : Params) (pfx : List Str) :
    (∃ r, innerLoad W useEnv (depth + 1) content dir ctx pfx = .ok r) ∨
      innerLoad W useEnv (depth + 1) content dir ctx pfx = .error .ioError := by
  cases h : innerLoad W useEnv (depth + 1) content dir ctx pfx with
  | ok r => exact .inl ⟨r, rfl⟩
  | error e => exact .inr (by rw [innerLoad_error _ _ _ _ _ _ h])

/-- The result is the given context overridden by each file in turn: the included files in order, each after those it includes
itself, the file itself last; each file is interpolated with what came before it, and with the environment variables not hidden by
a parameter, as context.  The prefix of the result is the one asked for. -/
theorem C52_layers (hW : W.OK) (depth : Nat) (x : Source) (ctx : Params) (hctx : ctx.Tree) (pfx : List Str) (r : Params)
    (h : innerLoad W useEnv depth x.content x.dir ctx pfx = .ok r) :
    r.Tree ∧ r.pfx = pfx ∧ ∃ fs qs r', Listing W x fs ∧ Stacked W useEnv ctx fs qs r' ∧ r.asNestedDicts = r'.asNestedDicts := by
  obtain ⟨h1, h2, fs, r', h3, h4, h5⟩ := load_sound hW depth x ctx pfx r hctx h
  obtain ⟨qs, hqs⟩ := stacked_of_fold hW (listing_trees hW h3) hctx h4
  exact ⟨h1, h2, fs, qs, r', h3, hqs, h5⟩

/-- A parameter of the result (other than `None`) is one of the last layer that has something at its path; environment variables are
in no layer, so they never appear by themselves. -/
theorem C52_last_wins (hW : W.OK) (depth : Nat) (x : Source) (ctx : Params) (hctx : ctx.Tree) (pfx : List Str) (r : Params)
    (h : innerLoad W useEnv depth x.content x.dir ctx pfx = .ok r) :
    ∃ fs qs r', Listing W x fs ∧ Stacked W useEnv ctx fs qs r' ∧ ∀ path v, Leaf v → v ≠ .none →
      (r.toVal.Reaches path v ↔
        ∃ before q after, ctx :: qs = before ++ q :: after ∧ q.toVal.Reaches path v ∧ ∀ q' ∈ after, ¬ HasValue q' path) := by
  obtain ⟨h1, h2, fs, r', h3, h4, h5⟩ := load_sound hW depth x ctx pfx r hctx h
  obtain ⟨qs, hqs⟩ := stacked_of_fold hW (listing_trees hW h3) hctx h4
  have hrt : r'.Tree := fold_tree (fun f hf => loaded_tree (listing_trees hW h3 f hf)) hctx h4
  refine ⟨fs, qs, r', h3, hqs, fun path v hv hn => ?_⟩
  rw [same_reaches h1 hrt h5 path v hv]
  exact last_wins hqs path v hv hn

/-- Loading one file after the other, from `p`, succeeds: each file can be interpolated in the context, and unified with what came
before. -/
inductive CanStack (W : World) (useEnv : Bool) : Params → List Params → Prop
  | nil (p : Params) : CanStack W useEnv p []
  | cons {p c f q p' : Params} {fs : List Params} : fromMapping (interpolationContext W useEnv p) = .ok c →
      Interp.interpolate W.word f c = .ok q → p.unify q = .ok p' → CanStack W useEnv p' fs → CanStack W useEnv p (f :: fs)

theorem canStack_iff (fs : List Params) : ∀ p, CanStack W useEnv p fs ↔ ∃ r, fs.foldlM (step W useEnv) p = .ok r := by
  induction fs with
  | nil => intro p; exact ⟨fun _ => ⟨p, rfl⟩, fun _ => .nil p⟩
  | cons f fs ih =>
    intro p
    constructor
    · intro h
      cases h with
      | cons h1 h2 h3 h4 =>
        obtain ⟨r, hr⟩ := (ih _).1 h4
        exact ⟨r, by simp only [List.foldlM_cons, step, h1, h2, h3, bind, Except.bind]; exact hr⟩
    · rintro ⟨r, h⟩
      simp only [List.foldlM_cons, bind, Except.bind] at h
      split at h
      · simp at h
      · rename_i p1 h1
        obtain ⟨c, q, e1, e2, e3⟩ := step_ok h1
        exact .cons e1 e2 e3 ((ih p1).2 ⟨r, h⟩)

/-- Loading succeeds (given enough stack) exactly when all the files involved can be read, are mappings with string keys none of
which contains a dot, and can be interpolated and unified one after the other. -/
theorem C52_success (hW : W.OK) (x : Source) (ctx : Params) (hctx : ctx.Tree) (pfx : List Str) :
    (∃ depth r, innerLoad W useEnv depth x.content x.dir ctx pfx = .ok r) ↔
      ∃ fs, Listing W x fs ∧ CanStack W useEnv ctx fs := by
  constructor
  · rintro ⟨depth, r, h⟩
    obtain ⟨-, -, fs, r', h3, h4, -⟩ := load_sound hW depth x ctx pfx r hctx h
    exact ⟨fs, h3, (canStack_iff fs ctx).2 ⟨r', h4⟩⟩
  · rintro ⟨fs, h, hc⟩
    obtain ⟨r', hr⟩ := (canStack_iff fs ctx).1 hc
    obtain ⟨depth, r, h1, -⟩ := load_complete hW h ctx r' pfx hctx hr
    exact ⟨depth, r, h1⟩

/-- The amount of stack does not matter once it suffices. -/
theorem C52_depth (hW : W.OK) (d d' : Nat) (hd : d ≤ d') (x : Source) (ctx : Params) (pfx : List Str) (r : Params)
    (h : innerLoad W useEnv d x.content x.dir ctx pfx = .ok r) : innerLoad W useEnv d' x.content x.dir ctx pfx = .ok r :=
  innerLoad_mono' hW hd h

/-- A context can be built exactly when no environment variable in use (not hidden by a parameter) has a dot in its name: a single
such variable makes every load fail. -/
theorem C52_dotted_variable (hW : W.OK) (p : Params) (hp : p.Tree) :
    (∃ c, fromMapping (interpolationContext W useEnv p) = .ok c) ↔
      ¬ (useEnv = true ∧ ∃ k s, (k, s) ∈ W.env ∧ '.' ∈ k) := by
  have hpl := interpolationContext_plain (W := W) (useEnv := useEnv) hp
  have hd := (tree_dictify hp).2
  have hd' : (PVal.dict p.asNestedDicts).DotFree := hd
  have hkeys : ∀ e ∈ p.asNestedDicts, '.' ∉ e.1 ∧ e.2.DotFree := by
    cases hd' with
    | leaf h => simp [isMapping] at h
    | dict h1 h2 => exact fun e he => ⟨h1 e he, h2 e he⟩
  have hnd : (p.asNestedDicts.map (·.1)).Nodup := (tree_dictify hp).1.inv.1
  have hmem : ∀ k v, (k, v) ∈ interpolationContext W useEnv p ↔ (k, v) ∈ p.asNestedDicts ∨
      (useEnv = true ∧ k ∉ p.asNestedDicts.map (·.1) ∧ ∃ s, (k, s) ∈ W.env ∧ v = .str s) := by
    intro k v
    rw [← dictGet_iff hpl.inv.1, ← dictGet_iff hnd, ← dictGet_none_iff]
    unfold interpolationContext
    cases useEnv with
    | false => simp
    | true =>
      simp only [if_true, dictGet_addEnv, true_and]
      cases hg : dictGet p.asNestedDicts k with
      | some u => simp
      | none =>
        simp only [Option.none_or, Option.map_eq_some_iff, reduceCtorEq, false_or, true_and, env_lookup hW.env]
        exact ⟨fun ⟨s, h1, h2⟩ => ⟨s, h1, h2.symm⟩, fun ⟨s, h1, h2⟩ => ⟨s, h1, h2.symm⟩⟩
  constructor
  · rintro ⟨c, hc⟩ ⟨hu, k, s, hks, hdot⟩
    have hdf : (PVal.dict (interpolationContext W useEnv p)).DotFree := by
      by_contra hno; rw [fromMapping_error hpl hno] at hc; simp at hc
    have hk : k ∉ p.asNestedDicts.map (·.1) := by
      intro h
      obtain ⟨e, he, rfl⟩ := List.mem_map.1 h
      exact (hkeys e he).1 hdot
    have := (hmem k (.str s)).2 (.inr ⟨hu, hk, s, hks, rfl⟩)
    cases hdf with
    | leaf h => simp [isMapping] at h
    | dict h1 _ => exact h1 _ this hdot
  · intro hno
    have hdf : (PVal.dict (interpolationContext W useEnv p)).DotFree := by
      refine .dict ?_ ?_
      · rintro ⟨k, v⟩ he hdot
        rcases (hmem k v).1 he with h | ⟨hu, -, s, hs, -⟩
        · exact (hkeys _ h).1 hdot
        · exact hno ⟨hu, k, s, hs, hdot⟩
      · rintro ⟨k, v⟩ he
        rcases (hmem k v).1 he with h | ⟨-, -, s, -, rfl⟩
        · exact (hkeys _ h).2
        · exact .leaf rfl
    obtain ⟨c, hc, -⟩ := fromMapping_ok (pfx := []) hpl hdf
    exact ⟨c, hc⟩

/-- If the file includes itself, directly or through others, or includes such a file, the load fails with an `IOError`. -/
theorem C52_cycle (hW : W.OK) (depth : Nat) (x y : Source) (ctx : Params) (hctx : ctx.Tree) (pfx : List Str)
    (hxy : Relation.ReflTransGen (Includes W) x y) (hyy : Relation.TransGen (Includes W) y y) :
    innerLoad W useEnv (depth + 1) x.content x.dir ctx pfx = .error .ioError := by
  rcases C52_failures (W := W) (useEnv := useEnv) depth x.content x.dir ctx pfx with ⟨r, h⟩ | h
  · obtain ⟨-, -, fs, r', h3, -⟩ := load_sound hW _ x ctx pfx r hctx h
    exact (acc_no_cycle (listing_acc hW h3) hxy hyy).elim
  · exact h

/-- A text that is not a mapping with string keys (at every depth) is rejected with an `IOError`. -/
theorem C52_keys (hW : W.OK) (depth : Nat) (content : Str) (dir : Option Str) (ctx : Params) (pfx : List Str) (y : Yaml)
    (hy : W.parse content = .ok y) (hno : ¬ ((∃ es, y = .map es) ∧ StringKeys y)) :
    innerLoad W useEnv (depth + 1) content dir ctx pfx = .error .ioError := by
  rcases C52_failures (W := W) (useEnv := useEnv) depth content dir ctx pfx with ⟨r, h⟩ | h
  · obtain ⟨own, items, -, -, -, -, hread, -⟩ := (innerLoad_ok hW ..).1 h
    obtain ⟨es, h1, h2, -⟩ := (reads_iff ..).1 hread
    simp only at h1
    rw [hy, Except.ok.injEq] at h1
    subst h1
    exact absurd ⟨⟨es, rfl⟩, h2⟩ hno
  · exact h

/-- A relative include in a text loaded by `load_string` fails with an `IOError`. -/
theorem C52_string_relative (hW : W.OK) (depth : Nat) (content : Str) (ctx : Params) (pfx : List Str) (own : Entries)
    (items : List PVal) (s : Str) (hr : Reads W ⟨none, content⟩ own items) (hs : .str s ∈ items) (habs : W.isAbs s = false) :
    loadString W useEnv depth content ctx pfx = .error .ioError := by
  rw [C52_string]
  rcases C52_failures (W := W) (useEnv := useEnv) depth content none ctx pfx with ⟨r, h⟩ | h
  · obtain ⟨own', items', prev, -, -, -, h1, h2, -⟩ := (innerLoad_ok hW ..).1 h
    obtain ⟨-, rfl⟩ := reads_unique hW hr h1
    exfalso
    clear h hr h1
    induction items generalizing ctx with
    | nil => simp at hs
    | cons item items ih =>
      simp only [List.foldlM_cons, bind, Except.bind] at h2
      split at h2
      · simp at h2
      · rename_i p1 hp1
        rcases List.mem_cons.1 hs with rfl | hs
        · obtain ⟨z, -, ⟨s', path, hs', hl, -⟩, -⟩ := (includeStep_ok depth ⟨none, content⟩ ctx _ p1).1 hp1
          simp only [PVal.str.injEq] at hs'
          subst hs'
          simp [habs] at hl
        · exact ih p1 hs h2
  · exact h

/-! ### A concrete world -/

namespace Example
open Yaml

/-- Directory `/d` with three files: `x` includes `y`; `loop` includes itself. -/
def world : World where
  word c := c.isAlphanum
  parse s :=
    if s = "X".toList then .ok (.map [(.str "_includes".toList, .value (.list [.str "y".toList])),
      (.str "greeting".toList, .value (.str "hi %who%, %HOME%".toList)), (.str "n".toList, .value (.int 3))])
    else if s = "Y".toList then .ok (.map [(.str "who".toList, .value (.str "bob".toList)), (.str "n".toList, .value (.int 2))])
    else if s = "L".toList then .ok (.map [(.str "_includes".toList, .value (.list [.str "loop".toList]))])
    else if s = "K".toList then .ok (.map [(.other 1, .value (.int 3))])
    else .error .ioError
  read s := if s = "/d/x".toList then .ok "X".toList else if s = "/d/y".toList then .ok "Y".toList
    else if s = "/d/loop".toList then .ok "L".toList else .error .ioError
  isAbs s := s.head? == some '/'
  resolve d s := .ok (d ++ '/' :: s)
  parent _ := "/d".toList
  env := [("HOME".toList, "/h".toList), ("who".toList, "env".toList)]

theorem ok : world.OK := by
  refine ⟨by decide +kernel, ?_, by decide +kernel⟩
  intro s y h
  simp only [world] at h
  split at h
  · simp only [Except.ok.injEq] at h; subst h
    refine .map (by decide +kernel) ?_
    intro e he
    simp only [List.mem_cons, List.not_mem_nil, or_false] at he
    rcases he with rfl | rfl | rfl <;> exact .value ⟨rfl, rfl⟩
  · split at h
    · simp only [Except.ok.injEq] at h; subst h
      refine .map (by decide +kernel) ?_
      intro e he
      simp only [List.mem_cons, List.not_mem_nil, or_false] at he
      rcases he with rfl | rfl <;> exact .value ⟨rfl, rfl⟩
    · split at h
      · simp only [Except.ok.injEq] at h; subst h
        refine .map (by decide +kernel) ?_
        intro e he
        simp only [List.mem_cons, List.not_mem_nil, or_false] at he
        rcases he with rfl; exact .value ⟨rfl, rfl⟩
      · split at h
        · simp only [Except.ok.injEq] at h; subst h
          refine .map (by decide +kernel) ?_
          intro e he
          simp only [List.mem_cons, List.not_mem_nil, or_false] at he
          rcases he with rfl; exact .value ⟨rfl, rfl⟩
        · simp at h

/-- The file `x` loads: its own `n` wins over that of the included file, `who` of the included file over the environment. -/
example : (match load world true 5 "/d/x".toList none none ["ns".toList] with
    | .ok p => p.toVal.same (.params ["ns".toList] [("who".toList, .str "bob".toList), ("n".toList, .int 3),
        ("greeting".toList, .str "hi bob, /h".toList)])
    | .error _ => false) = true := by decide +kernel

/-- The included file really is read first. -/
example : Listing world ⟨some "/d".toList, "Y".toList⟩
    [⟨[], [("who".toList, .str "bob".toList), ("n".toList, .int 2)]⟩] := by
  refine Listing.file (fs := []) (own := [("who".toList, .str "bob".toList), ("n".toList, .int 2)]) (items := []) ?_ .nil rfl
  exact ⟨_, _, rfl, .cons (.value _) (.cons (.value _) .nil), rfl, .inl ⟨rfl, by decide +kernel⟩⟩

/-- The file that includes itself meets the hypotheses of `C52_cycle`. -/
example : Relation.TransGen (Includes world) ⟨some "/d".toList, "L".toList⟩ ⟨some "/d".toList, "L".toList⟩ := by
  exact .single ⟨[], [.str "loop".toList], ⟨_, _, rfl, .cons (.value _) .nil, rfl,
      .inr ⟨.list [.str "loop".toList], List.mem_singleton.2 rfl, .list _⟩⟩,
    .str "loop".toList, by simp, "loop".toList, "/d/loop".toList, rfl, .inr ⟨rfl, "/d".toList, rfl, rfl⟩, rfl, rfl⟩

/-- A text with a key that is no string meets those of `C52_keys`. -/
example : world.parse "K".toList = .ok (.map [(.other 1, .value (.int 3))]) ∧ ¬ StringKeys (.map [(.other 1, .value (.int 3))]) := by
  refine ⟨rfl, fun h => ?_⟩
  cases h with
  | map h _ =>
    obtain ⟨s, hs⟩ := h _ (List.mem_singleton.2 rfl)
    simp at hs

end Example

end Loader
end Vista
