import Mathlib.Data.List.Induction
import Verif.Props.Objects
import Verif.Spec.ClassUtils

/-!
# C90: fully-qualified names, and evaluating them as parameters
-/
set_option linter.unusedSectionVars false
set_option linter.unusedSimpArgs false
namespace Vista
namespace ClassUtils
open Params (ContextIs CodeIs Evaluates PackageOf Imports)

/-! ## Dotted words -/

theorem Dotted.ne_nil {ws : List Str} {s : Str} (h : Dotted ws s) : ws ≠ [] := by cases h <;> simp

theorem dotted_iff (ws : List Str) (s : Str) : Dotted ws s ↔ ws ≠ [] ∧ s = joinWith '.' ws := by
  constructor
  · intro h
    induction h with
    | one w => exact ⟨by simp, rfl⟩
    | more h ih => exact ⟨by simp, by rw [joinWith_cons_ne h.ne_nil, ← ih.2]⟩
  · rintro ⟨hne, rfl⟩
    induction ws with
    | nil => exact absurd rfl hne
    | cons w ws ih =>
      cases ws with
      | nil => exact .one w
      | cons w' ws => rw [joinWith_cons_ne (by simp)]; exact .more (ih (by simp))

theorem dotted_append {a b : List Str} {s t : Str} (ha : Dotted a s) (hb : Dotted b t) : Dotted (a ++ b) (s ++ '.' :: t) := by
  rw [dotted_iff] at *
  refine ⟨by simp [ha.1], ?_⟩
  rw [joinWith_append ha.1 hb.1, ← ha.2, ← hb.2]

/-- A text before a dot of a dotted text is made of the first words. -/
theorem dotted_prefix {ws : List Str} {s k rest : Str} (h : Dotted ws s) (hw : ∀ w ∈ ws, '.' ∉ w) (hs : s = k ++ '.' :: rest) :
    ∃ a b, ws = a ++ b ∧ a ≠ [] ∧ b ≠ [] ∧ Dotted a k := by
  rw [dotted_iff] at h
  have h1 := splitOn_joinWith h.1 hw
  rw [← h.2, hs, splitOn_append_sep] at h1
  refine ⟨splitOn '.' k, splitOn '.' rest, h1.symm, splitOn_ne_nil _ _, splitOn_ne_nil _ _, ?_⟩
  rw [dotted_iff]
  exact ⟨splitOn_ne_nil _ _, (joinWith_splitOn _ _).symm⟩

theorem Names.Leads.append {N : Names} {u w v : PVal} {xs ys : List Str} (h : N.Leads u xs w) (h' : N.Leads w ys v) :
    N.Leads u (xs ++ ys) v := by
  induction h with
  | here => exact h'
  | step ha _ ih => exact .step ha (ih h')

theorem Names.Leads.unique {N : Names} {u w v : PVal} {xs : List Str} (h : N.Leads u xs w) (h' : N.Leads u xs v) : w = v := by
  induction h with
  | here => cases h'; rfl
  | step ha _ ih =>
    cases h' with
    | step hb h2 => rw [ha] at hb; cases hb; exact ih h2

/-- Importing a module imports its packages, and leads from the outermost to the module. -/
theorem Names.Python.chain {N : Names} {py : Py} (hN : N.Python py) (x : Str) (b : List Str) :
    ∀ (a : List Str) (ka kb : Str) (m : PVal), Dotted (x :: a) ka → (∀ w ∈ b, N.ident w) → Dotted (x :: (a ++ b)) kb →
      py.importModule kb = .ok m → ∃ p, py.importModule ka = .ok p ∧ N.Leads p b m := by
  intro a ka kb m ha hb hk hm
  induction b using List.reverseRecOn generalizing kb m with
  | nil =>
    rw [dotted_iff] at ha hk
    rw [List.append_nil] at hk
    rw [ha.2]; rw [hk.2] at hm
    exact ⟨m, hm, .here m⟩
  | append_singleton b y ih =>
    rw [dotted_iff] at hk
    rw [← List.append_assoc, ← List.cons_append, joinWith_append (by simp) (by simp)] at hk
    rw [hk.2] at hm
    obtain ⟨q, hq, hqy⟩ := hN.package _ y m (hb y (by simp)) hm
    obtain ⟨p, hp, hl⟩ := ih (joinWith '.' (x :: (a ++ b))) q (fun w hw => hb w (by simp [hw])) (by rw [dotted_iff]; simp) hq
    exact ⟨p, hp, hl.append (.step hqy (.here m))⟩

/-! ## The names -/

/-- The name of a module is its name; of a class of a module other than `builtins`, the name of the module, a dot, the (possibly nested)
name of the class; of a built-in class or one without module, its name alone.  The name of the type of an object is that of its class. -/
theorem C90_name (classOf : PVal → Named) (obj : PVal) (m q : Str) :
    fullyQualifiedName (.module m) = m ∧
    (m ≠ "builtins".toList → fullyQualifiedName (.cls (some m) q) = m ++ '.' :: q) ∧
    fullyQualifiedName (.cls (some "builtins".toList) q) = q ∧ fullyQualifiedName (.cls Option.none q) = q ∧
    fullyQualifiedNameOfType classOf obj = fullyQualifiedName (classOf obj) := by
  refine ⟨rfl, fun h => ?_, rfl, rfl, rfl⟩
  rw [fullyQualifiedName, if_neg h]
  simp

theorem split_last {m m' q q' : Str} (hq : '.' ∉ q) (hq' : '.' ∉ q') (h : m ++ '.' :: q = m' ++ '.' :: q') : m = m' ∧ q = q' := by
  have := congrArg (splitOn '.') h
  rw [splitOn_append_sep, splitOn_append_sep, splitOn_of_not_mem hq, splitOn_of_not_mem hq'] at this
  have h2 := List.append_inj' this rfl
  refine ⟨?_, by simpa using h2.2⟩
  rw [← joinWith_splitOn '.' m, h2.1, joinWith_splitOn]

/-- Two classes which are not nested in classes have the same name exactly when they have the same module and the same name
(no module being the same as `builtins`). -/
theorem C90_injective (m m' : Option Str) (q q' : Str) (hq : '.' ∉ q) (hq' : '.' ∉ q') :
    fullyQualifiedName (.cls m q) = fullyQualifiedName (.cls m' q') ↔
      q = q' ∧ (m = m' ∨ ((m = Option.none ∨ m = some "builtins".toList) ∧ (m' = Option.none ∨ m' = some "builtins".toList))) := by
  have key : ∀ (o : Option Str) (x : Str), fullyQualifiedName (.cls o x) =
      if o = Option.none ∨ o = some "builtins".toList then x else (o.getD []) ++ '.' :: x := by
    intro o x
    cases o with
    | none => rw [if_pos (.inl rfl)]; rfl
    | some o =>
      by_cases h : o = "builtins".toList
      · subst h; rw [if_pos (.inr rfl)]; rfl
      · rw [(C90_name (fun _ => .module []) .none o x).2.1 h, if_neg]; · rfl
        rintro (h' | h')
        · cases h'
        · exact h (Option.some.inj h')
  rw [key, key]
  by_cases h1 : m = Option.none ∨ m = some "builtins".toList <;> by_cases h2 : m' = Option.none ∨ m' = some "builtins".toList
  · rw [if_pos h1, if_pos h2]
    exact ⟨fun h => ⟨h, .inr ⟨h1, h2⟩⟩, fun h => h.1⟩
  · rw [if_pos h1, if_neg h2]
    constructor
    · intro h; rw [h] at hq; simp at hq
    · rintro ⟨-, h | ⟨-, h⟩⟩
      · rw [h] at h1; exact absurd h1 h2
      · exact absurd h h2
  · rw [if_neg h1, if_pos h2]
    constructor
    · intro h; rw [← h] at hq'; simp at hq'
    · rintro ⟨-, h | ⟨h, -⟩⟩
      · rw [← h] at h2; exact absurd h2 h1
      · exact absurd h h1
  · rw [if_neg h1, if_neg h2]
    constructor
    · intro h
      obtain ⟨h3, h4⟩ := split_last hq hq' h
      refine ⟨h4, .inl ?_⟩
      cases m with
      | none => exact absurd (.inl rfl) h1
      | some m => cases m' with
        | none => exact absurd (.inl rfl) h2
        | some m' => exact congrArg some h3
    · rintro ⟨rfl, h | ⟨h, -⟩⟩
      · rw [h]
      · exact absurd h h1

/-- A nested class has the name of a class of another module, and a class the name of a module. -/
theorem C90_collision_counterexample (a b c : Str) (ha : a ≠ "builtins".toList) (hab : a ++ '.' :: b ≠ "builtins".toList) :
    fullyQualifiedName (.cls (some a) (b ++ '.' :: c)) = fullyQualifiedName (.cls (some (a ++ '.' :: b)) c) ∧
    fullyQualifiedName (.cls (some a) b) = fullyQualifiedName (.module (a ++ '.' :: b)) := by
  rw [(C90_name (fun _ => .module []) .none _ _).2.1 ha, (C90_name (fun _ => .module []) .none _ _).2.1 hab,
    (C90_name (fun _ => .module []) .none _ _).2.1 ha]
  simp [fullyQualifiedName]

/-! ## Evaluating them -/

section
variable {N : Names} {py : Py}

/-- The environment of `Evaluates`, made from the context. -/
noncomputable def envOf (py : Py) (ctx : Entries) (need : Str → Prop) (k : Str) : Option PVal := by
  classical
  exact match dictGet ctx k with
    | some w => some w
    | Option.none => if need k then (py.importModule k).toOption else Option.none

/-- Evaluating a dotted name in a context together with needed modules. -/
theorem evaluates_dotted (hN : N.Python py) (ctx : Entries) (hnd : (ctx.map (·.1)).Nodup) (need : Str → Prop) (x : Str) (xs : List Str)
    (s : Str) (hid : ∀ w ∈ x :: xs, N.ident w) (hs : Dotted (x :: xs) s) (v : PVal) :
    Evaluates py ctx need (.str s) v ↔ (∀ k, k ∉ ctx.map (·.1) → need k → ∃ m, py.importModule k = .ok m) ∧
      ∃ w, ((x, w) ∈ ctx ∨ (x ∉ ctx.map (·.1) ∧ need x ∧ py.importModule x = .ok w) ∨
        (x ∉ ctx.map (·.1) ∧ ¬ need x ∧ N.builtin x = some w)) ∧ N.Leads w xs v := by
  constructor
  · rintro ⟨env, h1, h2, h3, h4⟩
    obtain ⟨w, hw, hl⟩ := (hN.eval env x xs s v hid hs).1 h4
    refine ⟨fun k hk hn => ?_, w, ?_, hl⟩
    · obtain ⟨m, hm, -⟩ := h2 k hk hn; exact ⟨m, hm⟩
    · by_cases hx : x ∈ ctx.map (·.1)
      · obtain ⟨⟨x', u⟩, hu, rfl⟩ := List.mem_map.1 hx
        have := h1 _ _ hu
        rcases hw with hw | ⟨hw, -⟩
        · rw [this] at hw; cases hw; exact .inl hu
        · rw [this] at hw; cases hw
      · by_cases hn : need x
        · obtain ⟨m, hm, he⟩ := h2 x hx hn
          rcases hw with hw | ⟨hw, -⟩
          · rw [he] at hw; cases hw; exact .inr (.inl ⟨hx, hn, hm⟩)
          · rw [he] at hw; cases hw
        · rcases hw with hw | ⟨-, hw⟩
          · rw [h3 x hx hn] at hw; cases hw
          · exact .inr (.inr ⟨hx, hn, hw⟩)
  · rintro ⟨h1, w, hw, hl⟩
    have e1 : ∀ k u, (k, u) ∈ ctx → envOf py ctx need k = some u := by
      intro k u hu
      unfold envOf
      rw [(dictGet_iff hnd k u).2 hu]
    have e2 : ∀ k, k ∉ ctx.map (·.1) → need k → envOf py ctx need k = (py.importModule k).toOption := by
      intro k hk hn
      unfold envOf
      rw [(dictGet_none_iff ctx k).2 hk]
      simp [hn]
    have e3 : ∀ k, k ∉ ctx.map (·.1) → ¬ need k → envOf py ctx need k = Option.none := by
      intro k hk hn
      unfold envOf
      rw [(dictGet_none_iff ctx k).2 hk]
      simp [hn]
    refine ⟨envOf py ctx need, e1, fun k hk hn => ?_, e3, (hN.eval _ x xs s v hid hs).2 ⟨w, ?_, hl⟩⟩
    · obtain ⟨m, hm⟩ := h1 k hk hn
      exact ⟨m, hm, by rw [e2 k hk hn, hm]; rfl⟩
    · rcases hw with hw | ⟨hx, hn, hw⟩ | ⟨hx, hn, hw⟩
      · exact .inl (e1 _ _ hw)
      · exact .inl (by rw [e2 x hx hn, hw]; rfl)
      · exact .inr ⟨e3 x hx hn, hw⟩

theorem codeIs_text {special : Entries} {s : Str} {code : PVal} (hsp : s ∉ special.map (·.1)) : CodeIs special s code ↔ code = .str s := by
  unfold CodeIs
  constructor
  · rintro (h | ⟨-, h⟩)
    · exact absurd (List.mem_map.2 ⟨_, h, rfl⟩) hsp
    · exact h
  · intro h; exact .inr ⟨hsp, h⟩

/-- `evaluate` with a text in terms of names. -/
theorem evaluate_dotted (hN : N.Python py) (p : Params) (h : p.WF) (name : Str) (expected : PVal → Bool) (context : Option Entries)
    (nsParam : Str) (special : Entries) (hnsp : (special.map (·.1)).Nodup) (dflt : PVal) (x : Str) (xs : List Str) (s : Str)
    (hid : ∀ w ∈ x :: xs, N.ident w) (hs : Dotted (x :: xs) s) (hsp : s ∉ special.map (·.1))
    (hr : p.toVal.Reaches (splitOn '.' name) (.str s)) (ctx : Entries) (hctx : ContextIs context (py.locals p name) ctx)
    (hnd : (ctx.map (·.1)).Nodup) (v : PVal) :
    p.evaluate py name expected context nsParam special dflt = .ok v ↔
      ((∀ k, k ∉ ctx.map (·.1) → (∃ rest, s = k ++ '.' :: rest) → ∃ m, py.importModule k = .ok m) ∧
      ∃ w, ((x, w) ∈ ctx ∨ (x ∉ ctx.map (·.1) ∧ (∃ rest, s = x ++ '.' :: rest) ∧ py.importModule x = .ok w) ∨
        (x ∉ ctx.map (·.1) ∧ ¬ (∃ rest, s = x ++ '.' :: rest) ∧ N.builtin x = some w)) ∧ N.Leads w xs v) ∧ expected v = true := by
  rw [Params.C77_string py p h name expected context nsParam special hnsp dflt (.str s) (by simp) rfl hr ctx hctx hnd v,
    ← evaluates_dotted hN ctx hnd (fun k => ∃ rest, s = k ++ '.' :: rest) x xs s hid hs v]
  constructor
  · rintro ⟨s', code, he, hc, hev, hx⟩
    rw [PVal.str.injEq] at he
    subst he
    rw [codeIs_text hsp] at hc
    subst hc
    exact ⟨hev, hx⟩
  · rintro ⟨hev, hx⟩
    exact ⟨s, .str s, rfl, (codeIs_text hsp).2 rfl, hev, hx⟩

/-- An outcome known for the successes. -/
theorem outcome (p : Params) (h : p.WF) (name : Str) (expected : PVal → Bool) (context : Option Entries)
    (nsParam : Str) (special : Entries) (dflt : PVal) (c : PVal)
    (hiff : ∀ v, p.evaluate py name expected context nsParam special dflt = .ok v ↔ v = c ∧ expected v = true) :
    p.evaluate py name expected context nsParam special dflt = if expected c then .ok c else .error .parameterError := by
  by_cases hc : expected c = true
  · rw [if_pos hc]; exact (hiff c).2 ⟨rfl, hc⟩
  · rw [if_neg hc]
    cases hev : p.evaluate py name expected context nsParam special dflt with
    | error e => rw [Params.C77_errors py p h name expected _ _ _ _ e hev]
    | ok v =>
      obtain ⟨rfl, h2⟩ := (hiff v).1 hev
      exact absurd h2 hc

/-- A class at the top level of a module that can be imported, under its fully-qualified name: where the context does not define one of
the packages, the parameter with that text evaluates to that class, if it is of the type expected, and fails otherwise. -/
theorem C90_evaluate (hN : N.Python py) (p : Params) (h : p.WF) (name : Str) (expected : PVal → Bool) (context : Option Entries)
    (nsParam : Str) (special : Entries) (hnsp : (special.map (·.1)).Nodup) (dflt : PVal)
    (ms : List Str) (m q : Str) (hms : ∀ w ∈ ms, N.ident w) (hm : Dotted ms m) (hb : m ≠ "builtins".toList) (hq : N.ident q) (c : PVal)
    (hc : N.Located py m [q] c)
    (hr : p.toVal.Reaches (splitOn '.' name) (.str (fullyQualifiedName (.cls (some m) q))))
    (hsp : fullyQualifiedName (.cls (some m) q) ∉ special.map (·.1))
    (ctx : Entries) (hctx : ContextIs context (py.locals p name) ctx) (hnd : (ctx.map (·.1)).Nodup)
    (hfree : ∀ k, PackageOf k m → k ∉ ctx.map (·.1)) :
    p.evaluate py name expected context nsParam special dflt = if expected c then .ok c else .error .parameterError := by
  rw [(C90_name (fun _ => .module []) .none m q).2.1 hb] at hr hsp
  cases ms with
  | nil => exact absurd rfl hm.ne_nil
  | cons x ys =>
    obtain ⟨M, hM, hl⟩ := hc
    have hs : Dotted (x :: (ys ++ [q])) (m ++ '.' :: q) := dotted_append hm (.one q)
    have hids : ∀ w ∈ x :: (ys ++ [q]), N.ident w := by
      intro w hw
      simp only [List.mem_cons, List.mem_append, List.mem_singleton, List.not_mem_nil, or_false] at hw
      rcases hw with rfl | hw | rfl
      · exact hms _ (by simp)
      · exact hms _ (by simp [hw])
      · exact hq
    have hys : ∀ w ∈ ys, N.ident w := fun w hw => hms w (by simp [hw])
    obtain ⟨H, hH, hHl⟩ := hN.chain x ys [] x m M (.one x) hys hm hM
    have hxm : PackageOf x m := by
      rw [dotted_iff] at hm
      cases ys with
      | nil => exact .inl (by rw [hm.2]; rfl)
      | cons y ys => exact .inr ⟨_, by rw [hm.2]; rfl⟩
    have hpk : ∀ k, (∃ rest, m ++ '.' :: q = k ++ '.' :: rest) → PackageOf k m ∧ ∃ u, py.importModule k = .ok u := by
      rintro k ⟨rest, hk⟩
      obtain ⟨a, b, hab, ha, hbne, hd⟩ := dotted_prefix hs (fun w hw => hN.noDot w (hids w hw)) hk
      obtain ⟨b', z, rfl⟩ : ∃ b' z, b = b' ++ [z] := ⟨b.dropLast, b.getLast hbne, (List.dropLast_append_getLast hbne).symm⟩
      rw [← List.cons_append, ← List.append_assoc] at hab
      have h1 := (List.append_inj' hab rfl).1
      cases a with
      | nil => exact absurd rfl ha
      | cons x' a =>
        rw [List.cons_append, List.cons.injEq] at h1
        obtain ⟨rfl, rfl⟩ := h1
        constructor
        · cases b' with
          | nil =>
            left
            rw [dotted_iff] at hd hm
            rw [hd.2, hm.2, List.append_nil]
          | cons z b' =>
            right
            rw [dotted_iff] at hd hm
            refine ⟨joinWith '.' (z :: b'), ?_⟩
            rw [hd.2, hm.2, ← List.cons_append, joinWith_append (by simp) (by simp)]
        · obtain ⟨u, hu, -⟩ := hN.chain x b' a k m M hd (fun w hw => hys w (by simp [hw])) hm hM
          exact ⟨u, hu⟩
    apply outcome p h
    intro v
    rw [evaluate_dotted hN p h name expected context nsParam special hnsp dflt x (ys ++ [q]) _ hids hs hsp hr ctx hctx hnd v]
    have hneed : ∃ rest, m ++ '.' :: q = x ++ '.' :: rest := by
      rcases hxm with rfl | ⟨r, hr'⟩
      · exact ⟨q, rfl⟩
      · exact ⟨r ++ '.' :: q, by rw [hr']; simp⟩
    constructor
    · rintro ⟨⟨-, w, hw, hwl⟩, hx⟩
      refine ⟨?_, hx⟩
      rcases hw with hw | ⟨-, -, hw⟩ | ⟨-, hw, -⟩
      · exact absurd (List.mem_map.2 ⟨_, hw, rfl⟩) (hfree x hxm)
      · rw [hH] at hw; cases hw
        exact hwl.unique (hHl.append hl)
      · exact absurd hneed hw
    · rintro ⟨rfl, hx⟩
      exact ⟨⟨fun k _ hk => (hpk k hk).2, H, .inr (.inl ⟨hfree x hxm, hneed, hH⟩), hHl.append hl⟩, hx⟩

/-- A built-in class, under its name: the parameter with that text evaluates to that class, if the context does not define the name. -/
theorem C90_builtin (hN : N.Python py) (p : Params) (h : p.WF) (name : Str) (expected : PVal → Bool) (context : Option Entries)
    (nsParam : Str) (special : Entries) (hnsp : (special.map (·.1)).Nodup) (dflt : PVal)
    (m : Option Str) (hm : m = Option.none ∨ m = some "builtins".toList) (q : Str) (hq : N.ident q) (c : PVal) (hc : N.builtin q = some c)
    (hr : p.toVal.Reaches (splitOn '.' name) (.str (fullyQualifiedName (.cls m q)))) (hsp : q ∉ special.map (·.1))
    (ctx : Entries) (hctx : ContextIs context (py.locals p name) ctx) (hnd : (ctx.map (·.1)).Nodup) (hfree : q ∉ ctx.map (·.1)) :
    p.evaluate py name expected context nsParam special dflt = if expected c then .ok c else .error .parameterError := by
  have hn : fullyQualifiedName (.cls m q) = q := by
    rcases hm with rfl | rfl
    · rfl
    · rfl
  rw [hn] at hr
  have hno : ∀ k, ¬ ∃ rest, q = k ++ '.' :: rest := by
    rintro k ⟨rest, hk⟩
    exact hN.noDot q hq (by rw [hk]; simp)
  apply outcome p h
  intro v
  rw [evaluate_dotted hN p h name expected context nsParam special hnsp dflt q [] q (by simpa using hq) (.one q) hsp hr ctx hctx hnd v]
  constructor
  · rintro ⟨⟨-, w, hw, hwl⟩, hx⟩
    refine ⟨?_, hx⟩
    cases hwl
    rcases hw with hw | ⟨-, hw, -⟩ | ⟨-, -, hw⟩
    · exact absurd (List.mem_map.2 ⟨_, hw, rfl⟩) hfree
    · exact absurd hw (hno q)
    · rw [hc] at hw; cases hw; rfl
  · rintro ⟨rfl, hx⟩
    exact ⟨⟨fun k _ hk => absurd hk (hno k), v, .inr (.inr ⟨hfree, hno q, hc⟩), .here v⟩, hx⟩

/-- Where the context defines the first word of the name (with no context given: where it is the name of a local variable of
`evaluate`), the text means what the context says, whatever package is named like that. -/
theorem C90_shadowed (hN : N.Python py) (p : Params) (h : p.WF) (name : Str) (expected : PVal → Bool) (context : Option Entries)
    (nsParam : Str) (special : Entries) (hnsp : (special.map (·.1)).Nodup) (dflt : PVal)
    (x : Str) (xs : List Str) (s : Str) (hid : ∀ w ∈ x :: xs, N.ident w) (hs : Dotted (x :: xs) s) (hsp : s ∉ special.map (·.1))
    (hr : p.toVal.Reaches (splitOn '.' name) (.str s))
    (ctx : Entries) (hctx : ContextIs context (py.locals p name) ctx) (hnd : (ctx.map (·.1)).Nodup) (w : PVal) (hw : (x, w) ∈ ctx) :
    (∀ v, p.evaluate py name expected context nsParam special dflt = .ok v ↔ N.Leads w xs v ∧ expected v = true ∧
      ∀ k, k ∉ ctx.map (·.1) → (∃ rest, s = k ++ '.' :: rest) → ∃ m, py.importModule k = .ok m) ∧
    ((∀ v, ¬ N.Leads w xs v) → p.evaluate py name expected context nsParam special dflt = .error .parameterError) := by
  have hx : x ∈ ctx.map (·.1) := List.mem_map.2 ⟨_, hw, rfl⟩
  have hiff : ∀ v, p.evaluate py name expected context nsParam special dflt = .ok v ↔ N.Leads w xs v ∧ expected v = true ∧
      ∀ k, k ∉ ctx.map (·.1) → (∃ rest, s = k ++ '.' :: rest) → ∃ m, py.importModule k = .ok m := by
    intro v
    rw [evaluate_dotted hN p h name expected context nsParam special hnsp dflt x xs s hid hs hsp hr ctx hctx hnd v]
    constructor
    · rintro ⟨⟨h1, w', hw', hl⟩, he⟩
      refine ⟨?_, he, h1⟩
      rcases hw' with hw' | ⟨hw', -⟩ | ⟨hw', -⟩
      · have e1 := (dictGet_iff hnd x w).2 hw
        rw [(dictGet_iff hnd x w').2 hw'] at e1
        cases e1
        exact hl
      · exact absurd hx hw'
      · exact absurd hx hw'
    · rintro ⟨hl, he, h1⟩
      exact ⟨⟨h1, w, .inl hw, hl⟩, he⟩
  refine ⟨hiff, fun hno => ?_⟩
  cases hev : p.evaluate py name expected context nsParam special dflt with
  | error e => rw [Params.C77_errors py p h name expected _ _ _ _ e hev]
  | ok v => exact absurd ((hiff v).1 hev).1 (hno v)

/-- A class nested in a class cannot be evaluated under its fully-qualified name: the enclosing class would have to be a module. -/
theorem C90_nested_counterexample (py : Py) (p : Params) (h : p.WF) (name : Str) (expected : PVal → Bool) (context : Option Entries)
    (nsParam : Str) (dflt : PVal) (m outer inner : Str) (hm : m ≠ "builtins".toList)
    (hr : p.toVal.Reaches (splitOn '.' name) (.str (fullyQualifiedName (.cls (some m) (outer ++ '.' :: inner)))))
    (e : Exc) (hno : py.importModule (m ++ '.' :: outer) = .error e)
    (ctx : Entries) (hctx : ContextIs context (py.locals p name) ctx) (hnd : (ctx.map (·.1)).Nodup)
    (hfree : m ++ '.' :: outer ∉ ctx.map (·.1)) :
    p.evaluate py name expected context nsParam [] dflt = .error .parameterError := by
  rw [(C90_name (fun _ => .module []) .none _ _).2.1 hm] at hr
  cases hev : p.evaluate py name expected context nsParam [] dflt with
  | error e' => rw [Params.C77_errors py p h name expected _ _ _ _ e' hev]
  | ok v =>
    obtain ⟨s, code, hs, -, ⟨env, -, h2, -⟩, -⟩ := (Params.C77_string py p h name expected context nsParam [] (by simp) dflt _
      (by simp) rfl hr ctx hctx hnd v).1 hev
    rw [PVal.str.injEq] at hs
    subst hs
    obtain ⟨u, hu, -⟩ := h2 (m ++ '.' :: outer) hfree ⟨inner, by simp⟩
    rw [hno] at hu; cases hu

/-- In a namespace which lists the module under `import`, the fully-qualified name of any class of the module, nested or not, evaluates
to that class. -/
theorem C90_import (hN : N.Python py) (p : Params) (h : p.WF) (name : Str) (expected : PVal → Bool) (context : Option Entries)
    (nsParam : Str) (special : Entries) (hnsp : (special.map (·.1)).Nodup) (dflt : PVal)
    (ms qs : List Str) (m q : Str) (hms : ∀ w ∈ ms, N.ident w) (hm : Dotted ms m) (hb : m ≠ "builtins".toList)
    (hqs : ∀ w ∈ qs, N.ident w) (hq : Dotted qs q) (c : PVal) (hc : N.Located py m qs c)
    (ns : Params) (hns : p.toVal.Reaches (splitOn '.' name) ns.toVal)
    (hr : ns.toVal.Reaches (splitOn '.' nsParam) (.str (fullyQualifiedName (.cls (some m) q))))
    (himp : ns.toVal.Reaches ["import".toList] (.list [.str m]))
    (hsp : fullyQualifiedName (.cls (some m) q) ∉ special.map (·.1))
    (ctx : Entries) (hctx : ContextIs context (py.locals p name) ctx) (hnd : (ctx.map (·.1)).Nodup)
    (hfree : ∀ k, PackageOf k m → k ∉ ctx.map (·.1)) :
    p.evaluate py name expected context nsParam special dflt = if expected c then .ok c else .error .parameterError := by
  rw [(C90_name (fun _ => .module []) .none m q).2.1 hb] at hr hsp
  have hnwf : ns.WF := PVal.WF.reaches h hns
  cases ms with
  | nil => exact absurd rfl hm.ne_nil
  | cons x ys =>
    obtain ⟨M, hM, hl⟩ := hc
    have hs : Dotted (x :: (ys ++ qs)) (m ++ '.' :: q) := dotted_append hm hq
    have hids : ∀ w ∈ x :: (ys ++ qs), N.ident w := by
      intro w hw
      simp only [List.mem_cons, List.mem_append] at hw
      rcases hw with rfl | hw | hw
      · exact hms _ (by simp)
      · exact hms _ (by simp [hw])
      · exact hqs w hw
    have hys : ∀ w ∈ ys, N.ident w := fun w hw => hms w (by simp [hw])
    obtain ⟨H, hH, hHl⟩ := hN.chain x ys [] x m M (.one x) hys hm hM
    have hxm : PackageOf x m := by
      rw [dotted_iff] at hm
      cases ys with
      | nil => exact .inl (by rw [hm.2]; rfl)
      | cons y ys => exact .inr ⟨_, by rw [hm.2]; rfl⟩
    have hpk : ∀ k, PackageOf k m → ∃ u, py.importModule k = .ok u := by
      rintro k (rfl | ⟨rest, hk⟩)
      · exact ⟨M, hM⟩
      · obtain ⟨a, b, hab, ha, -, hd⟩ := dotted_prefix hm (fun w hw => hN.noDot w (hms w hw)) hk
        cases a with
        | nil => exact absurd rfl ha
        | cons x' a =>
          rw [List.cons_append, List.cons.injEq] at hab
          obtain ⟨rfl, rfl⟩ := hab
          obtain ⟨u, hu, -⟩ := hN.chain x b a k m M hd (fun w hw => hys w (by simp [hw])) hm hM
          exact ⟨u, hu⟩
    have hmods : ∀ mods, Imports ns mods → mods = [.str m] := by
      rintro mods (hi | ⟨-, hi⟩)
      · have := PVal.reaches_unique hnwf hi himp
        simpa using this
      · exact absurd ⟨_, by simp, himp⟩ hi
    apply outcome p h
    intro v
    rw [Params.C77_namespace py p h name expected context nsParam special hnsp dflt ns hns ctx hctx hnd v]
    constructor
    · rintro ⟨s, code, mods, hrs, hcode, hi, -, hev, hx⟩
      have := PVal.reaches_unique hnwf hrs hr
      rw [PVal.str.injEq] at this
      subst this
      rw [codeIs_text hsp] at hcode
      subst hcode
      have := hmods mods hi
      subst this
      rw [evaluates_dotted hN ctx hnd _ x (ys ++ qs) _ hids hs v] at hev
      obtain ⟨-, w, hw, hwl⟩ := hev
      refine ⟨?_, hx⟩
      rcases hw with hw | ⟨-, -, hw⟩ | ⟨-, hw, -⟩
      · exact absurd (List.mem_map.2 ⟨_, hw, rfl⟩) (hfree x hxm)
      · rw [hH] at hw; cases hw
        exact hwl.unique (hHl.append hl)
      · exact absurd ⟨m, by simp, hxm⟩ hw
    · rintro ⟨rfl, hx⟩
      refine ⟨_, _, [.str m], hr, (codeIs_text hsp).2 rfl, .inl himp, by simp, ?_, hx⟩
      rw [evaluates_dotted hN ctx hnd _ x (ys ++ qs) _ hids hs v]
      refine ⟨?_, H, .inr (.inl ⟨hfree x hxm, ⟨m, by simp, hxm⟩, hH⟩), hHl.append hl⟩
      rintro k - ⟨t, ht, hk⟩
      simp only [List.mem_singleton, PVal.str.injEq] at ht
      subst ht
      exact hpk k hk

end

/-! ## A Python to which this applies -/

namespace Toy

/-- Modules `pkg` (object 0), `pkg.sub` (1), `name` (5); classes `pkg.sub.Outer` (2), `pkg.sub.Outer.Inner` (3), `name.C` (6). -/
def attr : PVal → Str → Option PVal
  | .obj 0, x => if x = "sub".toList then some (.obj 1) else Option.none
  | .obj 1, x => if x = "Outer".toList then some (.obj 2) else Option.none
  | .obj 2, x => if x = "Inner".toList then some (.obj 3) else Option.none
  | .obj 5, x => if x = "C".toList then some (.obj 6) else Option.none
  | _, _ => Option.none

def builtin (x : Str) : Option PVal := if x = "int".toList then some (.obj 10) else Option.none

def names : Names := ⟨fun x => '.' ∉ x, attr, builtin⟩

def walk : PVal → List Str → Res PVal
  | v, [] => .ok v
  | v, x :: xs => match attr v x with
    | some w => walk w xs
    | Option.none => .error .attributeError

def evalParts (env : Str → Option PVal) : List Str → Res PVal
  | [] => .error .valueError
  | x :: xs => match env x with
    | some w => walk w xs
    | Option.none => match builtin x with
      | some w => walk w xs
      | Option.none => .error .keyError

def evalIn (code : PVal) (env : Str → Option PVal) : Res PVal :=
  match code with
  | .str s => evalParts env (splitOn '.' s)
  | _ => .error .typeError

def importIt (m : Str) : Res PVal :=
  if m = "pkg".toList then .ok (.obj 0) else if m = "pkg.sub".toList then .ok (.obj 1)
  else if m = "name".toList then .ok (.obj 5) else .error .keyError

def toy : Py where
  eval := evalIn
  importModule := importIt
  isClass _ := true
  fromParameters _ := Option.none
  callable _ := true
  call f _ := .ok f
  globals := []
  locals _ n := [("self".toList, .obj 50), ("name".toList, .str n)]

theorem walk_iff (xs : List Str) : ∀ u v, walk u xs = .ok v ↔ names.Leads u xs v := by
  induction xs with
  | nil =>
    intro u v
    simp only [walk, Except.ok.injEq]
    exact ⟨fun h => h ▸ .here _, fun h => by cases h; rfl⟩
  | cons x xs ih =>
    intro u v
    simp only [walk]
    cases ha : attr u x with
    | none => exact ⟨fun h => by simp at h, fun h => by cases h with | step h' _ => exact absurd (ha.symm.trans h') (by simp)⟩
    | some w =>
      simp only
      rw [ih]
      exact ⟨fun h => .step ha h, fun h => by cases h with | step h' h2 => rw [Option.some.inj (ha.symm.trans h')]; exact h2⟩

theorem python : names.Python toy where
  noDot _ h := h
  eval env x xs s v hid hs := by
    rw [dotted_iff] at hs
    have : splitOn '.' s = x :: xs := by rw [hs.2]; exact splitOn_joinWith (by simp) hid
    show evalIn (.str s) env = .ok v ↔ _
    simp only [evalIn, this, evalParts]
    unfold Names.Means
    cases he : env x with
    | some w => simp only [walk_iff]; simp
    | none =>
      show (match builtin x with | some w => walk w xs | Option.none => .error .keyError) = .ok v ↔
        ∃ w, (Option.none = some w ∨ Option.none = Option.none ∧ builtin x = some w) ∧ names.Leads w xs v
      cases hb : builtin x with
      | none => simp
      | some w => simp only [walk_iff]; simp
  package k x m hx hm := by
    replace hm : importIt (k ++ '.' :: x) = .ok m := hm
    replace hx : '.' ∉ x := hx
    unfold importIt at hm
    split at hm
    · rename_i h
      have : '.' ∈ "pkg".toList := by rw [← h]; simp
      exact absurd this (by decide)
    · split at hm
      · rename_i h
        obtain ⟨rfl, rfl⟩ := split_last hx (by decide : '.' ∉ "sub".toList) (h.trans (show _ = "pkg".toList ++ '.' :: "sub".toList from rfl))
        cases hm
        exact ⟨.obj 0, by rfl, by rfl⟩
      · split at hm
        · rename_i h
          have : '.' ∈ "name".toList := by rw [← h]; simp
          exact absurd this (by decide)
        · cases hm

/-- Parameters with one text. -/
def params (s : Str) : Params := ⟨[], [(['x'], .str s)]⟩

theorem params_wf (s : Str) : (params s).WF := by
  unfold params
  refine .params (by simp) ?_ ?_
  · intro e he; simp only [List.mem_singleton] at he; subst he; show '.' ∉ ['x']; decide
  · intro e he; simp only [List.mem_singleton] at he; subst he; exact .leaf ⟨rfl, rfl⟩

theorem params_reach (s : Str) : (params s).toVal.Reaches (splitOn '.' ['x']) (.str s) :=
  .step (List.mem_singleton.2 rfl) (.here _)

theorem dotted_sub : Dotted ["pkg".toList, "sub".toList] "pkg.sub".toList := .more (.one _)

theorem free (k : Str) (h : PackageOf k "pkg.sub".toList) : k ∉ (toy.locals (params []) ['x']).map (·.1) := by
  intro hk
  replace hk : k ∈ ["self".toList, "name".toList] := hk
  rcases h with rfl | ⟨rest, h⟩
  · exact absurd hk (by decide)
  · have : "pkg.sub".toList.head? = (k ++ '.' :: rest).head? := by rw [← h]
    simp only [List.mem_cons, List.not_mem_nil, or_false] at hk
    rcases hk with rfl | rfl <;> simp at this

example (expected : PVal → Bool) :
    (params "pkg.sub.Outer".toList).evaluate toy ['x'] expected = if expected (.obj 2) then .ok (.obj 2) else .error .parameterError :=
  C90_evaluate python _ (params_wf _) ['x'] expected Option.none _ [] (by simp) .none ["pkg".toList, "sub".toList] "pkg.sub".toList
    "Outer".toList (by simp [names]) dotted_sub (by decide) (by simp [names]) (.obj 2) ⟨.obj 1, by rfl, .step (by rfl) (.here _)⟩
    (params_reach _) (by simp) _ (.inr ⟨.inl rfl, rfl⟩) (by decide) free

example (expected : PVal → Bool) :
    (params "int".toList).evaluate toy ['x'] expected = if expected (.obj 10) then .ok (.obj 10) else .error .parameterError :=
  C90_builtin python _ (params_wf _) ['x'] expected Option.none _ [] (by simp) .none (some "builtins".toList) (.inr rfl)
    "int".toList (by simp [names]) (.obj 10) rfl (params_reach _) (by simp) _ (.inr ⟨.inl rfl, rfl⟩) (by decide) (by decide)

example (expected : PVal → Bool) : (params "pkg.sub.Outer.Inner".toList).evaluate toy ['x'] expected = .error .parameterError :=
  C90_nested_counterexample toy _ (params_wf _) ['x'] expected Option.none _ .none "pkg.sub".toList "Outer".toList "Inner".toList (by decide)
    (params_reach _) .keyError rfl _ (.inr ⟨.inl rfl, rfl⟩) (by decide) (by decide)

/-- The class `C` of the module `name` cannot be evaluated under its name where no context is given, though the module can be imported:
`name` is a local variable of `evaluate`. -/
theorem _root_.Vista.ClassUtils.C90_local_counterexample (expected : PVal → Bool) :
    names.Python toy ∧ names.Located toy "name".toList ["C".toList] (.obj 6) ∧
    (params (fullyQualifiedName (.cls (some "name".toList) "C".toList))).evaluate toy ['x'] expected = .error .parameterError := by
  refine ⟨python, ⟨.obj 5, rfl, .step (by rfl) (.here _)⟩, ?_⟩
  refine (C90_shadowed python _ (params_wf _) ['x'] expected Option.none _ [] (by simp) .none "name".toList ["C".toList] "name.C".toList
    (by simp [names]) (.more (.one _)) (by simp) (params_reach _) _ (.inr ⟨.inl rfl, rfl⟩) (by decide) (.str ['x'])
    (by simp [toy])).2 ?_
  intro v hv
  cases hv with
  | step h _ => exact absurd h (by simp [names, attr])

/-- A namespace which imports the module. -/
def importing (s : Str) : Params := ⟨[], [(['x'], .params [['x']] [("value".toList, .str s), ("import".toList, .list [.str "pkg.sub".toList])])]⟩

theorem importing_wf (s : Str) : (importing s).WF := by
  unfold importing
  refine .params (by simp) ?_ ?_
  · intro e he; simp only [List.mem_singleton] at he; subst he; show '.' ∉ ['x']; decide
  · intro e he; simp only [List.mem_singleton] at he; subst he
    refine .params (show ["value".toList, "import".toList].Nodup by decide) ?_ ?_
    · intro e he; simp only [List.mem_cons, List.not_mem_nil, or_false] at he; rcases he with rfl | rfl
      · show '.' ∉ "value".toList; decide
      · show '.' ∉ "import".toList; decide
    · intro e he; simp only [List.mem_cons, List.not_mem_nil, or_false] at he; rcases he with rfl | rfl <;> exact .leaf ⟨rfl, rfl⟩

example (expected : PVal → Bool) :
    (importing "pkg.sub.Outer.Inner".toList).evaluate toy ['x'] expected = if expected (.obj 3) then .ok (.obj 3) else .error .parameterError :=
  C90_import python _ (importing_wf _) ['x'] expected Option.none "value".toList [] (by simp) .none ["pkg".toList, "sub".toList]
    ["Outer".toList, "Inner".toList] "pkg.sub".toList "Outer.Inner".toList (by simp [names]) dotted_sub (by decide) (by simp [names])
    (.more (.one _)) (.obj 3) ⟨.obj 1, by rfl, .step (by rfl) (.step (by rfl) (.here _))⟩
    ⟨[['x']], [("value".toList, .str "pkg.sub.Outer.Inner".toList), ("import".toList, .list [.str "pkg.sub".toList])]⟩
    (.step (List.mem_singleton.2 rfl) (.here _)) (.step (List.mem_cons_self ..) (.here _))
    (.step (List.mem_cons_of_mem _ (List.mem_singleton.2 rfl)) (.here _)) (by simp) _ (.inr ⟨.inl rfl, rfl⟩) (by decide) free

example : fullyQualifiedName (.cls (some "a".toList) "b.c".toList) = fullyQualifiedName (.cls (some "a.b".toList) "c".toList) := by decide +kernel
example : fullyQualifiedName (.cls (some "a.b".toList) "c".toList) ≠ fullyQualifiedName (.cls (some "a".toList) "c".toList) :=
  fun h => absurd ((C90_injective _ _ _ _ (by decide) (by decide)).1 h) (by decide)

end Toy
end ClassUtils
end Vista
