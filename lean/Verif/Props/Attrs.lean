import Mathlib.Data.List.Nodup
import Mathlib.Tactic.Tauto
import Verif.Model.Attrs

/-! C89: attributes declared with `attrutils`. -/
set_option linter.unusedSectionVars false
set_option linter.unusedSimpArgs false
namespace Vista
namespace Attrs
variable {V C S : Type} [DecidableEq V]

/-! ## Declarations -/

theorem attrib_raises (own extra : Keywords V S) (args : Args V S) :
    (∀ e, attrib own extra args = .error e → e = .typeError) ∧
    (attrib own extra args = .error .typeError ↔
      (own.default.isSome = true ∧ extra.default.isSome = true) ∨ (args ≠ .none ∧ (own.default.isSome = true ∨ extra.default.isSome = true)) ∨
      (own.validator.isSome = true ∧ extra.validator.isSome = true) ∨
      ((∃ d f, args = .both d f) ∧ (own.validator.isSome = true ∨ extra.validator.isSome = true)) ∨
      (own.converter.isSome = true ∧ extra.converter.isSome = true) ∨ (own.init.isSome = true ∧ extra.init.isSome = true)) := by
  obtain ⟨d1, v1, c1, i1⟩ := own
  obtain ⟨d2, v2, c2, i2⟩ := extra
  cases args <;> cases d1 <;> cases d2 <;> cases v1 <;> cases v2 <;> cases c1 <;> cases c2 <;> cases i1 <;> cases i2 <;>
    simp [attrib, once, bind, Except.bind, Args.default?, Args.validator?]

/-- The default is given in two ways. -/
def TwoDefaults (args : Args V S) (extra : Keywords V S) : Prop := args ≠ .none ∧ extra.default.isSome = true
/-- The default is given. -/
def SomeDefault (args : Args V S) (extra : Keywords V S) : Prop := args ≠ .none ∨ extra.default.isSome = true
/-- A validator is given in two ways. -/
def TwoValidators (args : Args V S) (extra : Keywords V S) : Prop := (∃ d f, args = .both d f) ∧ extra.validator.isSome = true
/-- A validator is given. -/
def SomeValidator (args : Args V S) (extra : Keywords V S) : Prop := (∃ d f, args = .both d f) ∨ extra.validator.isSome = true

/-- `r` raises exactly if one of the conditions holds: `ValueError` in the first case, else `TypeError`. -/
def FailsIff (r : Res (Attribute V S)) (value type : Prop) : Prop :=
  (r = .error .valueError ↔ value) ∧ (r = .error .typeError ↔ ¬ value ∧ type) ∧ ∀ e, r = .error e → e = .valueError ∨ e = .typeError

/-- Which declarations raise: arguments the declaration itself gives to `attrib` may not be given again (except for the keyword `default` of
`attrib_opt_instance_of`), nor any argument both by position and by keyword; collections must be immutable collections. -/
theorem C89_declarations (W : World V C S) (t : TypeArg C) (c : C) (f : Thunk V S) (args : Args V S) (extra : Keywords V S) :
    FailsIff (attribInstanceOf W t args extra) False (TwoDefaults args extra ∨ SomeValidator args extra) ∧
    FailsIff (attribOptInstanceOf W t args extra) False (args ≠ .none ∨ SomeValidator args extra) ∧
    FailsIff (attribFactory f args extra) False (SomeDefault args extra ∨ TwoValidators args extra) ∧
    FailsIff (attribImmutable W c args extra) (W.isCollection c = false)
      (extra.converter.isSome = true ∨ TwoDefaults args extra ∨ TwoValidators args extra) ∧
    FailsIff (attribPrivateImmutableBuilder W c args extra) (W.isCollection c = false)
      (extra.init.isSome = true ∨ SomeDefault args extra ∨ TwoValidators args extra) ∧
    FailsIff (attribOptImmutable W c args extra) (W.isCollection c = false)
      (extra.converter.isSome = true ∨ SomeDefault args extra ∨ TwoValidators args extra) := by
  have base : ∀ (own extra : Keywords V S) (args : Args V S) (P : Prop), (attrib own extra args = .error .typeError ↔ P) →
      FailsIff (attrib own extra args) False P := by
    intro own extra args P h
    have := (attrib_raises own extra args).1
    refine ⟨⟨fun h => (by have := this _ h; cases this), False.elim⟩, (by simpa using h), fun e he => .inr (this e he)⟩
  have coll : ∀ (own extra : Keywords V S) (args : Args V S) (P : Prop), (attrib own extra args = .error .typeError ↔ P) →
      FailsIff (checkImmutableCollection W c >>= fun _ => attrib own extra args) (W.isCollection c = false) P := by
    intro own extra args P h
    unfold checkImmutableCollection checkArg
    cases hc : W.isCollection c with
    | false => simp [FailsIff, bind, Except.bind]
    | true => simpa [FailsIff, bind, Except.bind] using base own extra args P h
  refine ⟨base _ _ _ _ ?_, base _ _ _ _ ?_, base _ _ _ _ ?_, coll _ _ _ _ ?_, coll _ _ _ _ ?_, coll _ _ _ _ ?_⟩
  all_goals
    rw [(attrib_raises _ _ _).2]
    simp only [TwoDefaults, SomeDefault, TwoValidators, SomeValidator, Option.isSome_none, Option.isSome_some, Bool.false_eq_true]
    clear base coll
    generalize (args ≠ .none) = A
    generalize (∃ d f, args = .both d f) = B
    generalize (extra.default.isSome = true) = D
    generalize (extra.validator.isSome = true) = E
    generalize (extra.converter.isSome = true) = F
    generalize (extra.init.isSome = true) = G
    by_cases A <;> by_cases B <;> by_cases D <;> by_cases E <;> by_cases F <;> by_cases G <;> simp [*]

/-! ## The order of attributes -/

/-- Defining a class raises `ValueError` exactly if a constructor argument without a default comes after one with a default. -/
theorem C89_order (as : Cls V S) :
    (defineClass as = .ok as ↔ as.Pairwise fun x y => x.2.init = true → y.2.init = true → y.2.default.isNothing = true → x.2.default.isNothing = true) ∧
    ∀ r, defineClass as = r → r = .ok as ∨ r = .error .valueError := by
  have key : ∀ (l : List (Attribute V S)) (b : Bool), (checkOrder b l = .ok () ∨ checkOrder b l = .error .valueError) ∧
      (checkOrder b l = .ok () ↔ (b = true → ∀ a ∈ l, a.init = true → a.default.isNothing = false) ∧
        l.Pairwise fun x y => x.init = true → y.init = true → y.default.isNothing = true → x.default.isNothing = true) := by
    intro l
    induction l with
    | nil => intro b; simp [checkOrder]
    | cons a l ih =>
      intro b
      unfold checkOrder
      cases hi : a.init with
      | false =>
        obtain ⟨h1, h2⟩ := ih b
        refine ⟨by simpa using h1, ?_⟩
        simp only [Bool.not_false, if_true, h2, List.forall_mem_cons, hi, Bool.false_eq_true, false_imp_iff, true_and, List.pairwise_cons,
          implies_true]
      | true =>
        cases hn : a.default.isNothing with
        | true =>
          cases b with
          | true => simp [hi, hn]
          | false =>
            obtain ⟨h1, h2⟩ := ih false
            refine ⟨by simpa using h1, ?_⟩
            simp [h2, hn]
        | false =>
          obtain ⟨h1, h2⟩ := ih true
          refine ⟨by simpa using h1, ?_⟩
          simp only [Bool.not_true, Bool.false_eq_true, if_false, Bool.and_false, Bool.not_false, Bool.or_true, h2, forall_const, List.forall_mem_cons,
            hi, hn, List.pairwise_cons, true_implies, Bool.true_eq, imp_false, Bool.not_eq_true, implies_true, true_and, and_true]
          constructor
          · intro ⟨h3, h4⟩; exact ⟨fun _ => h3, h3, h4⟩
          · intro ⟨_, h3, h4⟩; exact ⟨h3, h4⟩
  obtain ⟨h1, h2⟩ := key (as.map (·.2)) false
  rw [List.pairwise_map] at h2
  simp only [Bool.false_eq_true, false_imp_iff, true_and] at h2
  unfold defineClass
  simp only [bind, Except.bind]
  rw [← h2]
  constructor
  · rcases h1 with h | h <;> simp [h]
  · rintro r rfl
    rcases h1 with h | h <;> simp [h]

/-! ## What a declaration promises about the attribute -/

/-- A declaration without further arguments. -/
inductive Kind (V C S : Type)
  | instanceOf (t : TypeArg C)
  | optInstanceOf (t : TypeArg C)
  | factory (f : Thunk V S)
  | immutable (c : C)
  | privateBuilder (c : C)
  | optImmutable (c : C)

/-- A declaration in a class body: `name = attrib_…(…)` or `name = attrib_…(…, default=…)`. -/
structure Decl (V C S : Type) where
  name : Str
  kind : Kind V C S
  default : Option V

/-- Run it. -/
def declare (W : World V C S) (d : Decl V C S) : Res (Str × Attribute V S) :=
  let extra : Keywords V S := { default := d.default.map .value }
  match d.kind with
  | .instanceOf t => (attribInstanceOf W t .none extra).map (d.name, ·)
  | .optInstanceOf t => (attribOptInstanceOf W t .none extra).map (d.name, ·)
  | .factory f => (attribFactory f .none extra).map (d.name, ·)
  | .immutable c => (attribImmutable W c .none extra).map (d.name, ·)
  | .privateBuilder c => (attribPrivateImmutableBuilder W c .none extra).map (d.name, ·)
  | .optImmutable c => (attribOptImmutable W c .none extra).map (d.name, ·)

/-- The class body. -/
def declareAll (W : World V C S) : List (Decl V C S) → Res (Cls V S)
  | [] => .ok []
  | d :: ds => do
    let a ← declare W d
    let as ← declareAll W ds
    .ok (a :: as)

/-- A class occurs in a class argument, at whatever depth. -/
inductive Mentions : TypeArg C → C → Prop
  | cls (c) : Mentions (.cls c) c
  | tuple {ts t c} : t ∈ ts → Mentions t c → Mentions (.tuple ts) c

/-- The value is an instance of one of the classes. -/
def IsA (W : World V C S) (v : V) (t : TypeArg C) : Prop := ∃ c, Mentions t c ∧ W.isInstance v c = true

/-- Nothing but `None` has the type of `None`; the empty collection, made into a collection of its type, stays what it is. -/
structure Lawful (W : World V C S) : Prop where
  noneType : ∀ v, W.isInstance v W.noneType = true ↔ v = W.none
  ofEmpty : ∀ c, W.isCollection c = true → W.of c (W.empty c) = .ok (W.empty c)

/-- What the attribute of a new object is to be, given the argument (if any); `s` and `s'` are the states before and after. -/
def Field (W : World V C S) (d : Decl V C S) (given : Option V) (s : S) (v : V) (s' : S) : Prop :=
  match d.kind with
  | .instanceOf t => given.or d.default = some v ∧ IsA W v t ∧ s' = s
  | .optInstanceOf t => v = (given.or d.default).getD W.none ∧ (v = W.none ∨ IsA W v t) ∧ s' = s
  | .factory f => (given = some v ∧ s' = s) ∨ (given = none ∧ f s = (.ok v, s'))
  | .immutable c => ∃ w, given.or d.default = some w ∧ W.of c w = .ok v ∧ s' = s
  | .privateBuilder c => W.builder c s = (v, s')
  | .optImmutable c => s' = s ∧ ((given.getD W.none = W.none ∧ v = W.empty c) ∨ ∃ w, w ≠ W.none ∧ given = some w ∧ W.of c w = .ok v)

/-- The same for all attributes, in order. -/
def Fields (W : World V C S) (given : Str → Option V) : List (Decl V C S) → S → List V → S → Prop
  | [], s, vs, s' => vs = [] ∧ s' = s
  | d :: ds, s, vs, s' => ∃ v vs' s₁, vs = v :: vs' ∧ Field W d (given d.name) s v s₁ ∧ Fields W given ds s₁ vs' s'

/-- Is the attribute an argument of the constructor? -/
def Decl.isArgument (d : Decl V C S) : Bool :=
  match d.kind with
  | .privateBuilder _ => false
  | _ => true

/-- The parameters of the constructor. -/
def parameters (ds : List (Decl V C S)) : List Str := (ds.filter (·.isArgument)).map fun d => d.name.dropWhile (· == '_')

/-- The arguments fit the parameters: not too many by position, and keywords only for parameters not yet given. -/
def ArgumentsFit (params : List Str) (pos : List V) (kw : List (Str × V)) : Prop :=
  pos.length ≤ params.length ∧ ∀ k ∈ kw.map (·.1), k ∈ params.drop pos.length

/-- The argument for a parameter. -/
def argument (params : List Str) (pos : List V) (kw : List (Str × V)) (p : Str) : Option V :=
  ((params.zip pos).lookup p).or (kw.lookup p)

/-- The argument for an attribute. -/
def argumentFor (ds : List (Decl V C S)) (pos : List V) (kw : List (Str × V)) (name : Str) : Option V :=
  argument (parameters ds) pos kw (name.dropWhile (· == '_'))

/-! ## Binding -/

/-- The parameters of the constructor of a class. -/
def paramsOf (as : Cls V S) : List Str := (as.filter (·.2.init)).map fun a => paramName a.1

theorem lookup_none_iff {kw : List (Str × V)} {p : Str} : kw.lookup p = none ↔ p ∉ kw.map (·.1) := by
  induction kw with
  | nil => simp
  | cons e kw ih =>
    obtain ⟨q, w⟩ := e
    by_cases h : p = q
    · subst h; simp [List.lookup]
    · have : (p == q) = false := by simpa using h
      simp only [List.lookup, this, ih, List.map_cons, List.mem_cons, not_or, h, not_false_eq_true, true_and]

theorem lookup_filter {kw : List (Str × V)} {p q : Str} (h : q ≠ p) : (kw.filter fun e => e.1 != p).lookup q = kw.lookup q := by
  induction kw with
  | nil => rfl
  | cons e kw ih =>
    obtain ⟨r, w⟩ := e
    by_cases h' : r = p
    · subst h'
      have : (q == r) = false := by simpa using h
      simp [List.lookup, this, ih]
    · simp only [List.filter_cons, bne_iff_ne, ne_eq, h', not_false_eq_true, if_true, List.lookup, ih]

theorem argument_nil (ps : List Str) (kw : List (Str × V)) (q : Str) : argument ps [] kw q = kw.lookup q := by
  simp [argument]

theorem argument_cons_ne {p q : Str} (h : q ≠ p) (ps : List Str) (v : V) (pos : List V) (kw : List (Str × V)) :
    argument (p :: ps) (v :: pos) kw q = argument ps pos kw q := by
  have : (q == p) = false := by simpa using h
  simp [argument, List.lookup, this]

theorem argument_cons_self (p : Str) (ps : List Str) (v : V) (pos : List V) (kw : List (Str × V)) :
    argument (p :: ps) (v :: pos) kw p = some v := by
  simp [argument]

/-- What is bound to an attribute. -/
def boundTo (params : List Str) (pos : List V) (kw : List (Str × V)) (a : Str × Attribute V S) : Option V :=
  if a.2.init then argument params pos kw (paramName a.1) else none

theorem bindArgs_iff : ∀ (as : Cls V S) (pos : List V) (kw : List (Str × V)), (paramsOf as).Nodup →
    (∀ e, bindArgs as pos kw = .error e → e = .typeError) ∧
    ∀ gs, bindArgs as pos kw = .ok gs ↔ ArgumentsFit (paramsOf as) pos kw ∧ gs = as.map (boundTo (paramsOf as) pos kw) ∧
      ∀ a ∈ as, a.2.init = true → a.2.default.isNothing = true → (argument (paramsOf as) pos kw (paramName a.1)).isSome = true
  | [], pos, kw, _ => by
    match pos, kw with
    | [], [] =>
      refine ⟨fun e h => (by cases h), fun gs => ⟨fun h => (by cases h; simp [ArgumentsFit]), fun h => (by rw [h.2.1]; rfl)⟩⟩
    | v :: pos, kw =>
      refine ⟨fun e h => (by cases h; rfl), fun gs => ⟨fun h => (by cases h), fun h => ?_⟩⟩
      have := h.1.1
      simp [paramsOf] at this
    | [], e :: kw =>
      refine ⟨fun e h => (by cases h; rfl), fun gs => ⟨fun h => (by cases h), fun h => ?_⟩⟩
      have := h.1.2 e.1 (by simp)
      simp [paramsOf] at this
  | (n, a) :: as, pos, kw, hnd => by
    unfold bindArgs
    cases hi : a.init with
    | false =>
      have hp : paramsOf ((n, a) :: as) = paramsOf as := by simp [paramsOf, hi]
      rw [hp] at hnd ⊢
      obtain ⟨ih1, ih2⟩ := bindArgs_iff as pos kw hnd
      simp only [Bool.not_false, if_true, bind, Except.bind]
      cases hb : bindArgs as pos kw with
      | error e =>
        refine ⟨fun e' h => (by cases h; exact ih1 e hb), fun gs => ⟨fun h => (by cases h), fun h => ?_⟩⟩
        have := (ih2 (as.map (boundTo (paramsOf as) pos kw))).2 ⟨h.1, rfl, fun x hx => h.2.2 x (by simp [hx])⟩
        rw [hb] at this; cases this
      | ok r =>
        refine ⟨fun e' h => (by cases h), fun gs => ?_⟩
        obtain ⟨h1, h2, h3⟩ := (ih2 r).1 hb
        constructor
        · rintro ⟨⟩
          refine ⟨h1, by simp [boundTo, hi, h2], ?_⟩
          intro x hx
          rcases List.mem_cons.1 hx with rfl | hx
          · simp [hi]
          · exact h3 x hx
        · rintro ⟨-, h, -⟩
          rw [h]; simp [boundTo, hi, h2]
    | true =>
      have hp : paramsOf ((n, a) :: as) = paramName n :: paramsOf as := by simp [paramsOf, hi]
      rw [hp] at hnd ⊢
      set p := paramName n with hpn
      set ps := paramsOf as with hps
      have hnotin := (List.nodup_cons.1 hnd).1
      have hnd' := (List.nodup_cons.1 hnd).2
      have hne : ∀ x ∈ as, x.2.init = true → paramName x.1 ≠ p := by
        intro x hx hxi he
        apply hnotin
        rw [hps, ← he]
        exact List.mem_map.2 ⟨x, List.mem_filter.2 ⟨hx, hxi⟩, rfl⟩
      simp only [Bool.not_true, Bool.false_eq_true, if_false]
      match pos, hl : kw.lookup p with
      | v :: pos, some w =>
        refine ⟨fun e h => by simpa [hl, eq_comm] using h, fun gs => ⟨fun h => (by simp [hl] at h), fun h => ?_⟩⟩
        exfalso
        have hk : p ∈ kw.map (·.1) := by
          by_contra hc
          rw [lookup_none_iff.2 hc] at hl; cases hl
        have := h.1.2 p hk
        simp only [List.length_cons, List.drop_succ_cons] at this
        exact hnotin (List.mem_of_mem_drop this)
      | v :: pos, none =>
        obtain ⟨ih1, ih2⟩ := bindArgs_iff as pos kw hnd'
        have hfit : ArgumentsFit (p :: ps) (v :: pos) kw ↔ ArgumentsFit ps pos kw := by
          simp [ArgumentsFit]
        have hmap : as.map (boundTo (p :: ps) (v :: pos) kw) = as.map (boundTo ps pos kw) := by
          apply List.map_congr_left
          intro x hx
          unfold boundTo
          cases hxi : x.2.init with
          | false => rfl
          | true => simp only [if_true]; exact argument_cons_ne (hne x hx hxi) ..
        have hreq : (∀ x ∈ (n, a) :: as, x.2.init = true → x.2.default.isNothing = true →
            (argument (p :: ps) (v :: pos) kw (paramName x.1)).isSome = true) ↔
            ∀ x ∈ as, x.2.init = true → x.2.default.isNothing = true → (argument ps pos kw (paramName x.1)).isSome = true := by
          rw [List.forall_mem_cons]
          constructor
          · rintro ⟨-, h⟩ x hx h1 h2
            have := h x hx h1 h2
            rwa [argument_cons_ne (hne x hx h1)] at this
          · intro h
            refine ⟨fun _ _ => by rw [← hpn, argument_cons_self]; rfl, fun x hx h1 h2 => ?_⟩
            rw [argument_cons_ne (hne x hx h1)]
            exact h x hx h1 h2
        have hself : boundTo (p :: ps) (v :: pos) kw (n, a) = some v := by
          unfold boundTo
          simp only [hi, if_true, ← hpn, argument_cons_self]
        simp only [hl, hfit, List.map_cons, hmap, hself, bind, Except.bind]
        rw [hreq]
        cases hb : bindArgs as pos kw with
        | error e =>
          refine ⟨fun e' h => (by cases h; exact ih1 e hb), fun gs => ⟨fun h => (by cases h), fun h => ?_⟩⟩
          have := (ih2 _).2 ⟨h.1, rfl, h.2.2⟩
          rw [hb] at this; cases this
        | ok r =>
          refine ⟨fun e' h => (by cases h), fun gs => ?_⟩
          obtain ⟨h1, h2, h3⟩ := (ih2 r).1 hb
          constructor
          · rintro ⟨⟩; exact ⟨h1, by rw [h2], h3⟩
          · rintro ⟨-, h, -⟩; rw [h, h2]
      | [], some w =>
        obtain ⟨ih1, ih2⟩ := bindArgs_iff as [] (kw.filter fun e => e.1 != p) hnd'
        have hfit : ArgumentsFit (p :: ps) [] kw ↔ ArgumentsFit ps ([] : List V) (kw.filter fun e => e.1 != p) := by
          simp only [ArgumentsFit, List.length_nil, Nat.zero_le, true_and, List.drop_zero, List.mem_map, List.mem_filter, bne_iff_ne,
            List.mem_cons]
          constructor
          · rintro h k ⟨e, ⟨he, hek⟩, rfl⟩
            rcases h e.1 ⟨e, he, rfl⟩ with h | h
            · exact absurd h hek
            · exact h
          · rintro h k ⟨e, he, rfl⟩
            by_cases hek : e.1 = p
            · exact .inl hek
            · exact .inr (h e.1 ⟨e, ⟨he, hek⟩, rfl⟩)
        have hmap : as.map (boundTo (p :: ps) [] kw) = as.map (boundTo ps [] (kw.filter fun e => e.1 != p)) := by
          apply List.map_congr_left
          intro x hx
          unfold boundTo
          cases hxi : x.2.init with
          | false => rfl
          | true => simp only [if_true, argument_nil]; exact (lookup_filter (hne x hx hxi)).symm
        have hreq : (∀ x ∈ (n, a) :: as, x.2.init = true → x.2.default.isNothing = true →
            (argument (p :: ps) [] kw (paramName x.1)).isSome = true) ↔
            ∀ x ∈ as, x.2.init = true → x.2.default.isNothing = true →
              (argument ps [] (kw.filter fun e => e.1 != p) (paramName x.1)).isSome = true := by
          rw [List.forall_mem_cons]
          simp only [argument_nil]
          constructor
          · rintro ⟨-, h⟩ x hx h1 h2
            rw [lookup_filter (hne x hx h1)]
            exact h x hx h1 h2
          · intro h
            refine ⟨fun _ _ => by rw [← hpn, hl]; rfl, fun x hx h1 h2 => ?_⟩
            have := h x hx h1 h2
            rwa [lookup_filter (hne x hx h1)] at this
        have hself : boundTo (p :: ps) [] kw (n, a) = some w := by
          unfold boundTo
          simp only [hi, if_true, ← hpn, argument_nil, hl]
        simp only [hl, hfit, List.map_cons, hmap, hself, bind, Except.bind]
        rw [hreq]
        cases hb : bindArgs as [] (kw.filter fun e => e.1 != p) with
        | error e =>
          refine ⟨fun e' h => (by cases h; exact ih1 e hb), fun gs => ⟨fun h => (by cases h), fun h => ?_⟩⟩
          have := (ih2 _).2 ⟨h.1, rfl, h.2.2⟩
          rw [hb] at this; cases this
        | ok r =>
          refine ⟨fun e' h => (by cases h), fun gs => ?_⟩
          obtain ⟨h1, h2, h3⟩ := (ih2 r).1 hb
          constructor
          · rintro ⟨⟩; exact ⟨h1, by rw [h2], h3⟩
          · rintro ⟨-, h, -⟩; rw [h, h2]
      | [], none =>
        obtain ⟨ih1, ih2⟩ := bindArgs_iff as [] kw hnd'
        have hfit : ArgumentsFit (p :: ps) [] kw ↔ ArgumentsFit ps ([] : List V) kw := by
          simp only [ArgumentsFit, List.length_nil, Nat.zero_le, true_and, List.drop_zero, List.mem_cons]
          have := lookup_none_iff.1 hl
          constructor
          · intro h k hk
            rcases h k hk with rfl | h
            · exact absurd hk this
            · exact h
          · exact fun h k hk => .inr (h k hk)
        have hmap : as.map (boundTo (p :: ps) [] kw) = as.map (boundTo ps [] kw) := by
          apply List.map_congr_left
          intro x hx
          unfold boundTo
          simp only [argument_nil]
        have hself : boundTo (p :: ps) [] kw (n, a) = none := by
          unfold boundTo
          simp only [hi, if_true, ← hpn, argument_nil, hl]
        simp only [hl, hfit, List.map_cons, hmap, hself, bind, Except.bind, argument_nil]
        simp only [argument_nil] at ih2
        cases hd : a.default.isNothing with
        | true =>
          simp only [if_true]
          refine ⟨fun e h => by cases h; rfl, fun gs => ⟨fun h => (by cases h), fun h => ?_⟩⟩
          have := h.2.2 (n, a) (by simp) hi hd
          rw [← hpn, hl] at this; cases this
        | false =>
          simp only [Bool.false_eq_true, if_false]
          cases hb : bindArgs as [] kw with
          | error e =>
            refine ⟨fun e' h => (by cases h; exact ih1 e hb), fun gs => ⟨fun h => (by cases h), fun h => ?_⟩⟩
            have := (ih2 _).2 ⟨h.1, rfl, fun x hx => h.2.2 x (by simp [hx])⟩
            rw [hb] at this; cases this
          | ok r =>
            refine ⟨fun e' h => (by cases h), fun gs => ?_⟩
            obtain ⟨h1, h2, h3⟩ := (ih2 r).1 hb
            constructor
            · rintro ⟨⟩
              refine ⟨h1, by rw [h2], ?_⟩
              intro x hx
              rcases List.mem_cons.1 hx with rfl | hx
              · simp [hd]
              · exact h3 x hx
            · rintro ⟨-, h, -⟩; rw [h, h2]

/-! ## Validation and conversion -/

mutual
theorem isInstanceOf_iff (W : World V C S) (v : V) : ∀ t, isInstanceOf W v t = true ↔ IsA W v t
  | .cls c => by
    unfold isInstanceOf IsA
    exact ⟨fun h => ⟨c, .cls c, h⟩, fun ⟨_, hm, h⟩ => by cases hm; exact h⟩
  | .tuple ts => by
    unfold isInstanceOf
    rw [isInstanceOfAny_iff W v ts]
    unfold IsA
    constructor
    · rintro ⟨t, ht, c, hm, h⟩
      exact ⟨c, .tuple ht hm, h⟩
    · rintro ⟨c, hm, h⟩
      cases hm with
      | tuple ht hm => exact ⟨_, ht, c, hm, h⟩
theorem isInstanceOfAny_iff (W : World V C S) (v : V) : ∀ ts, isInstanceOfAny W v ts = true ↔ ∃ t ∈ ts, IsA W v t
  | [] => by simp [isInstanceOfAny]
  | t :: ts => by
    unfold isInstanceOfAny
    rw [Bool.or_eq_true, isInstanceOf_iff W v t, isInstanceOfAny_iff W v ts]
    simp
end

theorem instanceOf_iff (W : World V C S) (t : TypeArg C) (v : V) :
    (instanceOf W t v = .ok () ↔ IsA W v t) ∧ ∀ e, instanceOf W t v = .error e → e = .typeError := by
  unfold instanceOf
  rw [← isInstanceOf_iff]
  split <;> simp_all

theorem optInstanceOf_iff (W : World V C S) (hW : Lawful W) (t : TypeArg C) (v : V) :
    (optInstanceOf W t v = .ok () ↔ v = W.none ∨ IsA W v t) ∧ ∀ e, optInstanceOf W t v = .error e → e = .typeError := by
  unfold optInstanceOf
  refine ⟨?_, (instanceOf_iff W _ v).2⟩
  rw [(instanceOf_iff W _ v).1]
  unfold IsA
  constructor
  · rintro ⟨c, hm, h⟩
    cases hm with
    | tuple ht hm =>
      simp only [List.mem_cons, List.not_mem_nil, or_false] at ht
      rcases ht with rfl | rfl
      · exact .inr ⟨c, hm, h⟩
      · cases hm; exact .inl ((hW.noneType v).1 h)
  · rintro (h | ⟨c, hm, h⟩)
    · exact ⟨W.noneType, .tuple (by simp) (.cls _), (hW.noneType v).2 h⟩
    · exact ⟨c, .tuple (by simp) hm, h⟩

/-- The validator of an attribute accepts the value. -/
def Accepts (a : Attribute V S) (v : V) : Prop := ∀ f, a.validator = some f → f v = .ok ()

theorem declare_shape (W : World V C S) (d : Decl V C S) {x : Str × Attribute V S} (h : declare W d = .ok x) :
    x.1 = d.name ∧ x.2.init = d.isArgument ∧
    match d.kind with
    | .instanceOf t => x.2 = ⟨(d.default.map .value).getD .nothing, some (instanceOf W t), none, true⟩
    | .optInstanceOf t => x.2 = ⟨(d.default.map .value).getD (.value W.none), some (optInstanceOf W t), none, true⟩
    | .factory f => x.2 = ⟨.factory f, none, none, true⟩ ∧ d.default = none
    | .immutable c => x.2 = ⟨(d.default.map .value).getD .nothing, none, some (W.of c), true⟩ ∧ W.isCollection c = true
    | .privateBuilder c => x.2 = ⟨.factory fun s => (.ok (W.builder c s).1, (W.builder c s).2), none, none, false⟩ ∧ d.default = none
    | .optImmutable c => x.2 = ⟨.value (W.empty c), none, some (emptyImmutableIfNone W c), true⟩ ∧ d.default = none ∧ W.isCollection c = true := by
  obtain ⟨name, kind, dflt⟩ := d
  unfold declare at h
  cases kind with
  | instanceOf t =>
    cases dflt <;>
    simp only [attribInstanceOf, attrib, once, bind, Except.bind, Except.map, Option.map, Args.default?, Args.validator?] at h <;>
    cases h <;> exact ⟨rfl, rfl, rfl⟩
  | optInstanceOf t =>
    cases dflt <;>
    simp only [attribOptInstanceOf, attrib, once, bind, Except.bind, Except.map, Option.map, Args.default?, Args.validator?] at h <;>
    cases h <;> exact ⟨rfl, rfl, rfl⟩
  | factory f =>
    cases dflt <;>
    simp only [attribFactory, attrib, once, bind, Except.bind, Except.map, Option.map, Args.default?, Args.validator?] at h <;>
    cases h
    exact ⟨rfl, rfl, rfl, rfl⟩
  | immutable c =>
    cases hc : W.isCollection c <;> cases dflt <;>
    simp only [attribImmutable, checkImmutableCollection, checkArg, hc, attrib, once, bind, Except.bind, Except.map, Option.map,
      Args.default?, Args.validator?, Bool.false_eq_true, if_false, if_true] at h <;>
    cases h <;> exact ⟨rfl, rfl, rfl, hc⟩
  | privateBuilder c =>
    cases hc : W.isCollection c <;> cases dflt <;>
    simp only [attribPrivateImmutableBuilder, checkImmutableCollection, checkArg, hc, attrib, once, bind, Except.bind, Except.map, Option.map,
      Args.default?, Args.validator?, Bool.false_eq_true, if_false, if_true] at h <;>
    cases h
    exact ⟨rfl, rfl, rfl, rfl⟩
  | optImmutable c =>
    cases hc : W.isCollection c <;> cases dflt <;>
    simp only [attribOptImmutable, checkImmutableCollection, checkArg, hc, attrib, once, bind, Except.bind, Except.map, Option.map,
      Args.default?, Args.validator?, Bool.false_eq_true, if_false, if_true] at h <;>
    cases h
    exact ⟨rfl, rfl, rfl, rfl, hc⟩

/-- Some factory or collection type of the class raised the exception. -/
def Raised (W : World V C S) (ds : List (Decl V C S)) (e : Exc) : Prop :=
  ∃ d ∈ ds, match d.kind with
    | .factory f => ∃ s, (f s).1 = .error e
    | .immutable c => ∃ w, W.of c w = .error e
    | .optImmutable c => ∃ w, W.of c w = .error e
    | _ => False

theorem field_iff (W : World V C S) (hW : Lawful W) (d : Decl V C S) {x : Str × Attribute V S} (h : declare W d = .ok x) {g : Option V}
    (hg : x.2.init = false → g = none) (hreq : x.2.init = true → x.2.default.isNothing = true → g.isSome = true) (s : S) :
    (∀ v s', (fieldValue x.2 g s = (.ok (some v), s') ∧ Accepts x.2 v) ↔ Field W d g s v s') ∧
    (∀ s', fieldValue x.2 g s ≠ (.ok none, s')) ∧
    (∀ e s', fieldValue x.2 g s = (.error e, s') → Raised W [d] e) ∧
    (∀ f v e, x.2.validator = some f → f v = .error e → e = .typeError) := by
  obtain ⟨hn, hinit, hshape⟩ := declare_shape W d h
  obtain ⟨n, a⟩ := x
  obtain ⟨name, kind, dflt⟩ := d
  simp only at hn hinit hg hreq ⊢
  unfold Field Raised
  cases kind with
  | instanceOf t =>
    simp only at hshape
    subst hshape
    have key : fieldValue ⟨(dflt.map .value).getD .nothing, some (instanceOf W t), none, true⟩ g s = (.ok (g.or dflt), s) := by
      cases g <;> cases dflt <;> rfl
    refine ⟨fun v s' => ?_, fun s' hc => ?_, fun e s' hc => ?_, ?_⟩
    · rw [key]
      simp only [Accepts, Option.some.injEq, forall_eq', (instanceOf_iff W t v).1, Prod.mk.injEq, Except.ok.injEq]
      constructor
      · rintro ⟨⟨h1, h2⟩, h3⟩; exact ⟨h1, h3, h2.symm⟩
      · rintro ⟨h1, h3, h2⟩; exact ⟨⟨h1, h2.symm⟩, h3⟩
    · rw [key] at hc
      simp only [Prod.mk.injEq, Except.ok.injEq] at hc
      cases g <;> cases dflt <;> simp [Default.isNothing] at hc hreq
    · rw [key] at hc; simp at hc
    · rintro f v e ⟨⟩ he; exact (instanceOf_iff W t v).2 e he
  | optInstanceOf t =>
    simp only at hshape
    subst hshape
    have key : fieldValue ⟨(dflt.map .value).getD (.value W.none), some (optInstanceOf W t), none, true⟩ g s =
        (.ok (some ((g.or dflt).getD W.none)), s) := by
      cases g <;> cases dflt <;> rfl
    refine ⟨fun v s' => ?_, fun s' hc => ?_, fun e s' hc => ?_, ?_⟩
    · rw [key]
      simp only [Accepts, Option.some.injEq, forall_eq', (optInstanceOf_iff W hW t v).1, Prod.mk.injEq, Except.ok.injEq]
      constructor
      · rintro ⟨⟨h1, h2⟩, h3⟩; exact ⟨h1.symm, h3, h2.symm⟩
      · rintro ⟨h1, h3, h2⟩; exact ⟨⟨h1.symm, h2.symm⟩, h3⟩
    · rw [key] at hc; simp at hc
    · rw [key] at hc; simp at hc
    · rintro f v e ⟨⟩ he; exact (optInstanceOf_iff W hW t v).2 e he
  | factory f =>
    simp only at hshape
    obtain ⟨rfl, rfl⟩ := hshape
    refine ⟨fun v s' => ?_, fun s' hc => ?_, fun e s' hc => ?_, fun f v e hf => by cases hf⟩
    · cases g with
      | some w =>
        simp [fieldValue, convert, Except.map, Accepts, eq_comm]
      | none =>
        simp only [fieldValue, convert, Accepts]
        rcases f s with ⟨_ | w, s₁⟩ <;> simp [Except.map]
    · cases g with
      | some w => simp [fieldValue, convert, Except.map] at hc
      | none =>
        simp only [fieldValue, convert] at hc
        rcases hf : f s with ⟨_ | w, s₁⟩ <;> simp [hf, Except.map] at hc
    · cases g with
      | some w => simp [fieldValue, convert, Except.map] at hc
      | none =>
        simp only [fieldValue, convert] at hc
        rcases hf : f s with ⟨e' | w, s₁⟩
        · rw [hf] at hc
          simp only [Prod.mk.injEq, Except.error.injEq] at hc
          refine ⟨_, List.mem_singleton.2 rfl, s, ?_⟩
          rw [hf, hc.1]
        · simp [hf, Except.map] at hc
  | immutable c =>
    simp only at hshape
    obtain ⟨rfl, hc'⟩ := hshape
    have key : ∀ w, g.or dflt = some w →
        fieldValue ⟨(dflt.map .value).getD .nothing, none, some (W.of c), true⟩ g s = ((W.of c w).map some, s) := by
      intro w hw
      cases g <;> cases dflt <;> simp at hw <;> subst hw <;> rfl
    obtain ⟨w, hw⟩ : ∃ w, g.or dflt = some w := by
      cases g <;> cases dflt <;> simp [Default.isNothing] at hreq ⊢
    rw [key w hw]
    refine ⟨fun v s' => ?_, fun s' hc => ?_, fun e s' hc => ?_, fun f v e hf => by cases hf⟩
    · rw [hw]
      simp only [Accepts, reduceCtorEq, false_imp_iff, implies_true, and_true, Option.some.injEq, exists_eq_left', Prod.mk.injEq]
      cases W.of c w <;> simp [Except.map, eq_comm]
    · cases ho : W.of c w <;> simp [ho, Except.map] at hc
    · refine ⟨_, List.mem_singleton.2 rfl, w, ?_⟩
      cases ho : W.of c w <;> simp [ho, Except.map] at hc
      rw [hc.1]
  | privateBuilder c =>
    simp only at hshape
    obtain ⟨rfl, rfl⟩ := hshape
    have : g = none := hg rfl
    subst this
    refine ⟨fun v s' => ?_, fun s' hc => ?_, fun e s' hc => ?_, fun f v e hf => by cases hf⟩
    · simp only [fieldValue, convert, Except.map, Accepts, reduceCtorEq, false_imp_iff, implies_true, and_true, Prod.mk.injEq, Except.ok.injEq,
        Option.some.injEq]
      rcases W.builder c s with ⟨w, s₁⟩
      simp
    · simp [fieldValue, convert, Except.map] at hc
    · simp [fieldValue, convert, Except.map] at hc
  | optImmutable c =>
    simp only at hshape
    obtain ⟨rfl, rfl, hc'⟩ := hshape
    have hempty : emptyImmutableIfNone W c (W.empty c) = .ok (W.empty c) := by
      unfold emptyImmutableIfNone
      rw [hW.ofEmpty c hc', ite_self]
    have key : fieldValue ⟨.value (W.empty c), none, some (emptyImmutableIfNone W c), true⟩ g s =
        ((emptyImmutableIfNone W c (g.getD W.none)).map some, s) := by
      cases g with
      | none => simp [fieldValue, convert, hempty]; simp [emptyImmutableIfNone]
      | some w => rfl
    rw [key]
    refine ⟨fun v s' => ?_, fun s' hc => ?_, fun e s' hc => ?_, fun f v e hf => by cases hf⟩
    · simp only [Accepts, reduceCtorEq, false_imp_iff, implies_true, and_true, Prod.mk.injEq]
      unfold emptyImmutableIfNone
      by_cases hn : g.getD W.none = W.none
      · simp only [hn, if_true, Except.map, Except.ok.injEq, Option.some.injEq, true_and]
        constructor
        · rintro ⟨h1, h2⟩; exact ⟨h2.symm, .inl h1.symm⟩
        · rintro ⟨h1, h2 | ⟨w, h2, h3, -⟩⟩
          · exact ⟨h2.symm, h1.symm⟩
          · rw [h3] at hn; exact absurd hn h2
      · obtain ⟨w, rfl⟩ : ∃ w, g = some w := by
          cases g with
          | none => exact absurd rfl hn
          | some w => exact ⟨w, rfl⟩
        simp only [Option.getD_some] at hn ⊢
        simp only [hn, if_false, false_and, false_or, Option.some.injEq]
        cases ho : W.of c w with
        | error e => simp [Except.map, ho]
        | ok u =>
          simp only [Except.map, Except.ok.injEq, Option.some.injEq]
          constructor
          · rintro ⟨rfl, rfl⟩; exact ⟨rfl, w, hn, rfl, ho⟩
          · rintro ⟨rfl, x, -, rfl, h⟩
            rw [ho] at h; cases h; exact ⟨rfl, rfl⟩
    · cases ho : emptyImmutableIfNone W c (g.getD W.none) <;> simp [ho, Except.map] at hc
    · unfold emptyImmutableIfNone at hc
      by_cases hn : g.getD W.none = W.none
      · simp [hn, Except.map] at hc
      · refine ⟨_, List.mem_singleton.2 rfl, g.getD W.none, ?_⟩
        cases ho : W.of c (g.getD W.none) <;> simp [hn, ho, Except.map] at hc
        rw [hc.1]

end Attrs
end Vista
