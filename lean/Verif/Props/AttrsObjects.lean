import Verif.Props.Attrs

/-! C89, continued: the objects of classes declared with `attrutils`. -/
set_option linter.unusedSectionVars false
set_option linter.unusedSimpArgs false
namespace Vista
namespace Attrs
variable {V C S : Type} [DecidableEq V]

theorem Raised.mono {W : World V C S} {ds ds' : List (Decl V C S)} {e : Exc} (hs : ∀ d ∈ ds, d ∈ ds') : Raised W ds e → Raised W ds' e := by
  rintro ⟨d, hd, h⟩
  exact ⟨d, hs d hd, h⟩

theorem declareAll_cons {W : World V C S} {d : Decl V C S} {ds : List (Decl V C S)} {as : Cls V S} (h : declareAll W (d :: ds) = .ok as) :
    ∃ x as', as = x :: as' ∧ declare W d = .ok x ∧ declareAll W ds = .ok as' := by
  unfold declareAll at h
  simp only [bind, Except.bind] at h
  cases h1 : declare W d with
  | error e => rw [h1] at h; cases h
  | ok x =>
    cases h2 : declareAll W ds with
    | error e => rw [h1, h2] at h; cases h
    | ok as' =>
      rw [h1, h2] at h
      cases h
      exact ⟨x, as', rfl, rfl, rfl⟩

theorem paramsOf_declareAll {W : World V C S} : ∀ {ds : List (Decl V C S)} {as : Cls V S}, declareAll W ds = .ok as → paramsOf as = parameters ds
  | [], as, h => by cases h; rfl
  | d :: ds, as, h => by
    obtain ⟨x, as', rfl, h1, h2⟩ := declareAll_cons h
    obtain ⟨hn, hi, -⟩ := declare_shape W d h1
    have ih := paramsOf_declareAll h2
    unfold paramsOf parameters at ih ⊢
    cases hd : d.isArgument with
    | false => simp only [List.filter_cons, hi, hd, Bool.false_eq_true, if_false, ih]
    | true =>
      simp only [List.filter_cons, hi, hd, if_true, List.map_cons]
      rw [ih, hn]
      rfl

/-- What is given for an attribute. -/
def toField (given : Str → Option V) (d : Decl V C S) : Option V := if d.isArgument then given d.name else none

theorem Field_toField (W : World V C S) (given : Str → Option V) (d : Decl V C S) (s : S) (v : V) (s' : S) :
    Field W d (toField given d) s v s' ↔ Field W d (given d.name) s v s' := by
  obtain ⟨n, k, dflt⟩ := d
  cases k <;> simp [Field, toField, Decl.isArgument]

theorem fields_iff (W : World V C S) (hW : Lawful W) (given : Str → Option V) (f : Str × Attribute V S → Option V) :
    ∀ {ds : List (Decl V C S)} {as : Cls V S}, declareAll W ds = .ok as →
    (∀ a ∈ as, f a = if a.2.init then given a.1 else none) →
    (∀ a ∈ as, a.2.init = true → a.2.default.isNothing = true → (given a.1).isSome = true) → ∀ s,
    (∀ vs' s', (assignFields as (as.map f) s = (.ok vs', s') ∧ validate as vs' = .ok ()) ↔
      ∃ vs, vs' = vs.map some ∧ Fields W given ds s vs s') ∧
    (∀ e s', assignFields as (as.map f) s = (.error e, s') → Raised W ds e) ∧
    (∀ vs' s', assignFields as (as.map f) s = (.ok vs', s') → ∀ e, validate as vs' = .error e → e = .typeError)
  | [], as, h, hf, hr, s => by
    cases h
    refine ⟨fun vs' s' => ?_, fun e s' h => (by cases h), fun vs' s' h e h' => (by cases h; cases h')⟩
    simp only [assignFields, List.map_nil, Fields, Prod.mk.injEq, Except.ok.injEq]
    constructor
    · rintro ⟨⟨rfl, rfl⟩, -⟩; exact ⟨[], rfl, rfl, rfl⟩
    · rintro ⟨vs, rfl, rfl, rfl⟩; exact ⟨⟨rfl, rfl⟩, rfl⟩
  | d :: ds, as, h, hf, hr, s => by
    obtain ⟨x, as', rfl, h1, h2⟩ := declareAll_cons h
    obtain ⟨hn, hi, -⟩ := declare_shape W d h1
    have hfx : f x = toField given d := by rw [hf x (by simp), hi, hn]; rfl
    obtain ⟨f1, f2, f3, f4⟩ := field_iff W hW d h1 (g := f x)
      (by intro hx; rw [hf x (by simp), hx]; rfl)
      (by intro hx hd; rw [hf x (by simp), hx]; exact hr x (by simp) hx hd) s
    have ih := fun s₁ => fields_iff W hW given f h2 (fun a ha => hf a (by simp [ha])) (fun a ha => hr a (by simp [ha])) s₁
    obtain ⟨n, a⟩ := x
    simp only [assignFields, List.map_cons]
    rcases hv : fieldValue a (f (n, a)) s with ⟨e | w, s₁⟩
    · refine ⟨fun vs' s' => ⟨fun h => (by simp at h), ?_⟩, fun e' s' h => ?_, fun vs' s' h => (by simp at h)⟩
      · rintro ⟨vs, -, v, vs'', s₂, -, hF, -⟩
        rw [← Field_toField, ← hfx] at hF
        have := ((f1 v s₂).2 hF).1
        rw [hv] at this; simp at this
      · simp only [Prod.mk.injEq, Except.error.injEq] at h
        obtain ⟨rfl, rfl⟩ := h
        exact (f3 e s₁ hv).mono (by simp)
    · cases w with
      | none => exact absurd hv (f2 s₁)
      | some w =>
        obtain ⟨i1, i2, i3⟩ := ih s₁
        simp only
        rcases hr' : assignFields as' (as'.map f) s₁ with ⟨e | ws, s₂⟩
        · refine ⟨fun vs' s' => ⟨fun h => (by simp at h), ?_⟩, fun e' s' h => ?_, fun vs' s' h => (by simp at h)⟩
          · rintro ⟨vs, -, v, vs'', s₃, -, hF, hFs⟩
            rw [← Field_toField, ← hfx] at hF
            have := ((f1 v s₃).2 hF).1
            rw [hv] at this
            simp only [Prod.mk.injEq, Except.ok.injEq, Option.some.injEq] at this
            obtain ⟨rfl, rfl⟩ := this
            have := ((i1 _ _).2 ⟨vs'', rfl, hFs⟩).1
            rw [hr'] at this; simp at this
          · simp only [Prod.mk.injEq, Except.error.injEq] at h
            obtain ⟨rfl, rfl⟩ := h
            exact (i2 e s₂ hr').mono (by intro x hx; simp [hx])
        · refine ⟨fun vs' s' => ?_, fun e' s' h => (by simp at h), fun vs' s' h e he => ?_⟩
          · constructor
            · rintro ⟨h, hval⟩
              simp only [Prod.mk.injEq, Except.ok.injEq] at h
              obtain ⟨rfl, rfl⟩ := h
              unfold validate at hval
              simp only [bind, Except.bind] at hval
              have hacc : Accepts a w ∧ validate as' ws = .ok () := by
                unfold Accepts
                cases hvd : a.validator with
                | none => rw [hvd] at hval; exact ⟨fun f hf => (by cases hf), hval⟩
                | some g =>
                  rw [hvd] at hval
                  simp only at hval
                  cases hg : g w with
                  | error e => rw [hg] at hval; cases hval
                  | ok u =>
                    rw [hg] at hval
                    exact ⟨fun f hf => (by cases hf; exact hg), hval⟩
              obtain ⟨vs, rfl, hFs⟩ := (i1 ws s₂).1 ⟨hr', hacc.2⟩
              refine ⟨w :: vs, rfl, w, vs, s₁, rfl, ?_, hFs⟩
              rw [← Field_toField, ← hfx]
              exact (f1 w s₁).1 ⟨hv, hacc.1⟩
            · rintro ⟨vs, rfl, v, vs'', s₃, rfl, hF, hFs⟩
              rw [← Field_toField, ← hfx] at hF
              obtain ⟨h5, hacc⟩ := (f1 v s₃).2 hF
              rw [hv] at h5
              simp only [Prod.mk.injEq, Except.ok.injEq, Option.some.injEq] at h5
              obtain ⟨rfl, rfl⟩ := h5
              obtain ⟨h6, h7⟩ := (i1 _ _).2 ⟨vs'', rfl, hFs⟩
              rw [hr'] at h6
              simp only [Prod.mk.injEq, Except.ok.injEq] at h6
              obtain ⟨rfl, rfl⟩ := h6
              refine ⟨rfl, ?_⟩
              simp only [List.map_cons, validate, bind, Except.bind]
              unfold Accepts at hacc
              cases hvd : a.validator with
              | none => exact h7
              | some g => simp only [hacc g hvd, h7]
          · simp only [Prod.mk.injEq, Except.ok.injEq] at h
            obtain ⟨rfl, rfl⟩ := h
            unfold validate at he
            simp only [bind, Except.bind] at he
            cases hvd : a.validator with
            | none => rw [hvd] at he; exact i3 ws s₂ hr' e he
            | some g =>
              rw [hvd] at he
              simp only at he
              cases hg : g w with
              | error e' => rw [hg] at he; cases he; exact f4 g w e hvd hg
              | ok u => rw [hg] at he; exact i3 ws s₂ hr' e he

theorem declareAll_mem {W : World V C S} : ∀ {ds : List (Decl V C S)} {as : Cls V S}, declareAll W ds = .ok as →
    ∀ d ∈ ds, ∃ x ∈ as, declare W d = .ok x
  | [], as, h, d, hd => by simp at hd
  | d' :: ds, as, h, d, hd => by
    obtain ⟨x, as', rfl, h1, h2⟩ := declareAll_cons h
    rcases List.mem_cons.1 hd with rfl | hd
    · exact ⟨x, by simp, h1⟩
    · obtain ⟨y, hy, h3⟩ := declareAll_mem h2 d hd
      exact ⟨y, by simp [hy], h3⟩

theorem declareAll_mem' {W : World V C S} : ∀ {ds : List (Decl V C S)} {as : Cls V S}, declareAll W ds = .ok as →
    ∀ x ∈ as, ∃ d ∈ ds, declare W d = .ok x
  | [], as, h, x, hx => by cases h; simp at hx
  | d' :: ds, as, h, x, hx => by
    obtain ⟨y, as', rfl, h1, h2⟩ := declareAll_cons h
    rcases List.mem_cons.1 hx with rfl | hx
    · exact ⟨d', by simp, h1⟩
    · obtain ⟨d, hd, h3⟩ := declareAll_mem' h2 x hx
      exact ⟨d, by simp [hd], h3⟩

/-- An attribute that must be given. -/
def Decl.isRequired (d : Decl V C S) : Bool :=
  match d.kind with
  | .instanceOf _ => d.default.isNone
  | .immutable _ => d.default.isNone
  | _ => false

theorem required_iff {W : World V C S} {d : Decl V C S} {x : Str × Attribute V S} (h : declare W d = .ok x) :
    (x.2.init = true ∧ x.2.default.isNothing = true) ↔ d.isRequired = true := by
  obtain ⟨hn, hi, hs⟩ := declare_shape W d h
  obtain ⟨n, k, dflt⟩ := d
  cases k <;> simp only at hs <;> (try obtain ⟨hs, hs'⟩ := hs) <;> rw [hs] <;> cases dflt <;>
    simp [Default.isNothing, Decl.isRequired]

theorem Fields_required {W : World V C S} {given : Str → Option V} : ∀ {ds : List (Decl V C S)} {s vs s'}, Fields W given ds s vs s' →
    ∀ d ∈ ds, d.isRequired = true → (given d.name).isSome = true
  | [], _, _, _, _, d, hd, _ => by simp at hd
  | d' :: ds, s, vs, s', ⟨v, vs', s₁, _, hF, hFs⟩, d, hd, hr => by
    rcases List.mem_cons.1 hd with rfl | hd
    · obtain ⟨n, k, dflt⟩ := d
      cases k <;> simp only [Decl.isRequired, Bool.false_eq_true, Option.isNone_iff_eq_none] at hr
      · subst hr
        have := hF.1
        simp at this
        simp [this]
      · subst hr
        obtain ⟨w, hw, -⟩ := hF
        simp at hw
        simp [hw]
    · exact Fields_required hFs d hd hr

/-- Constructing an object of a class declared with `attrutils` succeeds exactly if the arguments fit the parameters and every attribute can
be what its declaration promises; and then it is.  Otherwise an exception is raised: `TypeError`, unless it is one that a factory or the
collection type raised. -/
theorem C89_construct (W : World V C S) (hW : Lawful W) (ds : List (Decl V C S)) (as : Cls V S) (hd : declareAll W ds = .ok as)
    (hn : (parameters ds).Nodup) (pos : List V) (kw : List (Str × V)) (s : S) :
    (∀ obj s', construct as pos kw s = (.ok obj, s') ↔
      ArgumentsFit (parameters ds) pos kw ∧ ∃ vs, obj = vs.map some ∧ Fields W (argumentFor ds pos kw) ds s vs s') ∧
    (∀ e s', construct as pos kw s = (.error e, s') → e = .typeError ∨ Raised W ds e) ∧
    (¬ ArgumentsFit (parameters ds) pos kw → construct as pos kw s = (.error .typeError, s)) := by
  have hp := paramsOf_declareAll hd
  obtain ⟨b1, b2⟩ := bindArgs_iff as pos kw (hp ▸ hn)
  rw [hp] at b2
  unfold construct
  have given_eq : ∀ n, argument (parameters ds) pos kw (paramName n) = argumentFor ds pos kw n := fun n => rfl
  cases hb : bindArgs as pos kw with
  | error e =>
    have := b1 e hb
    subst this
    refine ⟨fun obj s' => ⟨fun h => (by simp at h), ?_⟩, fun e s' h => .inl (by simpa [eq_comm] using (Prod.mk.inj h).1), fun _ => rfl⟩
    rintro ⟨hfit, vs, -, hF⟩
    have := (b2 (as.map (boundTo (parameters ds) pos kw))).2 ⟨hfit, rfl, ?_⟩
    · rw [hb] at this; cases this
    · intro a ha hi hnth
      obtain ⟨d, hdm, hdd⟩ := declareAll_mem' hd a ha
      have hr := (required_iff hdd).1 ⟨hi, hnth⟩
      have := Fields_required hF d hdm hr
      rw [given_eq, (declare_shape W d hdd).1]
      exact this
  | ok gs =>
    obtain ⟨hfit, rfl, hreq⟩ := (b2 gs).1 hb
    obtain ⟨f1, f2, f3⟩ := fields_iff W hW (argumentFor ds pos kw) (boundTo (parameters ds) pos kw) hd
      (fun a _ => by unfold boundTo; rw [given_eq]) (fun a ha h1 h2 => by rw [← given_eq]; exact hreq a ha h1 h2) s
    simp only
    refine ⟨fun obj s' => ?_, fun e s' h => ?_, fun h => absurd hfit h⟩
    · simp only [hfit, true_and]
      rw [← f1 obj s']
      rcases assignFields as (as.map (boundTo (parameters ds) pos kw)) s with ⟨e | vs, s₁⟩
      · simp
      · simp only
        cases hv : validate as vs with
        | error e =>
          simp only [Prod.mk.injEq, reduceCtorEq, false_and, Except.ok.injEq, false_iff, not_and]
          rintro ⟨rfl, -⟩
          rw [hv]; simp
        | ok u =>
          simp only [Prod.mk.injEq, Except.ok.injEq]
          constructor
          · rintro ⟨rfl, rfl⟩; exact ⟨⟨rfl, rfl⟩, hv⟩
          · exact fun h => h.1
    · rcases ha : assignFields as (as.map (boundTo (parameters ds) pos kw)) s with ⟨e' | vs, s₁⟩
      · rw [ha] at h
        simp only [Prod.mk.injEq, Except.error.injEq] at h
        exact .inr (h.1 ▸ f2 e' s₁ ha)
      · rw [ha] at h
        simp only at h
        cases hv : validate as vs with
        | error e' =>
          rw [hv] at h
          simp only [Prod.mk.injEq, Except.error.injEq] at h
          exact .inl (h.1 ▸ f3 vs s₁ ha e' hv)
        | ok u => rw [hv] at h; simp at h

/-- A class declared with `attrutils` can be defined exactly if no attribute that must be given comes after a constructor argument that need
not be given; otherwise a `ValueError` is raised. -/
theorem C89_class (W : World V C S) (ds : List (Decl V C S)) (as : Cls V S) (hd : declareAll W ds = .ok as) :
    (defineClass as = .ok as ↔ ds.Pairwise fun x y => x.isArgument = true → y.isRequired = true → x.isRequired = true) ∧
    (defineClass as = .ok as ∨ defineClass as = .error .valueError) := by
  obtain ⟨h1, h2⟩ := C89_order as
  refine ⟨h1.trans ?_, h2 _ rfl⟩
  clear h1 h2
  induction ds generalizing as with
  | nil => cases hd; simp
  | cons d ds ih =>
    obtain ⟨x, as', rfl, e1, e2⟩ := declareAll_cons hd
    rw [List.pairwise_cons, List.pairwise_cons, ih as' e2]
    apply and_congr_left
    intro _
    have hx := required_iff e1
    have hi := (declare_shape W d e1).2.1
    constructor
    · intro h d' hd' ha hr
      obtain ⟨y, hy, e3⟩ := declareAll_mem e2 d' hd'
      obtain ⟨h3, h4⟩ := (required_iff e3).2 hr
      have hxi : x.2.init = true := by rw [hi, ha]
      exact hx.1 ⟨hxi, h y hy hxi h3 h4⟩
    · intro h y hy h3 h4 h5
      obtain ⟨d', hd', e3⟩ := declareAll_mem' e2 y hy
      exact (hx.2 (h d' hd' (by rw [← hi, h3]) ((required_iff e3).1 ⟨h4, h5⟩))).2

/-! ## Builders are not shared -/

/-- A constructor call: the declarations of the class, and the arguments. -/
structure Call (V C S : Type) where
  decls : List (Decl V C S)
  pos : List V
  kw : List (Str × V)

/-- The objects made by a history of calls (failing ones make none), each with the declarations of its class. -/
def runCalls (W : World V C S) : List (Call V C S) → S → List (List (Decl V C S) × List (Option V))
  | [], _ => []
  | c :: cs, s =>
    match declareAll W c.decls with
    | .error _ => runCalls W cs s
    | .ok as =>
      match construct as c.pos c.kw s with
      | (.ok obj, s') => (c.decls, obj) :: runCalls W cs s'
      | (.error _, s') => runCalls W cs s'

/-- The builders of an object. -/
def buildersOf : List (Decl V C S) → List (Option V) → List V
  | d :: ds, v :: vs =>
    match d.kind with
    | .privateBuilder _ => v.toList ++ buildersOf ds vs
    | _ => buildersOf ds vs
  | _, _ => []

/-- `Known s v`: the object exists in state `s`.  Objects stay, and a new builder is an object that did not exist. -/
structure Allocates (W : World V C S) (Known : S → V → Prop) (ds : List (Decl V C S)) : Prop where
  fresh : ∀ c s, ¬ Known s (W.builder c s).1
  made : ∀ c s, Known (W.builder c s).2 (W.builder c s).1
  stays : ∀ c s v, Known s v → Known (W.builder c s).2 v
  factories : ∀ d ∈ ds, ∀ f, d.kind = .factory f → ∀ s v, Known s v → Known (f s).2 v

theorem fieldValue_stays {W : World V C S} {Known : S → V → Prop} {d : Decl V C S} (hA : Allocates W Known [d])
    {x : Str × Attribute V S} (h : declare W d = .ok x) (g : Option V) (s : S) (v : V) (hv : Known s v) : Known (fieldValue x.2 g s).2 v := by
  obtain ⟨hn, hi, hs⟩ := declare_shape W d h
  obtain ⟨n, a⟩ := x
  obtain ⟨name, k, dflt⟩ := d
  cases k with
  | instanceOf t => simp only at hs; subst hs; cases g <;> cases dflt <;> exact hv
  | optInstanceOf t => simp only at hs; subst hs; cases g <;> cases dflt <;> exact hv
  | factory f =>
    simp only at hs
    obtain ⟨rfl, rfl⟩ := hs
    cases g with
    | some w => exact hv
    | none =>
      have := hA.factories _ (List.mem_singleton.2 rfl) f rfl s v hv
      simp only [fieldValue]
      rcases hf : f s with ⟨e | w, s₁⟩ <;> rw [hf] at this <;> exact this
  | immutable c => simp only at hs; obtain ⟨rfl, -⟩ := hs; cases g <;> cases dflt <;> exact hv
  | privateBuilder c =>
    simp only at hs
    obtain ⟨rfl, rfl⟩ := hs
    cases g with
    | some w => exact hv
    | none => exact hA.stays c s v hv
  | optImmutable c => simp only at hs; obtain ⟨rfl, rfl, -⟩ := hs; cases g <;> exact hv

theorem Allocates.sub {W : World V C S} {Known : S → V → Prop} {ds ds' : List (Decl V C S)} (hA : Allocates W Known ds')
    (h : ∀ d ∈ ds, d ∈ ds') : Allocates W Known ds :=
  ⟨hA.fresh, hA.made, hA.stays, fun d hd => hA.factories d (h d hd)⟩

theorem assignFields_stays {W : World V C S} {Known : S → V → Prop} : ∀ {ds : List (Decl V C S)} {as : Cls V S}, Allocates W Known ds →
    declareAll W ds = .ok as → ∀ (gs : List (Option V)) (s : S) (v : V), Known s v → Known (assignFields as gs s).2 v
  | [], as, _, h, gs, s, v, hv => by cases h; unfold assignFields; exact hv
  | d :: ds, as, hA, h, gs, s, v, hv => by
    obtain ⟨x, as', rfl, h1, h2⟩ := declareAll_cons h
    cases gs with
    | nil => unfold assignFields; exact hv
    | cons g gs =>
      have := fieldValue_stays (hA.sub (ds := [d]) (by simp)) h1 g s v hv
      obtain ⟨n, a⟩ := x
      simp only [assignFields]
      rcases hf : fieldValue a g s with ⟨e | w, s₁⟩
      · rw [hf] at this; exact this
      · rw [hf] at this
        have ih := assignFields_stays (hA.sub (by intro d hd; simp [hd])) h2 gs s₁ v this
        simp only
        rcases hr : assignFields as' gs s₁ with ⟨e | ws, s₂⟩ <;> rw [hr] at ih <;> exact ih

theorem construct_stays {W : World V C S} {Known : S → V → Prop} {ds : List (Decl V C S)} {as : Cls V S} (hA : Allocates W Known ds)
    (h : declareAll W ds = .ok as) (pos : List V) (kw : List (Str × V)) (s : S) (v : V) (hv : Known s v) :
    Known (construct as pos kw s).2 v := by
  unfold construct
  cases bindArgs as pos kw with
  | error e => exact hv
  | ok gs =>
    have := assignFields_stays hA h gs s v hv
    simp only
    rcases hr : assignFields as gs s with ⟨e | ws, s₂⟩
    · rw [hr] at this; exact this
    · rw [hr] at this
      simp only
      cases validate as ws <;> exact this

theorem Field_stays {W : World V C S} {Known : S → V → Prop} {d : Decl V C S} (hA : Allocates W Known [d]) {g : Option V} {s s' : S} {v : V}
    (h : Field W d g s v s') : ∀ w, Known s w → Known s' w := by
  obtain ⟨name, k, dflt⟩ := d
  intro w hw
  cases k with
  | instanceOf t => obtain ⟨-, -, rfl⟩ := h; exact hw
  | optInstanceOf t => obtain ⟨-, -, rfl⟩ := h; exact hw
  | factory f =>
    rcases h with ⟨-, rfl⟩ | ⟨-, h⟩
    · exact hw
    · have := hA.factories _ (List.mem_singleton.2 rfl) f rfl s w hw
      rw [h] at this; exact this
  | immutable c => obtain ⟨_, -, -, rfl⟩ := h; exact hw
  | privateBuilder c =>
    have := hA.stays c s w hw
    have h' : W.builder c s = (v, s') := h
    rw [h'] at this; exact this
  | optImmutable c => obtain ⟨rfl, -⟩ := h; exact hw

theorem Fields_fresh {W : World V C S} {Known : S → V → Prop} {given : Str → Option V} : ∀ {ds : List (Decl V C S)} {s vs s'},
    Allocates W Known ds → Fields W given ds s vs s' →
    (buildersOf ds (vs.map some)).Nodup ∧ (∀ b ∈ buildersOf ds (vs.map some), ¬ Known s b ∧ Known s' b) ∧ ∀ w, Known s w → Known s' w
  | [], s, vs, s', _, h => by
    obtain ⟨rfl, rfl⟩ := h
    simp [buildersOf]
  | d :: ds, s, vs, s', hA, h => by
    obtain ⟨v, vs', s₁, rfl, hF, hFs⟩ := h
    obtain ⟨i1, i2, i3⟩ := Fields_fresh (hA.sub (by intro d hd; simp [hd])) hFs
    have hst := Field_stays (hA.sub (ds := [d]) (by simp)) hF
    simp only [List.map_cons, buildersOf]
    have other : (buildersOf ds (vs'.map some)).Nodup ∧ (∀ b ∈ buildersOf ds (vs'.map some), ¬ Known s b ∧ Known s' b) ∧
        ∀ w, Known s w → Known s' w :=
      ⟨i1, fun b hb => ⟨fun hc => (i2 b hb).1 (hst b hc), (i2 b hb).2⟩, fun w hw => i3 w (hst w hw)⟩
    obtain ⟨name, k, dflt⟩ := d
    cases k with
    | privateBuilder c =>
      have h' : W.builder c s = (v, s₁) := hF
      have hf := hA.fresh c s
      have hm := hA.made c s
      rw [h'] at hf hm
      simp only [Option.toList_some, List.singleton_append, List.nodup_cons]
      refine ⟨⟨fun hc => (i2 v hc).1 hm, i1⟩, ?_, other.2.2⟩
      intro b hb
      rcases List.mem_cons.1 hb with rfl | hb
      · exact ⟨hf, i3 b hm⟩
      · exact other.2.1 b hb
    | instanceOf t => exact other
    | optInstanceOf t => exact other
    | factory f => exact other
    | immutable c => exact other
    | optImmutable c => exact other

/-- Every object has builders of its own: in any history of constructor calls, of any classes declared with `attrutils`, no builder is had by
two objects, or by two attributes of an object, and none existed before. -/
theorem C89_builders (W : World V C S) (hW : Lawful W) (Known : S → V → Prop) (calls : List (Call V C S))
    (hA : ∀ c ∈ calls, Allocates W Known c.decls) (hn : ∀ c ∈ calls, (parameters c.decls).Nodup) (s : S) :
    ((runCalls W calls s).flatMap fun o => buildersOf o.1 o.2).Nodup ∧
    ∀ b ∈ (runCalls W calls s).flatMap fun o => buildersOf o.1 o.2, ¬ Known s b := by
  induction calls generalizing s with
  | nil => simp [runCalls]
  | cons c cs ih =>
    have ih' := ih (fun c hc => hA c (by simp [hc])) (fun c hc => hn c (by simp [hc]))
    have hAc := hA c (by simp)
    unfold runCalls
    cases hd : declareAll W c.decls with
    | error e => exact ih' s
    | ok as =>
      simp only
      have hst := construct_stays hAc hd c.pos c.kw s
      rcases hc : construct as c.pos c.kw s with ⟨e | obj, s'⟩
      · rw [hc] at hst
        exact ⟨(ih' s').1, fun b hb hk => (ih' s').2 b hb (hst b hk)⟩
      · rw [hc] at hst
        obtain ⟨-, vs, rfl, hF⟩ := ((C89_construct W hW c.decls as hd (hn c (by simp)) c.pos c.kw s).1 obj s').1 hc
        obtain ⟨f1, f2, f3⟩ := Fields_fresh hAc hF
        simp only [List.flatMap_cons]
        refine ⟨List.nodup_append.2 ⟨f1, (ih' s').1, ?_⟩, ?_⟩
        · rintro a ha b hb rfl
          exact (ih' s').2 a hb (f2 a ha).2
        · intro b hb hk
          rcases List.mem_append.1 hb with hb | hb
          · exact (f2 b hb).1 hk
          · exact (ih' s').2 b hb (f3 b hk)

/-! ## Concrete cases -/

/-- Values: `None`, integers, tuples of integers, builders. -/
inductive ExV
  | none
  | int (n : Int)
  | ints (l : List Int)
  | builder (n : Nat)
  deriving DecidableEq, Repr

/-- Classes. -/
inductive ExC
  | noneType
  | int
  | tuple
  | immutableList
  deriving DecidableEq, Repr

/-- A world; its state counts the builders. -/
def exWorld : World ExV ExC Nat where
  none := .none
  noneType := .noneType
  isInstance := fun v c => match v, c with
    | .none, .noneType => true
    | .int _, .int => true
    | .ints _, .tuple => true
    | _, _ => false
  isCollection := fun c => c = .immutableList
  of := fun _ v => match v with
    | .ints l => .ok (.ints l)
    | _ => .error .typeError
  empty := fun _ => .ints []
  builder := fun _ n => (.builder n, n + 1)

theorem exWorld_lawful : Lawful exWorld := by
  refine ⟨fun v => ?_, fun c _ => rfl⟩
  cases v <;> simp [exWorld]

/-- A class with an attribute of each kind. -/
def exDecls : List (Decl ExV ExC Nat) :=
  [⟨"a".toList, .instanceOf (.tuple [.cls .int, .tuple [.cls .tuple]]), none⟩, ⟨"_b".toList, .privateBuilder .immutableList, none⟩,
   ⟨"c".toList, .immutable .immutableList, none⟩, ⟨"d".toList, .optInstanceOf (.cls .int), none⟩,
   ⟨"e".toList, .factory fun n => (.ok (.int n), n), none⟩, ⟨"f".toList, .optImmutable .immutableList, none⟩]

/-- Making two objects, with a failing call between. -/
def exCalls : List (Call ExV ExC Nat) :=
  [⟨exDecls, [.int 3, .ints [1]], [("f".toList, .none)]⟩, ⟨exDecls, [.none, .ints [1]], []⟩, ⟨exDecls, [.ints [], .ints [2]], [("d".toList, .int 5)]⟩]

example : (parameters exDecls).Nodup ∧ (∀ c ∈ exCalls, Allocates exWorld (fun n v => ∃ k, v = .builder k ∧ k < n) c.decls) ∧
    (∃ as, declareAll exWorld exDecls = .ok as ∧ (∃ r, defineClass as = .ok r) ∧
      construct as [.int 3, .ints [1]] [("f".toList, .none)] 7 =
        (.ok [some (.int 3), some (.builder 7), some (.ints [1]), some .none, some (.int 8), some (.ints [])], 8)) ∧
    (runCalls exWorld exCalls 0).map (fun o => buildersOf o.1 o.2) = [[.builder 0], [.builder 2]] := by
  refine ⟨by decide +kernel, ?_, ⟨_, rfl, ⟨_, rfl⟩, by decide +kernel⟩, by decide +kernel⟩
  intro c hc
  have hd : c.decls = exDecls := by
    simp only [exCalls, List.mem_cons, List.not_mem_nil, or_false] at hc
    rcases hc with rfl | rfl | rfl <;> rfl
  rw [hd]
  refine ⟨?_, ?_, ?_, ?_⟩
  · rintro c s ⟨k, h, hk⟩
    simp only [exWorld] at h
    cases h; omega
  · intro c s; exact ⟨s, rfl, by simp [exWorld]⟩
  · rintro c s v ⟨k, h, hk⟩; exact ⟨k, h, by simp [exWorld]; omega⟩
  · intro d hdm f hf s v h
    simp only [exDecls, List.mem_cons, List.not_mem_nil, or_false] at hdm
    rcases hdm with rfl | rfl | rfl | rfl | rfl | rfl <;> simp at hf
    subst hf
    exact h

example : (attribOptInstanceOf exWorld (.cls .int) (.default (.value (.int 3))) {}).isOk = false ∧
    (attribOptInstanceOf exWorld (.cls .int) .none { default := some (.value (.int 3)) }).isOk = true := ⟨rfl, rfl⟩

end Attrs
end Vista
