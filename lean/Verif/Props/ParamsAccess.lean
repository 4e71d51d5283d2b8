import Verif.Props.Params
import Verif.Proofs.ParamsText

/-!
# Properties C47-C49: typed access
-/
set_option linter.unusedSectionVars false
set_option linter.unusedSimpArgs false
namespace Vista
namespace Params
open PVal

/-! ## Specification -/

/-- The value a lookup with a default finds: the value at the name's path, or the default (if not `None`) when the path leads
nowhere. -/
def Found (p : Params) (name : Str) (d v : PVal) : Prop :=
  p.toVal.Reaches (splitOn '.' name) v ∨ ((¬ ∃ w, p.toVal.Reaches (splitOn '.' name) w) ∧ d ≠ .none ∧ v = d)

/-- The name is present: its path leads to something other than `None`. -/
def Present (p : Params) (name : Str) : Prop := ∃ v, v ≠ .none ∧ p.toVal.Reaches (splitOn '.' name) v

/-- The integers a Python value counts as: `int`s, and `bool`s as 0 and 1. -/
inductive CountsAs : PVal → Int → Prop
  | int (i : Int) : CountsAs (.int i) i
  | true : CountsAs (.bool Bool.true) 1
  | false : CountsAs (.bool Bool.false) 0

/-- What it means to be of a type: every value is an `object`, a `bool` is an `int`, nothing else is of two types. -/
inductive IsA : PVal → PyType → Prop
  | object (v : PVal) : IsA v .object
  | str (s : Str) : IsA (.str s) .str
  | int (i : Int) : IsA (.int i) .int
  | boolInt (b : Bool) : IsA (.bool b) .int
  | bool (b : Bool) : IsA (.bool b) .bool
  | float (q : Rat) : IsA (.float q) .float
  | list (xs : List PVal) : IsA (.list xs) .list
  | parameters (pfx : List Str) (es : Entries) : IsA (.params pfx es) .parameters

/-- The exception of a refused lookup: `RuntimeError` if what was found is a namespace that cannot be written as text (it is put in the
message), and otherwise `ParameterError`. -/
def Refused (p : Params) (name : Str) (d : PVal) (e : Exc) : Prop :=
  ((∃ v, Found p name d v ∧ Unprintable v) → e = .runtimeError) ∧ ((¬ ∃ v, Found p name d v ∧ Unprintable v) → e = .parameterError)

/-- The check of a value that is there: the value if it is of the type asked for, and otherwise the exception as in `Refused`. -/
def Checked (v : PVal) (t : PyType) (r : Res PVal) : Prop :=
  (IsA v t → r = .ok v) ∧ (¬ IsA v t → Unprintable v → r = .error .runtimeError) ∧
    (¬ IsA v t → ¬ Unprintable v → r = .error .parameterError)

theorem isinstance_iff (v : PVal) (t : PyType) : isinstance v t = true ↔ IsA v t := by
  constructor
  · intro h
    cases t <;> cases v <;> first | constructor | (exact absurd h (by simp [isinstance]))
  · intro h; cases h <;> first | rfl | (cases v <;> rfl)

/-! ## Lookup -/

theorem isNone_false_iff {v : PVal} : v.isNone = false ↔ v ≠ .none := by
  constructor
  · rintro h rfl; simp [isNone] at h
  · intro h
    cases hh : v.isNone with
    | false => rfl
    | true => exact absurd ((isNone_iff v).1 hh) h

theorem privateGet_found {p : Params} (h : p.WF) (name : Str) (d : PVal) :
    (∃ v, p.privateGet name false d = .ok v ∧ ∀ v', Found p name d v' ↔ v' = v) ∨
    (p.privateGet name false d = .error .parameterError ∧ ¬ ∃ v, Found p name d v) := by
  unfold privateGet Found
  by_cases hr : ∃ w, p.toVal.Reaches (splitOn '.' name) w
  · obtain ⟨w, hw⟩ := hr
    left
    refine ⟨w, follow_ok h hw _ _, fun v' => ⟨?_, ?_⟩⟩
    · rintro (h' | ⟨h', -⟩)
      · exact reaches_unique h h' hw
      · exact absurd ⟨w, hw⟩ h'
    · rintro rfl; exact .inl hw
  · rw [follow_missing h hr]
    simp only [missing]
    by_cases hd : d = .none
    · right
      subst hd
      refine ⟨rfl, ?_⟩
      rintro ⟨v, h' | ⟨-, h', -⟩⟩
      · exact hr ⟨v, h'⟩
      · exact h' rfl
    · left
      have := isNone_false_iff.2 hd
      refine ⟨d, by simp [this], fun v' => ⟨?_, ?_⟩⟩
      · rintro (h' | ⟨-, -, h'⟩)
        · exact absurd ⟨v', h'⟩ hr
        · exact h'
      · rintro rfl; exact .inr ⟨hr, hd, rfl⟩

theorem refused_none {p : Params} {name : Str} {d : PVal} (h : ¬ ∃ v, Found p name d v) : Refused p name d .parameterError :=
  ⟨fun ⟨v, hv, _⟩ => absurd ⟨v, hv⟩ h, fun _ => rfl⟩

theorem refused_found {p : Params} {name : Str} {d w : PVal} (hu : ∀ v', Found p name d v' ↔ v' = w) :
    Refused p name d (wrongType w) := by
  refine ⟨fun ⟨v, hv, hp⟩ => ?_, fun hn => ?_⟩
  · rw [hu] at hv; exact wrongType_unprintable (hv ▸ hp)
  · exact wrongType_printable fun hp => hn ⟨w, (hu w).2 rfl, hp⟩

theorem refused_printable {p : Params} {name : Str} {d w : PVal} (hu : ∀ v', Found p name d v' ↔ v' = w) (hw : ¬ Unprintable w) :
    Refused p name d .parameterError :=
  ⟨fun ⟨v, hv, hp⟩ => absurd ((hu v).1 hv ▸ hp) hw, fun _ => rfl⟩

/-- The exception is determined. -/
theorem refused_unique {p : Params} {name : Str} {d : PVal} {e e' : Exc} (h : Refused p name d e) (h' : Refused p name d e') : e = e' := by
  by_cases hx : ∃ v, Found p name d v ∧ Unprintable v
  · rw [h.1 hx, h'.1 hx]
  · rw [h.2 hx, h'.2 hx]

/-! ## C47 -/

/-- `get` returns the value found if it is an instance of the type, and raises `ParameterError` otherwise; or `RuntimeError`, if it is a
namespace that cannot be written as text. -/
theorem C47_get (p : Params) (h : p.WF) (name : Str) (t : PyType) (d : PVal) :
    (∀ v, p.get name t d = .ok v ↔ Found p name d v ∧ isinstance v t = true) ∧
    (∀ e, p.get name t d = .error e → Refused p name d e) := by
  unfold get
  rcases privateGet_found h name d with ⟨w, hw, hu⟩ | ⟨hw, hu⟩
  · rw [hw]
    simp only [bind, Except.bind, hu]
    by_cases hok : isinstance w t = true
    · simp only [hok, if_true]
      refine ⟨fun v => ⟨fun h => ?_, fun h => ?_⟩, by simp⟩
      · simp only [Except.ok.injEq] at h; exact ⟨h.symm, h ▸ hok⟩
      · rw [h.1]
    · simp only [hok]
      refine ⟨fun v => ⟨by simp, fun h => absurd (h.1 ▸ h.2) hok⟩, fun e h => ?_⟩
      simp only [Bool.false_eq_true, if_false, Except.error.injEq] at h
      exact h ▸ refused_found hu
  · rw [hw]
    simp only [bind, Except.bind]
    refine ⟨fun v => ⟨by simp, fun h => absurd ⟨v, h.1⟩ hu⟩, fun e h => ?_⟩
    simp only [Except.error.injEq] at h
    exact h ▸ refused_none hu

/-- The same with the types spelled out: `get` gives exactly the value found, and only if it is of the type asked for. -/
theorem C47_get_types (p : Params) (h : p.WF) (name : Str) (t : PyType) (d : PVal) :
    (∀ v, p.get name t d = .ok v ↔ Found p name d v ∧ IsA v t) ∧
    (∀ e, p.get name t d = .error e → Refused p name d e) := by
  simpa only [isinstance_iff] using C47_get p h name t d

theorem found_unique {p : Params} (h : p.WF) {name : Str} {d v : PVal} (hv : Found p name d v) : ∀ v', Found p name d v' ↔ v' = v := by
  rcases privateGet_found h name d with ⟨w, hw, hu⟩ | ⟨hw, hu⟩
  · have := (hu v).1 hv
    subst this
    exact hu
  · exact absurd ⟨v, hv⟩ hu

/-- What is not a namespace is printable. -/
theorem printable_of_type {v : PVal} {t : PyType} (hv : isinstance v t = true) (ht : t ≠ .object) (ht' : t ≠ .parameters) :
    ¬ Unprintable v := by
  apply not_unprintable
  cases v <;> cases t <;> simp_all [isinstance, isParams]

/-- A typed lookup followed by a further check. -/
theorem checked_get {p : Params} (h : p.WF) (name : Str) (t : PyType) (d : PVal) (ht : t ≠ .object) (ht' : t ≠ .parameters)
    (f : PVal → Res PVal) (ok : PVal → Prop)
    (hf : ∀ v, isinstance v t = true → (ok v → f v = .ok v) ∧ (¬ ok v → f v = .error .parameterError)) :
    (∀ v, (p.get name t d).bind f = .ok v ↔ Found p name d v ∧ isinstance v t = true ∧ ok v) ∧
    (∀ e, (p.get name t d).bind f = .error e → Refused p name d e) := by
  obtain ⟨h1, h2⟩ := C47_get p h name t d
  cases hg : p.get name t d with
  | error e =>
    simp only [Except.bind]
    refine ⟨fun v => ⟨by simp, fun ⟨a, b, _⟩ => ?_⟩, fun e' he => ?_⟩
    · have := (h1 v).2 ⟨a, b⟩; rw [hg] at this; simp at this
    · simp only [Except.error.injEq] at he; exact he ▸ h2 e hg
  | ok w =>
    obtain ⟨a, b⟩ := (h1 w).1 hg
    simp only [Except.bind]
    by_cases hok : ok w
    · rw [(hf w b).1 hok]
      refine ⟨fun v => ⟨fun h' => ?_, fun ⟨a', b', _⟩ => ?_⟩, by simp⟩
      · simp only [Except.ok.injEq] at h'; exact h' ▸ ⟨a, b, hok⟩
      · have := (h1 v).2 ⟨a', b'⟩; rw [hg] at this; exact this
    · rw [(hf w b).2 hok]
      refine ⟨fun v => ⟨by simp, fun ⟨a', b', c'⟩ => ?_⟩, fun e he => ?_⟩
      · have := (h1 v).2 ⟨a', b'⟩
        rw [hg, Except.ok.injEq] at this
        exact absurd (this ▸ c') hok
      · simp only [Except.error.injEq] at he
        exact he ▸ refused_printable (found_unique h a) (printable_of_type b ht ht')

/-- `string`: only strings, and only the valid options if given. -/
theorem C47_string (p : Params) (h : p.WF) (name : Str) (valid : Option (List Str)) (d : PVal) :
    (∀ v, p.string name valid d = .ok v ↔ Found p name d v ∧ ∃ s, v = .str s ∧ ∀ opts, valid = some opts → s ∈ opts) ∧
    (∀ e, p.string name valid d = .error e → Refused p name d e) := by
  have key := checked_get h name .str d (by simp) (by simp) (fun ret => match valid, ret with
      | some opts, .str s => if opts.contains s then .ok ret else .error .parameterError
      | _, _ => .ok ret) (fun v => ∃ s, v = .str s ∧ ∀ opts, valid = some opts → s ∈ opts) (by
    intro v hv
    cases v <;> simp [isinstance] at hv
    cases valid <;> simp)
  refine ⟨fun v => (key.1 v).trans ?_, key.2⟩
  constructor
  · rintro ⟨a, -, b⟩; exact ⟨a, b⟩
  · rintro ⟨a, s, rfl, b⟩; exact ⟨a, rfl, s, rfl, b⟩

theorem asInt_iff (v : PVal) (i : Int) : asInt v = some i ↔ CountsAs v i := by
  constructor
  · intro h
    cases v with
    | int j => simp only [asInt, Option.some.injEq] at h; exact h ▸ .int j
    | bool b =>
      cases b <;> simp only [asInt, Bool.false_eq_true, if_true, if_false, Option.some.injEq] at h <;> subst h
      · exact .false
      · exact .true
    | _ => simp [asInt] at h
  · intro h; cases h <;> rfl

theorem asInt_of_int {v : PVal} (h : isinstance v .int = true) : ∃ i, asInt v = some i := by
  cases v <;> simp [isinstance] at h <;> exact ⟨_, rfl⟩

theorem integer_spec (p : Params) (h : p.WF) (name : Str) (valid : Option (Range Int)) (d : PVal) :
    (∀ v, p.integer name valid d = .ok v ↔ Found p name d v ∧ ∃ i, CountsAs v i ∧ ∀ r, valid = some r → r.contains i = true) ∧
    (∀ e, p.integer name valid d = .error e → Refused p name d e) := by
  have key := checked_get h name .int d (by simp) (by simp) (fun ret => match valid, asInt ret with
      | some r, some i => if r.contains i then .ok ret else .error .parameterError
      | _, _ => .ok ret) (fun v => ∃ i, CountsAs v i ∧ ∀ r, valid = some r → r.contains i = true) (by
    intro v hv
    obtain ⟨i, hi⟩ := asInt_of_int hv
    have hex : (∃ j, CountsAs v j ∧ ∀ r, valid = some r → r.contains j = true) ↔ ∀ r, valid = some r → r.contains i = true := by
      constructor
      · rintro ⟨j, hj, hr⟩
        rw [← asInt_iff, hi, Option.some.injEq] at hj
        exact hj ▸ hr
      · intro hr; exact ⟨i, (asInt_iff v i).1 hi, hr⟩
    simp only [hex, hi]
    cases valid with
    | none => simp
    | some r => cases hc : r.contains i <;> simp [hc])
  refine ⟨fun v => (key.1 v).trans ?_, key.2⟩
  constructor
  · rintro ⟨a, -, b⟩; exact ⟨a, b⟩
  · rintro ⟨a, i, hi, b⟩
    refine ⟨a, ?_, i, hi, b⟩
    cases hi <;> rfl

/-- `integer`: only integers (`bool`s count), and only in the valid range if given. -/
theorem C47_integer (p : Params) (h : p.WF) (name : Str) (valid : Option (Range Int)) (d : PVal) :
    (∀ v, p.integer name valid d = .ok v ↔ Found p name d v ∧ ∃ i, CountsAs v i ∧ ∀ r, valid = some r → r.contains i = true) ∧
    (∀ e, p.integer name valid d = .error e → Refused p name d e) := integer_spec p h name valid d

/-- `positive_integer`: only positive integers (`True` counts). -/
theorem C47_positive_integer (p : Params) (h : p.WF) (name : Str) (d : PVal) :
    (∀ v, p.positiveInteger name d = .ok v ↔ Found p name d v ∧ ∃ i, CountsAs v i ∧ i > 0) ∧
    (∀ e, p.positiveInteger name d = .error e → Refused p name d e) := by
  obtain ⟨h1, h2⟩ := integer_spec p h name Option.none d
  unfold positiveInteger
  simp only [bind, Except.bind]
  cases hg : p.integer name Option.none d with
  | error e =>
    refine ⟨fun v => ⟨by simp, fun ⟨a, i, hi, _⟩ => ?_⟩, fun e' he => ?_⟩
    · have := (h1 v).2 ⟨a, i, hi, by simp⟩; rw [hg] at this; simp at this
    · simp only [Except.error.injEq] at he; exact he ▸ h2 e hg
  | ok w =>
    obtain ⟨a, i, hi, -⟩ := (h1 w).1 hg
    have hi' := (asInt_iff w i).2 hi
    simp only [hi']
    have huniq : ∀ v j, Found p name d v → CountsAs v j → v = w ∧ j = i := by
      intro v j hf hj
      have := (h1 v).2 ⟨hf, j, hj, by simp⟩
      rw [hg, Except.ok.injEq] at this
      subst this
      rw [← asInt_iff, hi', Option.some.injEq] at hj
      exact ⟨rfl, hj.symm⟩
    by_cases hpos : i > 0
    · simp only [if_pos hpos, Except.ok.injEq]
      refine ⟨fun v => ⟨fun h => h ▸ ⟨a, i, hi, hpos⟩, fun ⟨a', j, hj, _⟩ => (huniq v j a' hj).1.symm⟩, by simp⟩
    · simp only [if_neg hpos]
      refine ⟨fun v => ⟨by simp, fun ⟨a', j, hj, hp⟩ => absurd ((huniq v j a' hj).2 ▸ hp) hpos⟩, fun e he => ?_⟩
      simp only [Except.error.injEq] at he
      exact he ▸ refused_printable (found_unique h a) (not_unprintable (by cases hi <;> rfl))

/-- `floating_point`: only floats, and only in the valid range if given. -/
theorem C47_floating_point (p : Params) (h : p.WF) (name : Str) (valid : Option (Range Rat)) (d : PVal) :
    (∀ v, p.floatingPoint name valid d = .ok v ↔
      Found p name d v ∧ ∃ q, v = .float q ∧ ∀ r, valid = some r → r.contains q = true) ∧
    (∀ e, p.floatingPoint name valid d = .error e → Refused p name d e) := by
  have key := checked_get h name .float d (by simp) (by simp) (fun ret => match valid, ret with
      | some r, .float q => if r.contains q then .ok ret else .error .parameterError
      | _, _ => .ok ret) (fun v => ∃ q, v = .float q ∧ ∀ r, valid = some r → r.contains q = true) (by
    intro v hv
    cases v with
    | float q =>
      cases valid with
      | none => simp
      | some r => cases hc : r.contains q <;> simp [hc]
    | _ => simp [isinstance] at hv)
  refine ⟨fun v => (key.1 v).trans ?_, key.2⟩
  constructor
  · rintro ⟨a, -, b⟩; exact ⟨a, b⟩
  · rintro ⟨a, q, rfl, b⟩; exact ⟨a, rfl, q, rfl, b⟩

/-- `boolean`: only booleans; `arbitrary_list`: only lists. -/
theorem C47_boolean_and_list (p : Params) (h : p.WF) (name : Str) (d : PVal) :
    (∀ v, p.boolean name d = .ok v ↔ Found p name d v ∧ ∃ b, v = .bool b) ∧
    (∀ v, p.arbitraryList name d = .ok v ↔ Found p name d v ∧ ∃ xs, v = .list xs) ∧
    (∀ e, p.boolean name d = .error e ∨ p.arbitraryList name d = .error e → Refused p name d e) := by
  refine ⟨fun v => ?_, fun v => ?_, ?_⟩
  · rw [show p.boolean name d = p.get name .bool d from rfl, (C47_get p h name .bool d).1]
    cases v <;> simp [isinstance]
  · rw [show p.arbitraryList name d = p.get name .list d from rfl, (C47_get p h name .list d).1]
    cases v <;> simp [isinstance]
  · rintro e (he | he)
    · exact (C47_get p h name .bool d).2 e he
    · exact (C47_get p h name .list d).2 e he

/-- `namespace` returns the namespace at the name's path; `has_namespace` says whether there is one. -/
theorem C47_namespace (p : Params) (h : p.WF) (name : Str) :
    (∀ q, p.namespace name = .ok q ↔ p.toVal.Reaches (splitOn '.' name) q.toVal) ∧
    (∀ e, p.namespace name = .error e → e = .parameterError) ∧
    (p.hasNamespace name = true ↔ ∃ q : Params, p.toVal.Reaches (splitOn '.' name) q.toVal) := by
  have hfound : ∀ v, Found p name .none v ↔ p.toVal.Reaches (splitOn '.' name) v := by
    intro v; unfold Found; simp
  obtain ⟨h1, h2⟩ := C47_get p h name .parameters .none
  refine ⟨fun q => ?_, fun e he => ?_, ?_⟩
  · unfold «namespace»
    simp only [bind, Except.bind]
    cases hg : p.get name .parameters with
    | error e =>
      simp only [reduceCtorEq, false_iff]
      intro hr
      have := (h1 q.toVal).2 ⟨(hfound _).2 hr, rfl⟩
      rw [hg] at this; simp at this
    | ok w =>
      obtain ⟨a, b⟩ := (h1 w).1 hg
      cases w <;> simp [isinstance] at b
      simp only [Except.ok.injEq]
      constructor
      · rintro rfl; exact (hfound _).1 a
      · intro hr
        have := reaches_unique h ((hfound _).1 a) hr
        simp only [toVal, PVal.params.injEq] at this
        rw [this.1, this.2]
  · unfold «namespace» at he
    simp only [bind, Except.bind] at he
    cases hg : p.get name .parameters with
    | error e' =>
      rw [hg] at he; simp only [Except.error.injEq] at he
      refine he ▸ (h2 e' hg).2 ?_
      rintro ⟨v, hv, q, rfl, -⟩
      have := (h1 (.params q.pfx q.data)).2 ⟨hv, rfl⟩
      rw [hg] at this; simp at this
    | ok w =>
      rw [hg] at he
      obtain ⟨a, b⟩ := (h1 w).1 hg
      cases w <;> simp [isinstance] at b
      simp at he
  · unfold hasNamespace privateGet
    by_cases hr : ∃ w, p.toVal.Reaches (splitOn '.' name) w
    · obtain ⟨w, hw⟩ := hr
      rw [follow_ok h hw]
      simp only [isParams_iff]
      constructor
      · rintro ⟨a, b, rfl⟩; exact ⟨⟨a, b⟩, hw⟩
      · rintro ⟨q, hq⟩; exact ⟨q.pfx, q.data, reaches_unique h hw hq⟩
    · rw [follow_missing h hr]
      simp only [missing, isNone, Bool.not_true, Bool.false_eq_true, if_false, if_true, isParams, false_iff]
      rintro ⟨q, hq⟩; exact hr ⟨_, hq⟩

theorem contains_present {p : Params} (h : p.WF) (name : Str) : p.contains name = true ↔ Present p name := C41_in p h name

theorem present_found {p : Params} (h : p.WF) {name : Str} (hp : Present p name) (d v : PVal) :
    Found p name d v ↔ p.toVal.Reaches (splitOn '.' name) v := by
  unfold Found
  obtain ⟨w, -, hw⟩ := hp
  constructor
  · rintro (h' | ⟨h', -⟩)
    · exact h'
    · exact absurd ⟨w, hw⟩ h'
  · exact .inl

/-- `enum`: only names of members of the enum class; the default if the parameter is absent. -/
theorem C47_enum (p : Params) (h : p.WF) (name : Str) (members : List Str) (d : Option Str) :
    (∀ s, p.enum name members d = .ok s ↔
      (p.toVal.Reaches (splitOn '.' name) (.str s) ∧ s ∈ members) ∨ (¬ Present p name ∧ d = some s)) ∧
    (∀ e, p.enum name members d = .error e → Refused p name .none e) := by
  unfold enum optionalString
  by_cases hp : Present p name
  · rw [if_pos ((contains_present h name).2 hp)]
    obtain ⟨h1, h2⟩ := C47_string p h name Option.none .none
    simp only [bind, Except.bind]
    cases hg : p.string name with
    | error e =>
      refine ⟨fun s => ⟨by simp, ?_⟩, fun e' he => ?_⟩
      · rintro (⟨hr, -⟩ | ⟨hn, -⟩)
        · have := (h1 (.str s)).2 ⟨.inl hr, s, rfl, by simp⟩; rw [hg] at this; simp at this
        · exact absurd hp hn
      · simp only [Except.error.injEq] at he; exact he ▸ h2 e hg
    | ok w =>
      obtain ⟨a, t, rfl, -⟩ := (h1 w).1 hg
      rw [present_found h hp] at a
      have hu : ∀ s, p.toVal.Reaches (splitOn '.' name) (.str s) ↔ s = t := by
        intro s
        constructor
        · intro hs; have := reaches_unique h hs a; simpa using this
        · rintro rfl; exact a
      simp only [hu, hp, not_true, false_and, or_false]
      by_cases hm : t ∈ members
      · have : members.contains t = true := by simpa using hm
        simp only [this, if_true, Except.ok.injEq]
        refine ⟨fun s => ⟨fun e => ⟨e.symm, e ▸ hm⟩, fun e => e.1.symm⟩, by simp⟩
      · have : members.contains t = false := by simpa using hm
        simp only [this, Bool.false_eq_true, if_false]
        refine ⟨fun s => ⟨by simp, fun e => absurd (e.1 ▸ e.2) hm⟩, fun e he => ?_⟩
        simp only [Except.error.injEq] at he
        exact he ▸ refused_printable (w := .str t) (found_unique h (.inl a)) (not_unprintable rfl)
  · have hc : p.contains name = false := by rw [← Bool.not_eq_true, contains_present h]; exact hp
    rw [hc]
    have hstr : ∀ s, ¬ p.toVal.Reaches (splitOn '.' name) (.str s) := fun s hs => hp ⟨_, by simp, hs⟩
    simp only [Bool.false_eq_true, if_false, bind, Except.bind, hp, not_false_eq_true, true_and, hstr, false_and, false_or]
    cases d with
    | some t =>
      simp only [Except.ok.injEq, Option.some.injEq]
      simp
    | none =>
      obtain ⟨h1, h2⟩ := C47_string p h name Option.none .none
      simp only [reduceCtorEq, iff_false]
      cases hg : p.string name with
      | error e => exact ⟨by simp, fun e' he => by simp only [Except.error.injEq] at he; exact he ▸ h2 e hg⟩
      | ok w =>
        obtain ⟨a, t, rfl, -⟩ := (h1 w).1 hg
        simp only [Found, ne_eq, not_true, false_and, and_false, or_false] at a
        exact absurd a (hstr t)

/-! ## C48 -/

/-- `optional_string`, `optional_integer`: the plain accessor (without default) when the name is present, otherwise the default
exactly as given. -/
theorem C48_string_integer (p : Params) (h : p.WF) (name : Str) (valid : Option (List Str)) (d : PVal) :
    (Present p name → p.optionalString name valid d = p.string name valid ∧ p.optionalInteger name d = p.integer name) ∧
    (¬ Present p name → p.optionalString name valid d = .ok d ∧ p.optionalInteger name d = .ok d) := by
  unfold optionalString optionalInteger
  constructor
  · intro hp
    rw [if_pos ((contains_present h name).2 hp), if_pos ((contains_present h name).2 hp)]
    exact ⟨rfl, rfl⟩
  · intro hp
    have hc : ¬ p.contains name = true := by rw [contains_present h]; exact hp
    rw [if_neg hc, if_neg hc]
    exact ⟨rfl, rfl⟩

/-- `optional_positive_integer`: as above, except that the default is validated, and that `0` (or `False`) as default gives `None`
instead of an error (see `RaisedWith`). -/
theorem C48_positive_integer (p : Params) (h : p.WF) (name : Str) (d : PVal) :
    (Present p name → p.optionalPositiveInteger name d = p.positiveInteger name) ∧
    (¬ Present p name → (d.Falsy → p.optionalPositiveInteger name d = .ok .none) ∧
      (¬ d.Falsy → (∃ i, CountsAs d i ∧ i > 0) → p.optionalPositiveInteger name d = .ok d) ∧
      (¬ d.Falsy → (¬ ∃ i, CountsAs d i ∧ i > 0) → ∃ e, RaisedWith .parameterError d e ∧ p.optionalPositiveInteger name d = .error e)) := by
  unfold optionalPositiveInteger
  refine ⟨fun hp => by rw [if_pos ((contains_present h name).2 hp)], fun hp => ?_⟩
  have hc : ¬ p.contains name = true := by rw [contains_present h]; exact hp
  rw [if_neg hc]
  rw [← truthy_iff]
  refine ⟨fun hd => by simp [truthy_false_iff.2 hd], fun hd hi => ?_, fun hd hi => ?_⟩
  · obtain ⟨i, hi, hpos⟩ := hi
    simp [hd, (asInt_iff d i).2 hi, hpos]
  · refine ⟨wrongType d, raising_spec _ d, ?_⟩
    cases ha : asInt d with
    | none => simp [hd]
    | some i =>
      have : ¬ i > 0 := fun hpos => hi ⟨i, (asInt_iff d i).1 ha, hpos⟩
      simp [hd, this]

/-- `optional_floating_point`: a float default other than `0.0` is validated against the range and returned; another default is returned without
validation if it counts as true. -/
theorem C48_floating_point (p : Params) (h : p.WF) (name : Str) (valid : Option (Range Rat)) (d : PVal) :
    (Present p name → p.optionalFloatingPoint name valid d = p.floatingPoint name valid) ∧
    (¬ Present p name → (d.Falsy → p.optionalFloatingPoint name valid d = .ok .none) ∧
      (¬ d.Falsy → (∀ q, d ≠ .float q) → p.optionalFloatingPoint name valid d = .ok d) ∧
      (∀ q, d = .float q → q ≠ 0 → (∀ r, valid = some r → r.contains q = true) → p.optionalFloatingPoint name valid d = .ok d) ∧
      (∀ q r, d = .float q → q ≠ 0 → valid = some r → r.contains q = false →
        p.optionalFloatingPoint name valid d = .error .parameterError)) := by
  unfold optionalFloatingPoint
  refine ⟨fun hp => by rw [if_pos ((contains_present h name).2 hp)], fun hp => ?_⟩
  have hc : ¬ p.contains name = true := by rw [contains_present h]; exact hp
  rw [if_neg hc]
  refine ⟨fun hf => ?_, fun hf hq => ?_, ?_, ?_⟩
  · rw [truthy_false_iff.2 hf]
    rfl
  · rw [truthy_iff.2 hf, if_pos rfl]
    cases valid with
    | none => rfl
    | some r => cases d <;> first | rfl | exact absurd rfl (hq _)
  · rintro q rfl hq hv
    cases valid with
    | none => simp [truthy, hq]
    | some r => simp [truthy, hq, hv r rfl]
  · rintro q r rfl hq rfl hv
    simp [truthy, hq, hv]

/-- A default of `0.0` is lost: `optional_floating_point("x", default=0.0)` is `None`, although a default was given. -/
theorem C48_zero_default_counterexample (p : Params) (h : p.WF) (name : Str) (valid : Option (Range Rat)) (hp : ¬ Present p name) :
    p.optionalFloatingPoint name valid (.float 0) = .ok .none := by
  unfold optionalFloatingPoint
  have hc : ¬ p.contains name = true := by rw [contains_present h]; exact hp
  rw [if_neg hc]
  simp [truthy]

/-- A default that is an integer is not compared with the range. -/
theorem C48_integer_default_counterexample (p : Params) (h : p.WF) (name : Str) (hp : ¬ Present p name) :
    ∃ r : Range Rat, r.contains 5 = false ∧ p.optionalFloatingPoint name (some r) (.int 5) = .ok (.int 5) :=
  ⟨⟨.belowValue 0, .aboveValue 1⟩, by decide +kernel,
    ((C48_floating_point p h name (some ⟨.belowValue 0, .aboveValue 1⟩) (.int 5)).2 hp).2.1 (fun hf => by cases hf) (fun q => by simp)⟩

theorem getOptional_spec (p : Params) (h : p.WF) (name : Str) (t : PyType) (d : PVal) :
    (∀ v, v ≠ .none → p.toVal.Reaches (splitOn '.' name) v →
      p.getOptional name t d = if isinstance v t then .ok v else .error (wrongType v)) ∧
    (¬ Present p name → p.getOptional name t d = .ok d) := by
  unfold getOptional privateGet
  constructor
  · intro v hv hr
    rw [follow_ok h hr]
    simp [bind, Except.bind, isNone_false_iff.2 hv]
  · intro hp
    by_cases hr : ∃ w, p.toVal.Reaches (splitOn '.' name) w
    · obtain ⟨w, hw⟩ := hr
      have : w = .none := by
        by_contra hne; exact hp ⟨w, hne, hw⟩
      subst this
      rw [follow_ok h hw]
      rfl
    · rw [follow_missing h hr]
      rfl

theorem checked_iff {v : PVal} {t : PyType} {r : Res PVal} (hr : r = if isinstance v t then .ok v else .error (wrongType v)) :
    Checked v t r := by
  subst hr
  refine ⟨fun h => by rw [if_pos ((isinstance_iff _ _).2 h)], fun h hu => ?_, fun h hu => ?_⟩
  · rw [if_neg (fun h' => h ((isinstance_iff _ _).1 h')), wrongType_unprintable hu]
  · rw [if_neg (fun h' => h ((isinstance_iff _ _).1 h')), wrongType_printable hu]

/-- `get_optional`, `optional_boolean`: the value when present (checked), otherwise the default. -/
theorem C48_get_optional (p : Params) (h : p.WF) (name : Str) (t : PyType) (d : PVal) :
    (∀ v, v ≠ .none → p.toVal.Reaches (splitOn '.' name) v →
      Checked v t (p.getOptional name t d) ∧ Checked v .bool (p.optionalBoolean name d)) ∧
    (¬ Present p name → p.getOptional name t d = .ok d ∧ p.optionalBoolean name d = .ok d) :=
  ⟨fun v hv hr => ⟨checked_iff ((getOptional_spec p h name t d).1 v hv hr), checked_iff ((getOptional_spec p h name .bool d).1 v hv hr)⟩,
   fun hp => ⟨(getOptional_spec p h name t d).2 hp, (getOptional_spec p h name .bool d).2 hp⟩⟩

/-- `optional_boolean_with_default`: the boolean when present (refused as in `Checked` if it is something else), otherwise the default,
`False` included. -/
theorem C48_boolean_with_default (p : Params) (h : p.WF) (name : Str) (b : Bool) :
    (∀ v, v ≠ .none → p.toVal.Reaches (splitOn '.' name) v →
      Checked v .bool (p.optionalBooleanWithDefault name (.bool b))) ∧
    (¬ Present p name → p.optionalBooleanWithDefault name (.bool b) = .ok (.bool b)) := by
  obtain ⟨h1, h2⟩ := getOptional_spec p h name .bool (.bool b)
  unfold optionalBooleanWithDefault optionalBoolean
  simp only [bind, Except.bind]
  refine ⟨fun v hv hr => ?_, fun hp => ?_⟩
  · apply checked_iff
    rw [h1 v hv hr]
    by_cases hb : isinstance v .bool = true
    · simp [hb, isNone_false_iff.2 hv]
    · simp [hb]
  · rw [h2 hp]
    rfl

/-- `optional_arbitrary_list`: the list when present, otherwise the default if it is a non-empty list; an empty list as default
gives `None`; any other truthy default is refused with `ParameterError` even when the parameter is present. -/
theorem C48_arbitrary_list (p : Params) (h : p.WF) (name : Str) (d : PVal) (hd : d = .none ∨ ∃ xs, d = .list xs) :
    (∀ v, v ≠ .none → p.toVal.Reaches (splitOn '.' name) v →
      Checked v .list (p.optionalArbitraryList name d)) ∧
    (¬ Present p name → (d.Falsy → p.optionalArbitraryList name d = .ok .none) ∧
      (¬ d.Falsy → p.optionalArbitraryList name d = .ok d)) := by
  have hcase : p.optionalArbitraryList name d = p.getOptional name .list (if d.truthy then d else .none) := by
    unfold optionalArbitraryList
    rcases hd with rfl | ⟨xs, rfl⟩
    · rfl
    · cases xs <;> rfl
  rw [hcase]
  obtain ⟨h1, h2⟩ := getOptional_spec p h name .list (if d.truthy then d else .none)
  refine ⟨fun v hv hr => checked_iff (h1 v hv hr), fun hp => ⟨fun hf => ?_, fun hf => ?_⟩⟩
  · rw [h2 hp, if_neg (by rw [truthy_iff]; exact fun h => h hf)]
  · rw [h2 hp, if_pos (truthy_iff.2 hf)]

/-- A truthy default that is not a list is refused (see `RaisedWith`) even when the parameter is there. -/
theorem C48_bad_list_default (p : Params) (name : Str) (d : PVal) (hd : ¬ d.Falsy) (hl : isinstance d .list = false) :
    ∃ e, RaisedWith .parameterError d e ∧ p.optionalArbitraryList name d = .error e := by
  refine ⟨wrongType d, raising_spec _ d, ?_⟩
  unfold optionalArbitraryList
  simp [truthy_iff.2 hd, hl]

/-- `optional_namespace` and `namespace_or_empty`. -/
theorem C48_namespaces (p : Params) (h : p.WF) (name : Str) :
    (∀ q : Params, p.toVal.Reaches (splitOn '.' name) q.toVal →
      p.optionalNamespace name = .ok (some q) ∧ p.namespaceOrEmpty name = .ok q) ∧
    (¬ Present p name → p.optionalNamespace name = .ok Option.none ∧ p.namespaceOrEmpty name = .ok (empty (p.pfx ++ [name]))) ∧
    (∀ v, v ≠ .none → v.isParams = false → p.toVal.Reaches (splitOn '.' name) v →
      p.optionalNamespace name = .ok Option.none ∧ p.namespaceOrEmpty name = .error .parameterError) := by
  obtain ⟨h1, h2⟩ := getOptional_spec p h name .object .none
  unfold optionalNamespace namespaceOrEmpty
  simp only [bind, Except.bind]
  refine ⟨fun q hq => ?_, fun hp => ?_, fun v hv hvp hr => ?_⟩
  · rw [h1 q.toVal (by simp [toVal]) hq]
    exact ⟨rfl, rfl⟩
  · rw [h2 hp]
    exact ⟨rfl, rfl⟩
  · rw [h1 v hv hr]
    cases v <;> first | exact ⟨rfl, rfl⟩ | exact absurd rfl hv | simp [isParams] at hvp

/-! ## C49 -/

/-- `assert_exactly_one_present` succeeds iff exactly one position of the list names a present parameter. -/
theorem C49_exactly_one (p : Params) (h : p.WF) (names : List Str) :
    (p.assertExactlyOnePresent names = .ok () ↔
      ∃ before n after, names = before ++ n :: after ∧ Present p n ∧ (∀ m ∈ before, ¬ Present p m) ∧ ∀ m ∈ after, ¬ Present p m) ∧
    (∀ e, p.assertExactlyOnePresent names = .error e → e = .parameterError) := by
  have hlen : p.assertExactlyOnePresent names = .ok () ↔ (names.filter fun n => p.contains n).length = 1 := by
    unfold assertExactlyOnePresent
    simp only
    split
    · split
      · simp; omega
      · simp; omega
    · simp; omega
  have hnil : ∀ l : List Str, (l.filter fun n => p.contains n) = [] ↔ ∀ m ∈ l, ¬ Present p m := by
    intro l
    rw [List.filter_eq_nil_iff]
    simp only [contains_present h]
  refine ⟨?_, ?_⟩
  · rw [hlen]
    constructor
    · intro hl
      clear hlen
      induction names with
      | nil => simp at hl
      | cons a l ih =>
        rw [List.filter_cons] at hl
        split at hl
        · rename_i ha
          simp only [List.length_cons, Nat.add_eq_right] at hl
          exact ⟨[], a, l, rfl, (contains_present h a).1 ha, by simp, (hnil l).1 (List.eq_nil_of_length_eq_zero hl)⟩
        · rename_i ha
          obtain ⟨b, n, c, rfl, h1, h2, h3⟩ := ih hl
          refine ⟨a :: b, n, c, rfl, h1, ?_, h3⟩
          intro m hm
          rcases List.mem_cons.1 hm with rfl | hm
          · rw [← contains_present h]; exact ha
          · exact h2 m hm
    · rintro ⟨b, n, c, rfl, h1, h2, h3⟩
      rw [List.filter_append, List.filter_cons, (hnil b).2 h2, (hnil c).2 h3, if_pos ((contains_present h n).2 h1)]
      rfl
  · intro e he
    unfold assertExactlyOnePresent at he
    simp only at he
    split at he
    · split at he
      · simpa using he.symm
      · simp at he
    · simpa using he.symm

/-! ## C76 -/

/-- The namespace stored by an item of a `Parameters`, if its value is one. -/
def nsOf : Str × PVal → Option Params
  | (_, .params pfx es) => some ⟨pfx, es⟩
  | _ => Option.none

theorem nsOf_iff (e : Str × PVal) (q : Params) : nsOf e = some q ↔ e.2 = q.toVal := by
  obtain ⟨k, v⟩ := e
  obtain ⟨a, b⟩ := q
  cases v <;> simp [nsOf, toVal]

/-- Following namespaces from `v` never leads to a list or a mapping. -/
def NoLists (v : PVal) : Prop := ∀ path w, v.Reaches path w → (∀ xs, w ≠ .list xs) ∧ ∀ es, w ≠ .dict es

theorem hashableEntries_iff (es : Entries) : hashableEntries es = true ↔ ∀ e ∈ es, hashable e.2 = true := by
  induction es with
  | nil => simp [hashableEntries]
  | cons e es ih =>
    obtain ⟨k, v⟩ := e
    simp [hashableEntries, hashableEntry, ih]

theorem hashable_iff (v : PVal) : hashable v = true ↔ NoLists v := by
  induction v using PVal.ind with
  | leaf v hv =>
    have : NoLists v ↔ (∀ xs, v ≠ .list xs) := by
      constructor
      · intro h; exact (h [] v (.here v)).1
      · intro h path w hr
        cases hr with
        | here => exact ⟨h, fun es => PVal.leaf_not_dict hv es⟩
        | step _ _ => exact absurd rfl (PVal.leaf_not_params hv _ _)
    rw [this]
    cases v with
    | dict es => exact absurd rfl (PVal.leaf_not_dict hv es)
    | params a es => exact absurd rfl (PVal.leaf_not_params hv a es)
    | list xs => simp [hashable]
    | _ => simp [hashable]
  | dict es ih =>
    simp only [hashable, Bool.false_eq_true, false_iff]
    intro h
    exact (h [] _ (.here _)).2 es rfl
  | params pfx es ih =>
    rw [hashable, hashableEntries_iff]
    constructor
    · intro h path w hr
      cases hr with
      | here => simp
      | step hm hr => exact (ih _ hm).1 (h _ hm) _ _ hr
    · intro h e he
      exact (ih e he).2 fun path w hr => h (e.1 :: path) w (.step he hr)

theorem mapM_filterMap {α β : Type} (l : List α) (f : α → Res β) (t : α → Bool) (g : α → Option β)
    (h1 : ∀ a ∈ l, t a = true → ∃ b, f a = .ok b ∧ g a = some b) (h2 : ∀ a ∈ l, t a = false → g a = Option.none) :
    (l.filter t).mapM f = .ok (l.filterMap g) := by
  induction l with
  | nil => rfl
  | cons a l ih =>
    have ih := ih (fun x hx => h1 x (by simp [hx])) (fun x hx => h2 x (by simp [hx]))
    rw [List.filter_cons, List.filterMap_cons]
    cases ht : t a with
    | true =>
      obtain ⟨b, hf, hg⟩ := h1 a (by simp) ht
      simp only [if_true, List.mapM_cons, hf, ih, hg, bind, Except.bind, pure, Except.pure]
    | false =>
      rw [h2 a (by simp) ht]
      simpa using ih

/-- `sub_namespaces` gives the namespaces stored directly under this one, in order - unless one of them holds a list or another
mapping at some depth, in which case it raises `TypeError` (the values cannot be hashed). -/
theorem C76_sub_namespaces (p : Params) (h : p.WF) :
    ((∀ k, ∀ q : Params, (k, q.toVal) ∈ p.data → NoLists q.toVal) → p.subNamespaces = .ok (p.data.filterMap nsOf)) ∧
    (¬ (∀ k, ∀ q : Params, (k, q.toVal) ∈ p.data → NoLists q.toVal) → p.subNamespaces = .error .typeError) := by
  obtain ⟨hn, hd, -⟩ := PVal.WF.inv h
  have hreach : ∀ e ∈ p.data, ∀ w, p.toVal.Reaches (splitOn '.' e.1) w ↔ w = e.2 := by
    intro e he w
    rw [splitOn_of_not_mem (hd e he)]
    constructor
    · intro hr
      exact PVal.reaches_unique h hr (.step he (.here _))
    · rintro rfl; exact .step he (.here _)
  have hm : ((p.data.map (·.1)).filter fun n => p.hasNamespace n).mapM (fun n => p.namespace n) =
      .ok (p.data.filterMap nsOf) := by
    rw [List.filter_map]
    rw [List.mapM_map]
    refine mapM_filterMap _ _ _ _ ?_ ?_
    · intro e he ht
      obtain ⟨q, hq⟩ := ((C47_namespace p h e.1).2.2).1 ht
      exact ⟨q, ((C47_namespace p h e.1).1 q).2 hq, (nsOf_iff e q).2 ((hreach e he _).1 hq).symm⟩
    · intro e he ht
      cases hne : nsOf e with
      | none => rfl
      | some q =>
        have := ((C47_namespace p h e.1).2.2).2 ⟨q, (hreach e he _).2 ((nsOf_iff e q).1 hne).symm⟩
        simp only [Function.comp] at ht
        rw [ht] at this; simp at this
  have hall : ((p.data.filterMap nsOf).all fun q => hashable q.toVal) = true ↔
      ∀ k, ∀ q : Params, (k, q.toVal) ∈ p.data → NoLists q.toVal := by
    rw [List.all_eq_true]
    simp only [List.mem_filterMap, hashable_iff, nsOf_iff]
    constructor
    · intro hh k q hk; exact hh q ⟨_, hk, rfl⟩
    · rintro hh q ⟨⟨k, v⟩, hk, rfl⟩; exact hh k q hk
  unfold subNamespaces
  simp only [hm, bind, Except.bind]
  refine ⟨fun hh => by rw [if_pos (hall.2 hh)], fun hh => by rw [if_neg (fun hc => hh (hall.1 hc))]⟩

/-! ## The hypotheses are met -/

theorem exampleParams_wf : exampleParams.WF := ((loaded_iff _).1 exampleParams_loaded).tree.wf
example : exampleParams.integer "a.b".toList = .ok (.int 1) := by rfl
example : exampleParams.integer "a.b".toList (some ⟨.aboveValue 1, .aboveAll⟩) = .error .parameterError := by rfl
example : exampleParams.string "a.b".toList = .error .parameterError := by rfl
example : exampleParams.string ['d'] (some [['x'], ['y']]) = .ok (.str ['x']) := by rfl
example : exampleParams.enum ['d'] [['x'], ['y']] = .ok ['x'] := by rfl
/-- A namespace that can be written as text. -/
def plainNs : Params := ⟨[], [(['n'], .params [['n']] [(['b'], .int 1)])]⟩
theorem plainNs_wf : plainNs.WF := by
  refine .params (by decide) (by decide) fun e he => ?_
  simp only [plainNs, List.mem_singleton] at he
  subst he
  refine .params (by decide) (by decide) fun e he => ?_
  simp only [List.mem_singleton] at he
  subst he
  exact .leaf ⟨rfl, rfl⟩
example : plainNs.integer ['n'] = .error .parameterError := by rfl
/-- `a` holds a `None`. -/
theorem a_unprintable : ∃ v, Found exampleParams ['a'] .none v ∧ Unprintable v := by
  refine ⟨.params [['a']] [(['b'], .int 1), (['c'], .none)], (((C47_get _ exampleParams_wf ['a'] .parameters .none).1 _).1 rfl).1,
    ⟨[['a']], [(['b'], .int 1), (['c'], .none)]⟩, rfl, .none, ?_, nofun⟩
  exact .dict (e := (['c'], .none)) (List.mem_cons_of_mem _ (List.mem_cons_self ..)) (.here _)
/-- The documentation promises `ParameterError` for a parameter of another type.  If it is a namespace in which something cannot be written as text
(here `None`, from a null in the file), the accessor raises `RuntimeError` instead. -/
theorem _root_.Vista.Params.C47_unprintable_counterexample : ∃ p : Params, p.WF ∧ (∃ v, Found p ['a'] .none v ∧ Unprintable v) ∧
    p.integer ['a'] = .error .runtimeError ∧ p.string ['a'] = .error .runtimeError ∧ p.boolean ['a'] = .error .runtimeError ∧
    p.optionalString ['a'] = .error .runtimeError :=
  ⟨exampleParams, exampleParams_wf, a_unprintable, rfl, rfl, rfl, rfl⟩
/-- `a.c` is there but is `None`: absent for the optional accessors. -/
example : ¬ Present exampleParams "a.c".toList := by
  rw [← contains_present exampleParams_wf]; decide
example : Present exampleParams "a.b".toList := by
  rw [← contains_present exampleParams_wf]; decide
example : exampleParams.assertExactlyOnePresent ["a.b".toList, "zz".toList] = .ok () := by rfl
example : exampleParams.assertExactlyOnePresent ["a.b".toList, "d".toList] = .error .parameterError := by rfl

example : exampleParams.subNamespaces.toOption.map (·.map (·.pfx)) = some [[['a']]] := by rfl
example : (Params.mk [] [(['a'], .params [['a']] [(['b'], .list [])])]).subNamespaces = .error .typeError := by rfl

end Params
end Vista
