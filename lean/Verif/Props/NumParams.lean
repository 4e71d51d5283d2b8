import Verif.Model.NumParams
import Verif.Props.NumRange
import Verif.Props.ParamsAccess

/-!
# C108: number parameters that are NaN or infinite
-/
set_option linter.unusedSectionVars false
set_option linter.unusedSimpArgs false
namespace Vista
namespace NumParams
open PVal Params Numeric
variable (fl : Rat → Option Ext)

/-! ## Specification -/

/-- With the valid range `r`, the accessors return exactly values for which `P` holds, of the type asked for, found at the name (or the default);
otherwise they refuse it (`ParameterError`, except for a namespace that cannot be written). -/
def Checked (r : Vista.Range PVal) (P : PVal → Prop) : Prop :=
  ∀ (p : Params), p.WF → ∀ (name : Str) (d : PVal),
    (∀ v, floatingPoint fl p name (some r) d = .ok v ↔ Found p name d v ∧ IsA v .float ∧ P v) ∧
    (∀ v, integer fl p name (some r) d = .ok v ↔ Found p name d v ∧ IsA v .int ∧ P v) ∧
    (∀ e, floatingPoint fl p name (some r) d = .error e ∨ integer fl p name (some r) d = .error e → Refused p name d e)

/-- The number a Python object is compared as: `True` is 1, `False` is 0; NaN has none, and other objects have none. -/
inductive StandsFor : PVal → Ext → Prop
  | int (i : Int) : StandsFor (.int i) (((i : Rat) : WithTop Rat) : WithBot (WithTop Rat))
  | one : StandsFor (.bool true) (((1 : Rat) : WithTop Rat) : WithBot (WithTop Rat))
  | zero : StandsFor (.bool false) (((0 : Rat) : WithTop Rat) : WithBot (WithTop Rat))
  | float {q : Rat} {x : Ext} : fl q = some x → StandsFor (.float q) x

/-! ## Proofs -/
variable {fl}

/-- The numbers that decide the comparisons in the theorems below are these. -/
theorem C108_numbers (v : PVal) (x : Ext) : numOf fl v = some x ↔ StandsFor fl v x := by
  constructor
  · intro h
    cases v with
    | int i => obtain rfl := Option.some.inj h; exact .int i
    | bool b => obtain rfl := Option.some.inj h; cases b with
      | true => exact .one
      | false => exact .zero
    | float q => exact .float h
    | _ => cases h
  · rintro (i | _ | _ | h)
    · rfl
    · rfl
    · rfl
    · exact h


theorem floatingPoint_spec (p : Params) (h : p.WF) (name : Str) (valid : Option (Vista.Range PVal)) (d : PVal) :
    (∀ v, floatingPoint fl p name valid d = .ok v ↔
      Found p name d v ∧ IsA v .float ∧ ∀ r, valid = some r → Numeric.Range.contains (numOf fl) r v = true) ∧
    (∀ e, floatingPoint fl p name valid d = .error e → Refused p name d e) := by
  have key := checked_get h name .float d (by simp) (by simp) (fun ret => match valid with
      | some r => if Numeric.Range.contains (numOf fl) r ret then .ok ret else .error .parameterError
      | Option.none => .ok ret) (fun v => ∀ r, valid = some r → Numeric.Range.contains (numOf fl) r v = true) (by
    intro v hv
    cases valid with
    | none => simp
    | some r => cases hc : Numeric.Range.contains (numOf fl) r v <;> simp [hc])
  exact ⟨fun v => (key.1 v).trans (by rw [isinstance_iff]), key.2⟩

theorem integer_spec' (p : Params) (h : p.WF) (name : Str) (valid : Option (Vista.Range PVal)) (d : PVal) :
    (∀ v, integer fl p name valid d = .ok v ↔
      Found p name d v ∧ IsA v .int ∧ ∀ r, valid = some r → Numeric.Range.contains (numOf fl) r v = true) ∧
    (∀ e, integer fl p name valid d = .error e → Refused p name d e) := by
  have key := checked_get h name .int d (by simp) (by simp) (fun ret => match valid with
      | some r => if Numeric.Range.contains (numOf fl) r ret then .ok ret else .error .parameterError
      | Option.none => .ok ret) (fun v => ∀ r, valid = some r → Numeric.Range.contains (numOf fl) r v = true) (by
    intro v hv
    cases valid with
    | none => simp
    | some r => cases hc : Numeric.Range.contains (numOf fl) r v <;> simp [hc])
  exact ⟨fun v => (key.1 v).trans (by rw [isinstance_iff]), key.2⟩

theorem checked_of {r : Vista.Range PVal} {P : PVal → Prop} (h : ∀ v, Numeric.Range.contains (numOf fl) r v = true ↔ P v) : Checked fl r P := by
  intro p hp name d
  obtain ⟨a1, a2⟩ := floatingPoint_spec (fl := fl) p hp name (some r) d
  obtain ⟨b1, b2⟩ := integer_spec' (fl := fl) p hp name (some r) d
  refine ⟨fun v => (a1 v).trans ?_, fun v => (b1 v).trans ?_, fun e he => he.elim (a2 e) (b2 e)⟩ <;>
  · simp [h]

theorem checked_ok {x : Res (Vista.Range PVal)} {c : Prop} {P : PVal → Prop}
    (h : c → ∃ r, x = .ok r ∧ ∀ v, Numeric.Range.contains (numOf fl) r v = true ↔ P v) (he : ¬ c → x = .error .valueError) {r : Vista.Range PVal} (hr : x = .ok r) :
    Checked fl r P := by
  by_cases hc : c
  · obtain ⟨r', h1, h2⟩ := h hc
    rw [hr] at h1
    obtain rfl := Except.ok.inj h1
    exact checked_of h2
  · rw [he hc] at hr
    cases hr

/-- `floating_point` and `integer` with each range that can be asked for, for any numbers: infinities count as the numbers they are; for NaN every
comparison is false. -/
theorem C108_valid_range (a b : PVal) (r : Vista.Range PVal) :
    (Numeric.Range.open (numOf fl) a b = .ok r → Checked fl r fun v => Less (numOf fl) a v ∧ ¬ AtMost (numOf fl) b v) ∧
    (Numeric.Range.closed (numOf fl) a b = .ok r → Checked fl r fun v => AtMost (numOf fl) a v ∧ ¬ Less (numOf fl) b v) ∧
    (Numeric.Range.closedOpen (numOf fl) a b = .ok r → Checked fl r fun v => AtMost (numOf fl) a v ∧ ¬ AtMost (numOf fl) b v) ∧
    (Numeric.Range.openClosed (numOf fl) a b = .ok r → Checked fl r fun v => Less (numOf fl) a v ∧ ¬ Less (numOf fl) b v) ∧
    (Numeric.Range.lessThan (numOf fl) b = .ok r → Checked fl r fun v => ¬ AtMost (numOf fl) b v) ∧
    (Numeric.Range.atMost (numOf fl) b = .ok r → Checked fl r fun v => ¬ Less (numOf fl) b v) ∧
    (Numeric.Range.greaterThan (numOf fl) a = .ok r → Checked fl r fun v => Less (numOf fl) a v) ∧
    (Numeric.Range.atLeast (numOf fl) a = .ok r → Checked fl r fun v => AtMost (numOf fl) a v) := by
  obtain ⟨h1, h2, h3, h4⟩ := C107_factories (numOf fl) a b
  obtain ⟨h5, h6, -⟩ := C107_unbounded (numOf fl) b
  obtain ⟨-, -, h7, h8, -⟩ := C107_unbounded (numOf fl) a
  have one : ∀ {x : Res (Vista.Range PVal)} {P : PVal → Prop}, (∃ r, x = .ok r ∧ ∀ v, Numeric.Range.contains (numOf fl) r v = true ↔ P v) →
      x = .ok r → Checked fl r P := fun h hr => checked_ok (c := True) (fun _ => h) (fun h => absurd trivial h) hr
  exact ⟨checked_ok h1.1 h1.2, checked_ok h2.1 (fun h => h2.2 (not_not.1 h)), checked_ok h3.1 (fun h => h3.2 (not_not.1 h)),
    checked_ok h4.1 (fun h => h4.2 (not_not.1 h)), one h5, one h6, one h7, one h8⟩

/-- Without a valid range every float, NaN and the infinities included, is returned. -/
theorem C108_no_range (p : Params) (h : p.WF) (name : Str) (d : PVal) :
    (∀ v, floatingPoint fl p name .none d = .ok v ↔ Found p name d v ∧ IsA v .float) ∧
    (∀ v, integer fl p name .none d = .ok v ↔ Found p name d v ∧ IsA v .int) ∧
    (∀ e, floatingPoint fl p name .none d = .error e ∨ integer fl p name .none d = .error e → Refused p name d e) := by
  obtain ⟨a1, a2⟩ := floatingPoint_spec (fl := fl) p h name .none d
  obtain ⟨b1, b2⟩ := integer_spec' (fl := fl) p h name .none d
  exact ⟨fun v => (a1 v).trans (by simp), fun v => (b1 v).trans (by simp), fun e he => he.elim (a2 e) (b2 e)⟩

/-- NaN passes iff there is no valid range, or one without lower bound. -/
theorem C108_nan (p : Params) (h : p.WF) (name : Str) (lo hi : Vista.Cut PVal) (r : Vista.Range PVal)
    (hr : Numeric.Range.new (numOf fl) lo hi = .ok r) (d : PVal) (q : Rat) (hq : fl q = Option.none) (hf : Found p name d (.float q)) :
    (floatingPoint fl p name (some r) d = .ok (.float q) ↔ Numeric.Range.hasLowerBound r = false) ∧
    (Numeric.Range.hasLowerBound r = true → floatingPoint fl p name (some r) d = .error .parameterError) := by
  obtain ⟨a1, a2⟩ := floatingPoint_spec (fl := fl) p h name (some r) d
  have hin := C107_nan_in (num := numOf fl) lo hi r hr (.float q) hq
  have hiff : floatingPoint fl p name (some r) d = .ok (.float q) ↔ Numeric.Range.hasLowerBound r = false := by
    rw [a1, ← hin]
    exact ⟨fun h => h.2.2 r rfl, fun h => ⟨hf, .float q, fun r' hr' => by cases hr'; exact h⟩⟩
  refine ⟨hiff, fun hb => ?_⟩
  cases hx : floatingPoint fl p name (some r) d with
  | error e => rw [(a2 e hx).2 fun ⟨v, hv, hp⟩ => by
      obtain rfl := (found_unique h hf v).1 hv
      exact not_unprintable rfl hp]
  | ok v =>
    exfalso
    obtain ⟨b1, b2⟩ := Params.C47_get p h name .float d
    have hv : v = .float q := by
      have g1 := (b1 (.float q)).2 ⟨hf, rfl⟩
      obtain ⟨c1, c2, -⟩ := (a1 v).1 hx
      have g2 := (b1 v).2 ⟨c1, (isinstance_iff _ _).2 c2⟩
      rw [g1] at g2
      exact (Except.ok.inj g2).symm
    rw [hv] at hx
    rw [hiff.1 hx] at hb
    cases hb

/-- `optional_floating_point`: as `floating_point` if the name is there; otherwise the default, `None` for a default equal to 0 (or false), and
`ParameterError` for a float outside the valid range, which a NaN is iff the range has a lower bound. -/
theorem C108_optional (p : Params) (h : p.WF) (name : Str) (valid : Option (Vista.Range PVal)) (d : PVal) :
    (Present p name → optionalFloatingPoint fl p name valid d = floatingPoint fl p name valid) ∧
    (¬ Present p name →
      (∀ q, d = .float q → fl q = some (ofRat 0) → optionalFloatingPoint fl p name valid d = .ok .none) ∧
      (∀ q, d = .float q → fl q ≠ some (ofRat 0) → (∀ r, valid = some r → Numeric.Range.contains (numOf fl) r d = true) →
        optionalFloatingPoint fl p name valid d = .ok d) ∧
      (∀ q r, d = .float q → fl q ≠ some (ofRat 0) → valid = some r → Numeric.Range.contains (numOf fl) r d = false →
        optionalFloatingPoint fl p name valid d = .error .parameterError) ∧
      ((∀ q, d ≠ .float q) → d.Falsy → optionalFloatingPoint fl p name valid d = .ok .none) ∧
      ((∀ q, d ≠ .float q) → ¬ d.Falsy → optionalFloatingPoint fl p name valid d = .ok d)) := by
  unfold optionalFloatingPoint
  refine ⟨fun hp => by rw [if_pos ((contains_present h name).2 hp)], fun hp => ?_⟩
  have hc : ¬ p.contains name = true := by rw [contains_present h]; exact hp
  rw [if_neg hc]
  refine ⟨?_, ?_, ?_, ?_, ?_⟩
  · rintro q rfl hq
    simp [truthy, hq]
  · rintro q rfl hq hv
    cases valid with
    | none => simp [truthy, hq]
    | some r => simp [truthy, hq, hv r rfl]
  · rintro q r rfl hq rfl hv
    simp [truthy, hq, hv]
  · intro hq hf
    have ht : truthy fl d = false := by
      have := truthy_false_iff.2 hf
      cases d <;> first | exact absurd rfl (hq _) | exact this
    simp [ht]
  · intro hq hf
    have ht : truthy fl d = true := by
      have : d.truthy = true := by
        cases ht : d.truthy with
        | true => rfl
        | false => exact absurd (truthy_false_iff.1 ht) hf
      cases d <;> first | exact absurd rfl (hq _) | exact this
    rw [if_pos ht]
    cases valid with
    | none => rfl
    | some r => cases d <;> first | rfl | exact absurd rfl (hq _)

/-! ## Example -/
namespace Example

/-- The float object named 1 is NaN, the one named 2 is infinity, the others are the numbers that name them. -/
def floats : Rat → Option Ext := fun q => if q = 1 then Option.none else if q = 2 then some ((⊤ : WithTop Rat) : WithBot (WithTop Rat)) else some (ofRat q)

/-- `{x: .nan, y: .inf, z: 3}` -/
def dict : Entries := [(['x'], .float 1), (['y'], .float 2), (['z'], .int 3)]
def params : Params := ⟨[], [(['x'], .float 1), (['y'], .float 2), (['z'], .int 3)]⟩

theorem params_wf : params.WF := by
  refine ((loaded_iff _).1 ⟨dict, .dict (by decide) fun e he => ?_, rfl⟩).tree.wf
  simp only [dict, List.mem_cons, List.not_mem_nil, or_false] at he
  rcases he with rfl | rfl | rfl <;> exact .leaf ⟨rfl, rfl⟩

theorem get_x : params.get ['x'] .float = .ok (.float 1) := by rfl
theorem get_y : params.get ['y'] .float = .ok (.float 2) := by rfl
theorem get_z : params.get ['z'] .int = .ok (.int 3) := by rfl

/-- `floating_point("y", Range.at_least(0))` is infinity. -/
example : floatingPoint floats params ['y'] (some ⟨.belowValue (.int 0), .aboveAll⟩) = .ok (.float 2) := by
  simp only [floatingPoint, get_y, bind, Except.bind]
  rw [if_pos (by decide +kernel)]
/-- `integer("z", valid_range=Range.at_most(2.5))` raises. -/
example : integer floats params ['z'] (some ⟨.belowAll, .aboveValue (.float (5/2))⟩) = .error .parameterError := by
  simp only [integer, get_z, bind, Except.bind]
  rw [if_neg (by decide +kernel)]

/-- The hypotheses of `C108_nan` hold: `floating_point("x", Range.closed(0, 4))` raises, as NaN is not in a range with a lower bound. -/
example : floatingPoint floats params ['x'] (some ⟨.belowValue (.int 0), .aboveValue (.int 4)⟩) = .error .parameterError :=
  (C108_nan params params_wf ['x'] (.belowValue (.int 0)) (.aboveValue (.int 4)) _
    (by simp only [Numeric.Range.new, checkArg, bind, Except.bind]; rw [if_pos (by decide +kernel)]; rfl) .none 1 (by decide +kernel)
    ((C47_get params params_wf ['x'] .float .none).1 _ |>.1 get_x).1).2 rfl

/-- NaN is returned for the valid range "at most 4", although it is not at most 4. -/
theorem _root_.Vista.NumParams.C108_nan_at_most_counterexample : ∃ (fl : Rat → Option Ext) (p : Params) (r : Vista.Range PVal), p.WF ∧
    Numeric.Range.atMost (numOf fl) (.int 4) = .ok r ∧ floatingPoint fl p ['x'] (some r) = .ok (.float 1) ∧
    ¬ AtMost (numOf fl) (.float 1) (.int 4) :=
  ⟨floats, params, ⟨.belowAll, .aboveValue (.int 4)⟩, params_wf, rfl,
    by
      simp only [floatingPoint, get_x, bind, Except.bind]
      rw [if_pos (by decide +kernel)],
    by
      rintro ⟨a, b, h, -⟩
      simp [numOf, floats] at h⟩

end Example
end NumParams
end Vista
