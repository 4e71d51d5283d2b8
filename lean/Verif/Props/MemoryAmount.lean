import Verif.Proofs.Prelude
import Verif.Proofs.PyDict
import Verif.Model.MemoryAmount

/-!
# C67: memory amounts
-/
set_option linter.unusedSectionVars false
set_option linter.unusedSimpArgs false
namespace Vista
namespace Memory

/-- What is assumed of the digits and of `str.upper`: the ASCII digits have their values, the letters of the units and the space are
no digits, and the letters have their upper case. -/
structure Ascii (digit : Char → Option Nat) (upper : Str → Str) : Prop where
  digits : ∀ c, c.isDigit = true → digit c = some (c.toNat - 48)
  others : ∀ c ∈ " TtGgMmKk".toList, digit c = none
  upper : upper ['k'] = ['K'] ∧ upper ['m'] = ['M'] ∧ upper ['g'] = ['G'] ∧ upper ['t'] = ['T'] ∧
    upper ['K'] = ['K'] ∧ upper ['M'] = ['M'] ∧ upper ['G'] = ['G'] ∧ upper ['T'] = ['T']

/-- The letters of a unit. -/
def Letter : Char → Unit → Prop
  | 'k', .kilobytes | 'K', .kilobytes | 'm', .megabytes | 'M', .megabytes | 'g', .gigabytes | 'G', .gigabytes | 't', .terabytes
  | 'T', .terabytes => True
  | _, _ => False

/-- The string starts with an amount: some digits, perhaps a space, the letter of the unit; then anything. -/
def StartsWith (digit : Char → Option Nat) (s : Str) (ds : Str) (u : Unit) : Prop :=
  ∃ space c rest, s = ds ++ space ++ c :: rest ∧ ds ≠ [] ∧ (∀ d ∈ ds, (digit d).isSome = true) ∧ (space = [] ∨ space = [' ']) ∧ Letter c u

theorem letter_iff (c : Char) : (∃ u, Letter c u) ↔ c ∈ "TtGgMmKk".toList := by
  constructor
  · rintro ⟨u, h⟩
    unfold Letter at h
    split at h <;> first | decide | exact absurd h not_false
  · intro h
    have : c = 'T' ∨ c = 't' ∨ c = 'G' ∨ c = 'g' ∨ c = 'M' ∨ c = 'm' ∨ c = 'K' ∨ c = 'k' := by simpa using h
    rcases this with rfl | rfl | rfl | rfl | rfl | rfl | rfl | rfl
    · exact ⟨.terabytes, trivial⟩
    · exact ⟨.terabytes, trivial⟩
    · exact ⟨.gigabytes, trivial⟩
    · exact ⟨.gigabytes, trivial⟩
    · exact ⟨.megabytes, trivial⟩
    · exact ⟨.megabytes, trivial⟩
    · exact ⟨.kilobytes, trivial⟩
    · exact ⟨.kilobytes, trivial⟩

theorem unit_parse {digit : Char → Option Nat} {upper : Str → Str} (h : Ascii digit upper) {c : Char} {u : Unit} (hl : Letter c u) :
    Unit.parse upper [c] = .ok u := by
  obtain ⟨h1, h2, h3, h4, h5, h6, h7, h8⟩ := h.upper
  unfold Letter at hl
  split at hl <;> first | exact absurd hl not_false | skip
  all_goals simp only [Unit.parse, h1, h2, h3, h4, h5, h6, h7, h8] <;> rfl

theorem letter_unique {c : Char} {u u' : Unit} (h : Letter c u) (h' : Letter c u') : u = u' := by
  unfold Letter at h
  split at h <;> first | exact absurd h not_false | (cases u' <;> simp_all [Letter])

theorem groups_of_starts {digit : Char → Option Nat} {upper : Str → Str} (h : Ascii digit upper) {s ds : Str} {u : Unit}
    (hs : StartsWith digit s ds u) : ∃ c, groups digit s = some (ds, [c]) ∧ Letter c u := by
  obtain ⟨space, c, rest, rfl, hne, hd, hsp, hl⟩ := hs
  have hc : c ∈ "TtGgMmKk".toList := (letter_iff c).1 ⟨u, hl⟩
  have hcd : digit c = none := h.others c (by
    have : c ∈ "TtGgMmKk".toList → c ∈ " TtGgMmKk".toList := by
      intro h'
      have e : " TtGgMmKk".toList = ' ' :: "TtGgMmKk".toList := by decide
      rw [e]; exact List.mem_cons_of_mem _ h'
    exact this hc)
  have hsd : digit ' ' = none := h.others ' ' (by decide)
  have hcs : c ≠ ' ' := by rintro rfl; revert hc; decide
  refine ⟨c, ?_, hl⟩
  have htake : (ds ++ space ++ c :: rest).takeWhile (fun c => (digit c).isSome) = ds ∧
      (ds ++ space ++ c :: rest).dropWhile (fun c => (digit c).isSome) = space ++ c :: rest := by
    clear hne
    induction ds with
    | nil => rcases hsp with rfl | rfl <;> simp [hcd, hsd]
    | cons d ds ih =>
      obtain ⟨i1, i2⟩ := ih fun x hx => hd x (by simp [hx])
      have := hd d (by simp)
      simp only [List.append_assoc] at i1 i2
      simp [this, i1, i2]
  unfold groups
  simp only [htake.1, htake.2]
  rcases hsp with rfl | rfl
  · simp only [List.nil_append]
    split
    · rename_i heq
      split at heq
      · rename_i h'; simp only [List.cons.injEq] at h'; exact absurd h'.1 hcs
      · simp only [List.cons.injEq] at heq
        rw [← heq.1]
        simp only [hne, ne_eq, not_false_eq_true, true_and, hc, if_true]
    · rename_i heq
      split at heq
      · rename_i h'; simp only [List.cons.injEq] at h'; exact absurd h'.1 hcs
      · simp at heq
  · simp only [List.singleton_append]
    simp only [hne, ne_eq, not_false_eq_true, true_and, hc, if_true]

theorem starts_of_groups {digit : Char → Option Nat} {s ds u : Str} (h : groups digit s = some (ds, u)) :
    ∃ unit, StartsWith digit s ds unit := by
  unfold groups at h
  simp only at h
  have hs := List.takeWhile_append_dropWhile (p := fun c => (digit c).isSome) (l := s)
  have hd : ∀ d ∈ s.takeWhile (fun c => (digit c).isSome), (digit d).isSome = true := fun d hd => by
    have := List.all_takeWhile (p := fun c => (digit c).isSome) (l := s)
    exact List.all_eq_true.1 this d hd
  generalize s.takeWhile (fun c => (digit c).isSome) = t at *
  generalize s.dropWhile (fun c => (digit c).isSome) = r at *
  split at h
  · rename_i c r' heq
    split at h
    · rename_i hcond
      simp only [Option.some.injEq, Prod.mk.injEq] at h
      obtain ⟨unit, hl⟩ := (letter_iff c).2 hcond.2
      refine ⟨unit, ?_⟩
      rw [← h.1]
      split at heq
      · exact ⟨[' '], c, r', by rw [← hs, heq]; simp, hcond.1, hd, .inr rfl, hl⟩
      · exact ⟨[], c, r', by rw [← hs, heq]; simp, hcond.1, hd, .inl rfl, hl⟩
    · simp at h
  · simp at h

theorem new_spec (n : Nat) (u : Unit) :
    Amount.new n u = if 1 ≤ n then .ok ⟨n, u⟩ else .error .valueError := by
  have : Range.atLeast (1 : Int) = .ok ⟨.belowValue 1, .aboveAll⟩ := by rfl
  simp only [Amount.new, this, bind, Except.bind]
  have hc : Range.contains (⟨.belowValue 1, .aboveAll⟩ : Range Int) n = decide (1 ≤ n) := by
    simp only [Range.contains, Cut.isLessThan]
    by_cases h : 1 ≤ n
    · simp [h]; omega
    · simp [h]; omega
  rw [hc]
  by_cases h : 1 ≤ n <;> simp [h]

/-- `MemoryAmount.parse`: the amount and unit of the start of the string, if it has one and the amount is at least one; `ValueError` if
the amount is zero; `RuntimeError` if the string does not start with an amount. -/
theorem C67_parse {digit : Char → Option Nat} {upper : Str → Str} (h : Ascii digit upper) (s : Str) :
    (∀ ds u, StartsWith digit s ds u → 1 ≤ intOf digit ds → Amount.parse digit upper s = .ok ⟨intOf digit ds, u⟩) ∧
    (∀ ds u, StartsWith digit s ds u → intOf digit ds = 0 → Amount.parse digit upper s = .error .valueError) ∧
    ((¬ ∃ ds u, StartsWith digit s ds u) → Amount.parse digit upper s = .error .runtimeError) := by
  have key : ∀ ds u, StartsWith digit s ds u → Amount.parse digit upper s = Amount.new (intOf digit ds) u := by
    intro ds u hs
    obtain ⟨c, hg, hl⟩ := groups_of_starts h hs
    simp [Amount.parse, hg, unit_parse h hl, bind, Except.bind]
  refine ⟨fun ds u hs h1 => ?_, fun ds u hs h0 => ?_, fun hno => ?_⟩
  · rw [key ds u hs, new_spec, if_pos h1]
  · rw [key ds u hs, new_spec, if_neg (by omega)]
  · cases hg : groups digit s with
    | none => simp [Amount.parse, hg]
    | some g =>
      obtain ⟨unit, hs⟩ := starts_of_groups (ds := g.1) (u := g.2) hg
      exact absurd ⟨_, _, hs⟩ hno

/-- The value of a string of ASCII digits is the number it denotes. -/
theorem intOf_toString {digit : Char → Option Nat} {upper : Str → Str} (h : Ascii digit upper) (n : Nat) :
    intOf digit (toString n).toList = n ∧ ∀ d ∈ (toString n).toList, (digit d).isSome = true := by
  have hs : (toString n).toList = Nat.toDigits 10 n := Nat.toList_repr
  rw [hs]
  have hd : ∀ d ∈ Nat.toDigits 10 n, d.isDigit = true := fun d hd => Nat.isDigit_of_mem_toDigits (by omega) (by omega) hd
  refine ⟨?_, fun d hd' => by rw [h.digits d (hd d hd')]; rfl⟩
  have e : intOf digit (Nat.toDigits 10 n) = Nat.ofDigitChars 10 (Nat.toDigits 10 n) 0 := by
    unfold intOf
    rw [Nat.ofDigitChars_eq_foldl]
    have : ∀ (l : List Char) (acc : Nat), (∀ d ∈ l, d.isDigit = true) →
        l.foldl (fun acc c => 10 * acc + (digit c).getD 0) acc = l.foldl (fun sofar c => 10 * sofar + (c.toNat - '0'.toNat)) acc := by
      intro l
      induction l with
      | nil => intro acc _; rfl
      | cons c l ih =>
        intro acc hl
        rw [List.foldl_cons, List.foldl_cons, h.digits c (hl c (by simp))]
        exact ih _ fun d hd' => hl d (by simp [hd'])
    exact this _ 0 hd
  rw [e, Nat.ofDigitChars_toDigits (by omega) (by omega)]

/-- Parsing what was formatted, as `5G`, `5 g`, `5gb` or `5 GB`: the same amount and unit. -/
theorem C67_format {digit : Char → Option Nat} {upper : Str → Str} (h : Ascii digit upper) (n : Nat) (hn : 1 ≤ n) (u : Unit) (c : Char)
    (hc : Letter c u) (space suffix : Str) (hspace : space = [] ∨ space = [' ']) :
    Amount.parse digit upper ((toString n).toList ++ space ++ c :: suffix) = .ok ⟨n, u⟩ := by
  obtain ⟨h1, h2⟩ := intOf_toString h n
  have hs : StartsWith digit ((toString n).toList ++ space ++ c :: suffix) (toString n).toList u := by
    refine ⟨space, c, suffix, rfl, ?_, h2, hspace, hc⟩
    have : (toString n).toList = Nat.toDigits 10 n := Nat.toList_repr
    rw [this]; exact Nat.toDigits_ne_nil
  have := (C67_parse h _).1 _ _ hs (by rw [h1]; exact hn)
  rw [this, h1]

/-- `MemoryUnit.parse`: the unit whose letter it is, in either case; `RuntimeError` for every string whose upper case is not one of the
four letters. -/
theorem C67_unit {digit : Char → Option Nat} {upper : Str → Str} (h : Ascii digit upper) :
    (∀ c u, Letter c u → Unit.parse upper [c] = .ok u) ∧
    (∀ s, upper s ∉ [['K'], ['M'], ['G'], ['T']] → Unit.parse upper s = .error .runtimeError) := by
  refine ⟨fun c u hl => unit_parse h hl, fun s hs => ?_⟩
  have : dictGet stringToUnit (upper s) = none := (dictGet_none_iff _ _).2 hs
  simp [Unit.parse, this]

/-! ## Examples and counterexamples -/

/-- The ASCII digits. -/
def asciiDigit (c : Char) : Option Nat := if c.isDigit then some (c.toNat - 48) else none

/-- The hypotheses hold if there are only ASCII digits. -/
theorem ascii : Ascii asciiDigit (fun s => s.map Char.toUpper) where
  digits c h := by simp [asciiDigit, h]
  others := by decide +kernel
  upper := by decide +kernel

example : Amount.parse asciiDigit (fun s => s.map Char.toUpper) "12 gB".toList = .ok ⟨12, .gigabytes⟩ := by decide +kernel
example : Amount.parse asciiDigit (fun s => s.map Char.toUpper) "0K".toList = .error .valueError := by decide +kernel
example : Amount.parse asciiDigit (fun s => s.map Char.toUpper) "12".toList = .error .runtimeError := by decide +kernel
example : Amount.parse asciiDigit (fun s => s.map Char.toUpper) "-1K".toList = .error .runtimeError := by decide +kernel
example : StartsWith asciiDigit "12 gB".toList "12".toList .gigabytes :=
  ⟨[' '], 'g', ['B'], by decide, by decide, by decide +kernel, .inr rfl, trivial⟩

/-- Whatever follows the unit is ignored. -/
theorem C67_trailing_counterexample :
    Amount.parse asciiDigit (fun s => s.map Char.toUpper) "5 Kangaroos".toList = .ok ⟨5, .kilobytes⟩ := by decide +kernel

end Memory
end Vista
