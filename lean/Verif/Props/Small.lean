import Mathlib.Data.Nat.Digits.Lemmas
import Verif.Model.SpanRepr
import Verif.Props.Span
import Verif.Props.Graph
import Verif.Props.AnnotatedText

/-!
# Small methods: C24 (things with a span, `repr`), C32 (the two shorthand constructors), C39 (in-degrees)
-/
set_option linter.unusedSectionVars false
set_option linter.unusedSimpArgs false
namespace Vista

/-! ## C24: `HasSpan` -/

/-- Something with a span starts, ends and contains what its span does. -/
theorem C24_has_span {I : Type} (span : I → Span) (x : I) (hx : (span x).Valid) :
    HasSpan.start span x < HasSpan.stop span x ∧
    (∀ i, HasSpan.containsOffset span x i = true ↔ HasSpan.start span x ≤ i ∧ i < HasSpan.stop span x) ∧
    (∀ a b s, Span.new a b = .ok s →
      (HasSpan.containsSpan span x s = true ↔ HasSpan.start span x ≤ a ∧ b ≤ HasSpan.stop span x)) := by
  refine ⟨(Span.valid_iff _).1 hx, fun i => Span.containsOffset_iff _ i, fun a b s hs => ?_⟩
  have h := (C24_constructible a b)
  by_cases hab : a < b
  · rw [h.1 hab] at hs
    cases hs
    exact Span.containsSpan_iff _ _
  · rw [h.2 hab] at hs
    cases hs

example : HasSpan.containsSpan (fun p : Nat × Span => p.2) (7, ⟨1, 9⟩) ⟨2, 5⟩ = true ∧
    HasSpan.containsOffset (fun p : Nat × Span => p.2) (7, ⟨1, 9⟩) 9 = false := by decide +kernel

/-! ## C24: `repr` -/

namespace Span

/-- The digits. -/
theorem digit_inj : ∀ d < 10, ∀ e < 10, Char.ofNat (48 + d) = Char.ofNat (48 + e) → d = e := by decide +kernel

theorem digit_ne : ∀ d < 10, Char.ofNat (48 + d) ≠ ':' ∧ Char.ofNat (48 + d) ≠ '-' := by decide +kernel

theorem map_digits_inj : ∀ (l m : List Nat), (∀ d ∈ l, d < 10) → (∀ d ∈ m, d < 10) →
    l.map (fun d => Char.ofNat (48 + d)) = m.map (fun d => Char.ofNat (48 + d)) → l = m := by
  intro l
  induction l with
  | nil => intro m _ _ h; cases m with
    | nil => rfl
    | cons _ _ => simp at h
  | cons a l ih =>
    intro m hl hm h
    cases m with
    | nil => simp at h
    | cons b m =>
      simp only [List.map_cons, List.cons.injEq] at h
      rw [digit_inj a (hl a (by simp)) b (hm b (by simp)) h.1, ih m (fun d hd => hl d (by simp [hd])) (fun d hd => hm d (by simp [hd])) h.2]

theorem decimalNat_digits (n : Nat) : ∃ l : List Nat, (∀ d ∈ l, d < 10) ∧ Nat.ofDigits 10 l.reverse = n ∧
    decimalNat n = l.map (fun d => Char.ofNat (48 + d)) := by
  unfold decimalNat
  by_cases h : n = 0
  · exact ⟨[0], by simp, by simp [h], by simp [h]⟩
  · exact ⟨(Nat.digits 10 n).reverse, fun d hd => Nat.digits_lt_base (by omega) (List.mem_reverse.1 hd),
      by rw [List.reverse_reverse, Nat.ofDigits_digits], by simp [h]⟩

theorem decimalNat_inj {n m : Nat} (h : decimalNat n = decimalNat m) : n = m := by
  obtain ⟨l, hl, rfl, el⟩ := decimalNat_digits n
  obtain ⟨k, hk, rfl, ek⟩ := decimalNat_digits m
  rw [el, ek] at h
  rw [map_digits_inj l k hl hk h]

theorem decimalNat_not_mem (n : Nat) : ':' ∉ decimalNat n ∧ '-' ∉ decimalNat n := by
  obtain ⟨l, hl, _, el⟩ := decimalNat_digits n
  rw [el]
  constructor
  · intro h
    obtain ⟨d, hd, e⟩ := List.mem_map.1 h
    exact (digit_ne d (hl d hd)).1 e
  · intro h
    obtain ⟨d, hd, e⟩ := List.mem_map.1 h
    exact (digit_ne d (hl d hd)).2 e

theorem decimal_inj {i j : Int} (h : decimal i = decimal j) : i = j := by
  unfold decimal at h
  by_cases hi : i < 0 <;> by_cases hj : j < 0 <;> simp only [hi, hj, if_true, if_false] at h
  · have := decimalNat_inj (List.cons.inj h).2
    omega
  · exact absurd (h ▸ List.mem_cons_self) (decimalNat_not_mem j.natAbs).2
  · exact absurd (h ▸ List.mem_cons_self) (decimalNat_not_mem i.natAbs).2
  · have := decimalNat_inj h
    omega

theorem decimal_not_mem (i : Int) : ':' ∉ decimal i := by
  unfold decimal
  split
  · intro h
    rcases List.mem_cons.1 h with h | h
    · exact absurd h (by decide)
    · exact (decimalNat_not_mem _).1 h
  · exact (decimalNat_not_mem _).1

end Span

/-- Cutting at the first separator. -/
theorem append_sep_inj {c : Char} : ∀ (a b x y : Str), c ∉ a → c ∉ b → a ++ c :: x = b ++ c :: y → a = b ∧ x = y := by
  intro a
  induction a with
  | nil =>
    intro b x y _ hb h
    cases b with
    | nil => simpa using h
    | cons d b =>
      simp only [List.nil_append, List.cons_append, List.cons.injEq] at h
      exact absurd (h.1 ▸ List.mem_cons_self) hb
  | cons d a ih =>
    intro b x y ha hb h
    cases b with
    | nil =>
      simp only [List.nil_append, List.cons_append, List.cons.injEq] at h
      exact absurd (h.1 ▸ List.mem_cons_self) ha
    | cons e b =>
      simp only [List.cons_append, List.cons.injEq] at h
      obtain ⟨h1, h2⟩ := ih b x y (fun hc => ha (List.mem_cons_of_mem _ hc)) (fun hc => hb (List.mem_cons_of_mem _ hc)) h.2
      exact ⟨by rw [h.1, h1], h2⟩

/-- Different spans have different representations. -/
theorem C24_repr (a b : Span) : a.repr = b.repr ↔ a = b := by
  refine ⟨fun h => ?_, fun h => by rw [h]⟩
  simp only [Span.repr, List.append_assoc, List.cons_append, List.nil_append, List.cons.injEq, true_and] at h
  obtain ⟨h1, h2⟩ := append_sep_inj _ _ _ _ (Span.decimal_not_mem _) (Span.decimal_not_mem _) h
  have h3 : Span.decimal a.stop = Span.decimal b.stop := List.append_cancel_right h2
  cases a
  cases b
  simp only [Span.mk.injEq]
  exact ⟨Span.decimal_inj h1, Span.decimal_inj h3⟩

example : (⟨-3, 10⟩ : Span).repr = "[-3:10)".toList ∧ (⟨0, 205⟩ : Span).repr = "[0:205)".toList := by decide +kernel

/-! ## C32: shorthand constructors -/

/-- The two shorthands make an element with this one attribute, at this span. -/
theorem C32_of_class (s : Span) (c : Str) :
    AnnotatedText.toStartTag (AnnotatedText.createDivOfClass s c) = "<div class=\"".toList ++ c ++ "\">".toList ∧
    AnnotatedText.toEndTag (AnnotatedText.createDivOfClass s c) = "</div>".toList ∧
    (AnnotatedText.createDivOfClass s c).span = s ∧
    AnnotatedText.toStartTag (AnnotatedText.createSpanOfClass s c) = "<span class=\"".toList ++ c ++ "\">".toList ∧
    AnnotatedText.toEndTag (AnnotatedText.createSpanOfClass s c) = "</span>".toList ∧
    (AnnotatedText.createSpanOfClass s c).span = s := by
  refine ⟨?_, rfl, rfl, ?_, rfl, rfl⟩
  · simp [AnnotatedText.toStartTag, AnnotatedText.createDivOfClass, stableSort, insertBy, List.intercalate]
  · simp [AnnotatedText.toStartTag, AnnotatedText.createSpanOfClass, stableSort, insertBy, List.intercalate]

/-! ## C39: in-degrees -/

/-- `in_degree()[n]` is the number of nodes with an edge to `n` (0 for something that is not a node), and iterating over
`in_degree()` gives each node once, with that number. -/
theorem C39_in_degree {N : Type} [DecidableEq N] (nodes : List N) (edges : List (N × N)) (g : Digraph N) (h : Digraph.new nodes edges = .ok g) :
    (∀ n, ∃ sources : List N, sources.Nodup ∧ (∀ p, p ∈ sources ↔ (p, n) ∈ edges) ∧ g.inDegreeOf n = sources.length) ∧
    (g.inDegree.map (·.1)).Nodup ∧ (∀ n d, (n, d) ∈ g.inDegree ↔ n ∈ nodes ∧ d = g.inDegreeOf n) := by
  obtain ⟨hok, hn, he⟩ := Digraph.new_ok h
  refine ⟨fun n => ⟨g.pred n, Digraph.nodup_pred hok n, fun p => by rw [Digraph.mem_pred, he], rfl⟩, ?_, fun n d => ?_⟩
  · have : g.inDegree.map (·.1) = g.nodes := by simp [Digraph.inDegree, List.map_map, Function.comp_def]
    rw [this]
    exact hok.nodesNodup
  · simp only [Digraph.inDegree, List.mem_map, Prod.mk.injEq, Digraph.inDegreeOf]
    constructor
    · rintro ⟨m, hm, rfl, rfl⟩
      exact ⟨(hn m).1 hm, rfl⟩
    · rintro ⟨hm, rfl⟩
      exact ⟨n, (hn n).2 hm, rfl, rfl⟩

example : ∃ g, Digraph.new [1, 2, 3] [(1, 3), (2, 3), (1, 3)] = .ok g ∧ g.inDegreeOf 3 = 2 ∧ g.inDegreeOf 9 = 0 :=
  ⟨⟨[1, 2, 3], [(1, 3), (2, 3)]⟩, rfl, by decide +kernel, by decide +kernel⟩

end Vista
