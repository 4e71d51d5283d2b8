import Verif.Props.LazyIter

/-!
# C87: `non_none`, `only` and `get_only` on any iterator
-/
namespace Vista
namespace LazyIter
variable {α : Type}

/-! ## `only`, `get_only` -/

/-- `only(it)` asks the iterator at most twice, and for the second element only if there is a first; it gives an element exactly if that is
the first answer and the iterator then ends; it raises what the iterator raises, and else `ValueError` (for elements that differ from an
object made by nobody else). -/
theorem C87_only (ne : α → Bool) (hne : ∀ x, ne x = true) (f : Source α) (p : Nat) :
    (∀ x, (onlyCall ne f p).1 = .ok x ↔ f p = .value x ∧ f (p + 1) = .stop) ∧
    ((∀ x, f p ≠ .value x) → (onlyCall ne f p).2 = p + 1) ∧ ((∃ x, f p = .value x) → (onlyCall ne f p).2 = p + 2) ∧
    (∀ e, (onlyCall ne f p).1 = .error e ↔ f p = .raise e ∨ (∃ x, f p = .value x ∧ f (p + 1) = .raise e) ∨
      e = .valueError ∧ (f p = .stop ∨ ∃ x y, f p = .value x ∧ f (p + 1) = .value y)) := by
  unfold onlyCall
  cases h0 : f p with
  | stop => simp [eq_comm]
  | raise e => simp [eq_comm]
  | value x =>
    cases h1 : f (p + 1) with
    | stop => simp
    | raise e => simp [eq_comm]
    | value y => simp [hne, eq_comm]

/-- The same of `get_only`, whatever the elements are. -/
theorem C87_get_only (f : Source α) (p : Nat) :
    (∀ x, (getOnlyCall f p).1 = .ok x ↔ f p = .value x ∧ f (p + 1) = .stop) ∧
    ((∀ x, f p ≠ .value x) → (getOnlyCall f p).2 = p + 1) ∧ ((∃ x, f p = .value x) → (getOnlyCall f p).2 = p + 2) ∧
    (∀ e, (getOnlyCall f p).1 = .error e ↔ f p = .raise e ∨ (∃ x, f p = .value x ∧ f (p + 1) = .raise e) ∨
      e = .valueError ∧ (f p = .stop ∨ ∃ x y, f p = .value x ∧ f (p + 1) = .value y)) := by
  unfold getOnlyCall
  cases h0 : f p with
  | stop => simp [eq_comm]
  | raise e => simp [eq_comm]
  | value x =>
    cases h1 : f (p + 1) with
    | stop => simp
    | raise e => simp [eq_comm]
    | value y => simp [eq_comm]

/-! ## `non_none` -/

theorem nonNoneCall_lt {f : Source (Option α)} {p q : Nat} {a : Answer α} (h : NonNoneCall f p a q) : p < q := by
  induction h <;> omega

/-- The answer of the underlying iterator. -/
def Answer.below : Answer α → Answer (Option α)
  | .value x => .value (some x)
  | .stop => .stop
  | .raise e => .raise e

/-- The elements in an answer. -/
def Answer.elements : Answer α → List α
  | .value x => [x]
  | .stop => []
  | .raise _ => []

theorem nonNoneCall_spec {f : Source (Option α)} {p q : Nat} {a : Answer α} (h : NonNoneCall f p a q) :
    ∃ r, q = r + 1 ∧ p ≤ r ∧ (∀ i, p ≤ i → i < r → f i = .value none) ∧
      f r = a.below := by
  induction h with
  | @skip p q a h0 _ ih =>
    obtain ⟨r, hq, hr, hn, ha⟩ := ih
    refine ⟨r, hq, by omega, fun i h1 h2 => ?_, ha⟩
    by_cases hi : i = p
    · subst hi; exact h0
    · exact hn i (by omega) h2
  | value h0 => exact ⟨_, rfl, le_refl _, fun i h1 h2 => by omega, h0⟩
  | stop h0 => exact ⟨_, rfl, le_refl _, fun i h1 h2 => by omega, h0⟩
  | raise h0 => exact ⟨_, rfl, le_refl _, fun i h1 h2 => by omega, h0⟩

theorem nonNoneCall_given {f : Source (Option α)} {p q : Nat} {a : Answer α} (h : NonNoneCall f p a q) :
    (given f p q).filterMap id = a.elements := by
  induction h with
  | skip h0 h1 ih =>
    rw [given_split f (Nat.le_succ _) (nonNoneCall_lt h1).le, given_value h0, List.filterMap_append, ih]
    rfl
  | value h0 => rw [given_value h0]; rfl
  | stop h0 => rw [given_stop h0]; rfl
  | raise h0 => rw [given_raise h0]; rfl

/-- A call of `next` on `non_none(it)` returns exactly if `it` has still something other than `None` to answer. -/
theorem C87_non_none_returns (f : Source (Option α)) (p : Nat) :
    (∃ a q, NonNoneCall f p a q) ↔ ∃ i, p ≤ i ∧ f i ≠ .value none := by
  constructor
  · rintro ⟨a, q, h⟩
    obtain ⟨r, -, hr, -, ha⟩ := nonNoneCall_spec h
    refine ⟨r, hr, fun hn => ?_⟩
    cases a <;> simp [hn, Answer.below] at ha
  · rintro ⟨i, hi, hf⟩
    obtain ⟨d, rfl⟩ := Nat.exists_eq_add_of_le hi
    induction d generalizing p with
    | zero =>
      cases h0 : f p with
      | stop => exact ⟨_, _, .stop h0⟩
      | raise e => exact ⟨_, _, .raise h0⟩
      | value x =>
        cases x with
        | none => exact absurd h0 hf
        | some x => exact ⟨_, _, .value h0⟩
    | succ d ih =>
      cases h0 : f p with
      | stop => exact ⟨_, _, .stop h0⟩
      | raise e => exact ⟨_, _, .raise h0⟩
      | value x =>
        cases x with
        | some x => exact ⟨_, _, .value h0⟩
        | none =>
          obtain ⟨a, q, h⟩ := ih (p + 1) (by omega) (by rwa [show p + 1 + d = p + (d + 1) by omega])
          exact ⟨a, q, .skip h0 h⟩

theorem nonNoneCall_unique {f : Source (Option α)} {p q q' : Nat} {a a' : Answer α} (h : NonNoneCall f p a q) (h' : NonNoneCall f p a' q') :
    a = a' ∧ q = q' := by
  induction h with
  | skip h0 _ ih =>
    cases h' with
    | skip _ h1 => exact ih h1
    | value h1 => rw [h0] at h1; cases h1
    | stop h1 => rw [h0] at h1; cases h1
    | raise h1 => rw [h0] at h1; cases h1
  | value h0 =>
    cases h' with
    | skip h1 _ => rw [h0] at h1; cases h1
    | value h1 => rw [h0] at h1; cases h1; exact ⟨rfl, rfl⟩
    | stop h1 => rw [h0] at h1; cases h1
    | raise h1 => rw [h0] at h1; cases h1
  | stop h0 =>
    cases h' with
    | skip h1 _ => rw [h0] at h1; cases h1
    | value h1 => rw [h0] at h1; cases h1
    | stop h1 => exact ⟨rfl, rfl⟩
    | raise h1 => rw [h0] at h1; cases h1
  | raise h0 =>
    cases h' with
    | skip h1 _ => rw [h0] at h1; cases h1
    | value h1 => rw [h0] at h1; cases h1
    | stop h1 => rw [h0] at h1; cases h1
    | raise h1 => rw [h0] at h1; cases h1; exact ⟨rfl, rfl⟩

/-- Every schedule can be run, with one outcome, if the iterator never gives endlessly many `None`s. -/
theorem C87_non_none_runs (f : Source (Option α)) (hf : ∀ p, ∃ i, p ≤ i ∧ f i ≠ .value none) (sched : List Bool) :
    ∃! tr, NonNoneRun f false 0 sched tr := by
  have main : ∀ (sched : List Bool) (o : Bool) (p : Nat), ∃! tr, NonNoneRun f o p sched tr := by
    intro sched
    induction sched with
    | nil => exact fun o p => ⟨[], .nil, fun tr h => by cases h; rfl⟩
    | cons d sched ih =>
      intro o p
      cases d with
      | false =>
        obtain ⟨tr, h, hu⟩ := ih o (p + 1)
        refine ⟨_, .direct h, fun tr' h' => ?_⟩
        cases h' with
        | direct h'' => rw [hu _ h'']
      | true =>
        cases o with
        | true =>
          obtain ⟨tr, h, hu⟩ := ih true p
          refine ⟨_, .ended h, fun tr' h' => ?_⟩
          cases h' with
          | ended h'' => rw [hu _ h'']
        | false =>
          obtain ⟨a, q, hc⟩ := (C87_non_none_returns f p).2 (hf p)
          by_cases hv : ∃ x, a = .value x
          · obtain ⟨x, rfl⟩ := hv
            obtain ⟨tr, h, hu⟩ := ih false q
            refine ⟨_, .gives hc h, fun tr' h' => ?_⟩
            cases h' with
            | gives hc' h'' =>
              obtain ⟨e1, e2⟩ := nonNoneCall_unique hc hc'
              cases e1; subst e2; rw [hu _ h'']
            | ends hc' hn _ => exact absurd (nonNoneCall_unique hc hc').1.symm (hn x)
          · have hv : ∀ x, a ≠ .value x := fun x hx => hv ⟨x, hx⟩
            obtain ⟨tr, h, hu⟩ := ih true q
            refine ⟨_, .ends hc hv h, fun tr' h' => ?_⟩
            cases h' with
            | gives hc' _ => exact absurd (nonNoneCall_unique hc hc').1 (hv _)
            | ends hc' _ h'' =>
              obtain ⟨e1, e2⟩ := nonNoneCall_unique hc hc'
              subst e1; subst e2; rw [hu _ h'']
  exact main sched false 0

theorem nonNoneRun_over {f : Source (Option α)} {p : Nat} {sched : List Bool} {tr : List (Event (Option α) α)} (h : NonNoneRun f true p sched tr) :
    ∀ y c d, Event.derived y c d ∈ tr → y = .stop ∧ d = c := by
  generalize ho : true = o at h
  induction h with
  | nil => simp
  | direct _ ih => intro y c d hm; simp only [List.mem_cons, reduceCtorEq, false_or] at hm; exact ih ho y c d hm
  | gives => cases ho
  | ends => cases ho
  | ended _ ih =>
    intro y c d hm
    rcases List.mem_cons.1 hm with hm | hm
    · cases hm; exact ⟨rfl, rfl⟩
    · exact ih ho y c d hm

/-- However a program uses `non_none(it)` and `it` itself: what the generator gives are the elements it took that are not `None`, in
order; for each request it takes elements only up to the first that is not `None`; it ends or raises only because `it` does, and then
leaves `it` alone; no call of `it` is lost or made twice, and the program's own calls get what `it` answers. -/
theorem C87_non_none {f : Source (Option α)} {sched : List Bool} {tr : List (Event (Option α) α)} (h : NonNoneRun f false 0 sched tr) :
    results tr = (taken f tr).filterMap id ∧
    (∀ x a b, Event.derived (.value x) a b ∈ tr → ∃ r, b = r + 1 ∧ a ≤ r ∧ f r = .value (some x) ∧ ∀ i, a ≤ i → i < r → f i = .value none) ∧
    (∀ e, Raised tr e → ∃ i, f i = .raise e) ∧
    (Stopped tr → (∃ e, Raised tr e) ∨ ∃ i, f i = .stop) ∧
    (¬ Stopped tr → (∀ e, ¬ Raised tr e) → (results tr).length = asked tr) ∧
    Contiguous 0 tr ∧ (∀ x a b, Event.direct x a b ∈ tr → x = f a) ∧ QuietAfterEnd tr := by
  have main : ∀ {o : Bool} {p : Nat} {sched : List Bool} {tr : List (Event (Option α) α)}, NonNoneRun f o p sched tr →
      results tr = (taken f tr).filterMap id ∧
      (∀ x a b, Event.derived (.value x) a b ∈ tr → ∃ r, b = r + 1 ∧ a ≤ r ∧ f r = .value (some x) ∧ ∀ i, a ≤ i → i < r → f i = .value none) ∧
      (∀ e, Raised tr e → ∃ i, f i = .raise e) ∧
      (o = false → Stopped tr → (∃ e, Raised tr e) ∨ ∃ i, f i = .stop) ∧
      (o = false → ¬ Stopped tr → (∀ e, ¬ Raised tr e) → (results tr).length = asked tr) ∧
      Contiguous p tr ∧ (∀ x a b, Event.direct x a b ∈ tr → x = f a) ∧ QuietAfterEnd tr := by
    intro o p sched tr h
    induction h with
    | nil =>
      refine ⟨rfl, by simp, by simp [Raised], by simp [Stopped], fun _ _ _ => rfl, trivial, by simp, ?_⟩
      intro pre x a b post h; simp at h
    | @direct o p sched tr h ih =>
      obtain ⟨i1, i2, i3, i4, i5, i6, i7, i8⟩ := ih
      have hr : ∀ e, Raised (Event.direct (β := α) (f p) p (p + 1) :: tr) e ↔ Raised tr e := fun e => by simp [Raised]
      have hs : Stopped (Event.direct (β := α) (f p) p (p + 1) :: tr) ↔ Stopped tr := by simp [Stopped]
      have ht : taken f (Event.direct (β := α) (f p) p (p + 1) :: tr) = taken f tr := by simp [taken]
      have hres : results (Event.direct (β := α) (f p) p (p + 1) :: tr) = results tr := by simp [results]
      have has : asked (Event.direct (β := α) (f p) p (p + 1) :: tr) = asked tr := by simp [asked]
      refine ⟨by rw [ht, hres, i1], ?_, ?_, ?_, ?_, ⟨rfl, rfl, i6⟩, ?_, ?_⟩
      · intro x a b hm; exact i2 x a b (by simpa using hm)
      · intro e he; exact i3 e ((hr e).1 he)
      · intro ho hst; rw [hs] at hst; simpa only [hr] using i4 ho hst
      · intro ho hst hra; rw [hres, has]; exact i5 ho (by rwa [hs] at hst) (by simpa only [hr] using hra)
      · intro x a b hm
        rcases List.mem_cons.1 hm with hm | hm
        · cases hm; rfl
        · exact i7 x a b hm
      · intro pre x a b post he hx
        cases pre with
        | nil => simp at he
        | cons e pre =>
          simp only [List.cons_append, List.cons.injEq] at he
          exact i8 pre x a b post he.2 hx
    | @gives p q x sched tr hc h ih =>
      obtain ⟨i1, i2, i3, i4, i5, i6, i7, i8⟩ := ih
      have hr : ∀ e, Raised (Event.derived (α := Option α) (.value x) p q :: tr) e ↔ Raised tr e := fun e => by simp [Raised]
      have hs : Stopped (Event.derived (α := Option α) (.value x) p q :: tr) ↔ Stopped tr := by simp [Stopped]
      have ht : taken f (Event.derived (.value x) p q :: tr) = given f p q ++ taken f tr := by simp [taken]
      have hres : results (Event.derived (α := Option α) (.value x) p q :: tr) = x :: results tr := by simp [results]
      have has : asked (Event.derived (α := Option α) (.value x) p q :: tr) = asked tr + 1 := by simp [asked]
      refine ⟨?_, ?_, ?_, ?_, ?_, ⟨rfl, (nonNoneCall_lt hc).le, i6⟩, ?_, ?_⟩
      · rw [ht, hres, List.filterMap_append, nonNoneCall_given hc, i1]; rfl
      · intro y a b hm
        rcases List.mem_cons.1 hm with hm | hm
        · cases hm
          obtain ⟨r, h1, h2, h3, h4⟩ := nonNoneCall_spec hc
          exact ⟨r, h1, h2, h4, h3⟩
        · exact i2 y a b hm
      · intro e he; exact i3 e ((hr e).1 he)
      · intro ho hst; rw [hs] at hst; simpa only [hr] using i4 ho hst
      · intro ho hst hra; rw [hres, has, List.length_cons, i5 ho (by rwa [hs] at hst) (by simpa only [hr] using hra)]
      · intro y a b hm; exact i7 y a b (by simpa using hm)
      · intro pre y a b post he hx
        cases pre with
        | nil =>
          simp only [List.nil_append, List.cons.injEq, Event.derived.injEq] at he
          exact absurd he.1.1.symm (hx x)
        | cons e pre =>
          simp only [List.cons_append, List.cons.injEq] at he
          exact i8 pre y a b post he.2 hx
    | @ends p q a sched tr hc ha h ih =>
      obtain ⟨i1, i2, i3, i4, i5, i6, i7, i8⟩ := ih
      have ht : taken f (Event.derived a p q :: tr) = given f p q ++ taken f tr := by simp [taken]
      have hg : (given f p q).filterMap id = [] := by
        rw [nonNoneCall_given hc]
        cases a with
        | value x => exact absurd rfl (ha x)
        | stop => rfl
        | raise e => rfl
      have hres : results (Event.derived (α := Option α) a p q :: tr) = results tr := by
        cases a with
        | value x => exact absurd rfl (ha x)
        | stop => simp [results]
        | raise e => simp [results]
      obtain ⟨r, hq, hr1, hn, hfin⟩ := nonNoneCall_spec hc
      refine ⟨?_, ?_, ?_, ?_, ?_, ⟨rfl, (nonNoneCall_lt hc).le, i6⟩, ?_, ?_⟩
      · rw [ht, hres, List.filterMap_append, hg, i1]; rfl
      · intro y c b hm
        rcases List.mem_cons.1 hm with hm | hm
        · cases hm; exact absurd rfl (ha y)
        · exact i2 y c b hm
      · rintro e ⟨c, d, he⟩
        rcases List.mem_cons.1 he with he | he
        · cases he; exact ⟨r, hfin⟩
        · exact i3 e ⟨c, d, he⟩
      · intro _ _
        cases a with
        | value x => exact absurd rfl (ha x)
        | stop => exact .inr ⟨r, hfin⟩
        | raise e => exact .inl ⟨e, p, q, List.mem_cons_self⟩
      · intro _ hst hra
        cases a with
        | value x => exact absurd rfl (ha x)
        | stop => exact absurd ⟨p, q, List.mem_cons_self⟩ hst
        | raise e => exact absurd ⟨p, q, List.mem_cons_self⟩ (hra e)
      · intro y c b hm; exact i7 y c b (by simpa using hm)
      · intro pre y c b post he hx
        cases pre with
        | nil =>
          simp only [List.nil_append, List.cons.injEq] at he
          rw [← he.2]; exact nonNoneRun_over h
        | cons e pre =>
          simp only [List.cons_append, List.cons.injEq] at he
          exact i8 pre y c b post he.2 hx
    | @ended p sched tr h ih =>
      obtain ⟨i1, i2, i3, i4, i5, i6, i7, i8⟩ := ih
      have hr : ∀ e, Raised (Event.derived (α := Option α) (β := α) .stop p p :: tr) e ↔ Raised tr e := fun e => by simp [Raised]
      have ht : taken f (Event.derived (β := α) .stop p p :: tr) = taken f tr := by simp [taken, given_self]
      have hres : results (Event.derived (α := Option α) (β := α) .stop p p :: tr) = results tr := by simp [results]
      refine ⟨by rw [ht, hres, i1], ?_, ?_, (by simp), (by simp), ⟨rfl, le_refl _, i6⟩, ?_, ?_⟩
      · intro y c b hm; exact i2 y c b (by simpa using hm)
      · intro e he; exact i3 e ((hr e).1 he)
      · intro y c b hm; exact i7 y c b (by simpa using hm)
      · intro pre y c b post he hx
        cases pre with
        | nil =>
          simp only [List.nil_append, List.cons.injEq] at he
          rw [← he.2]; exact nonNoneRun_over h
        | cons e pre =>
          simp only [List.cons_append, List.cons.injEq] at he
          exact i8 pre y c b post he.2 hx
  obtain ⟨i1, i2, i3, i4, i5, i6⟩ := main h
  exact ⟨i1, i2, i3, i4 rfl, i5 rfl, i6⟩

/-! ## Examples -/
namespace Example

/-- `None`, 1, `None`, `None`, 4, `None`, … -/
def gaps : Source (Option Nat) := fun i => if i % 3 = 1 then .value (some i) else .value none

example : ∀ p, ∃ i, p ≤ i ∧ gaps i ≠ .value none := fun p => ⟨3 * p + 1, by omega, by simp [gaps]⟩
example : ∃ tr, NonNoneRun gaps false 0 [true, false, true] tr ∧ results tr = [1, 4] ∧ taken gaps tr = [none, some 1, none, some 4] :=
  ⟨_, .gives (.skip rfl (.value rfl)) (.direct (.gives (.skip rfl (.value rfl)) .nil)), by decide +kernel, by decide +kernel⟩
/-- Endless `None`s: the call never returns. -/
example : ¬ ∃ a q, NonNoneCall (fun _ => .value (none : Option Nat)) 0 a q := by
  rw [C87_non_none_returns]; simp
example : getOnlyCall nats 0 = (.error .valueError, 2) := rfl
example : onlyCall (fun _ => true) bad 2 = (.error .keyError, 4) := rfl
example : onlyCall (fun _ => true) three 2 = (.ok 2, 4) := rfl

end Example
end LazyIter
end Vista
