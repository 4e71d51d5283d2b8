import Verif.Props.IterUtils
import Verif.Spec.LazyIter
import Mathlib.Data.List.Induction

/-!
# Property C87: `windowed` and `drop` on an iterator that is endless, raises, or is also used directly
-/
set_option linter.unusedSectionVars false
set_option linter.unusedSimpArgs false
namespace Vista
namespace LazyIter
open IterUtils (dequeOf dequeAppend popleft)
variable {α β σ : Type}

/-! ## Lemmas about the specification -/

theorem given_self (f : Source α) (a : Nat) : given f a a = [] := by simp [given]

theorem given_succ (f : Source α) {a b : Nat} (h : a ≤ b) : given f a (b + 1) = given f a b ++ given f b (b + 1) := by
  unfold given
  have e1 : b + 1 - a = (b - a) + 1 := by omega
  have e2 : b + 1 - b = 1 := by omega
  rw [e1, e2, List.range'_concat, List.filterMap_append]
  have : a + 1 * (b - a) = b := by omega
  rw [this]
  rfl

theorem given_value {f : Source α} {a : Nat} {x : α} (h : f a = .value x) : given f a (a + 1) = [x] := by
  simp [given, h]
theorem given_stop {f : Source α} {a : Nat} (h : f a = .stop) : given f a (a + 1) = [] := by
  simp [given, h]
theorem given_raise {f : Source α} {a : Nat} {e : Exc} (h : f a = .raise e) : given f a (a + 1) = [] := by
  simp [given, h]

theorem given_split (f : Source α) {a b c : Nat} (h1 : a ≤ b) (h2 : b ≤ c) : given f a c = given f a b ++ given f b c := by
  obtain ⟨k, rfl⟩ := Nat.exists_eq_add_of_le h2
  clear h2
  induction k with
  | zero => simp [given_self]
  | succ k ih =>
    rw [← Nat.add_assoc, given_succ f (by omega), ih, given_succ f (by omega : b ≤ b + k), List.append_assoc]

theorem taken_snoc_derived (f : Source α) (tr : List (Event α β)) (x : Answer β) (a b : Nat) :
    taken f (tr ++ [.derived x a b]) = taken f tr ++ given f a b := by simp [taken]
theorem taken_snoc_direct (f : Source α) (tr : List (Event α β)) (x : Answer α) (a b : Nat) :
    taken f (tr ++ [.direct x a b]) = taken f tr := by simp [taken]
theorem results_snoc_value (tr : List (Event α β)) (x : β) (a b : Nat) :
    results (tr ++ [.derived (.value x) a b]) = results tr ++ [x] := by simp [results]
theorem results_snoc_stop (tr : List (Event α β)) (a b : Nat) :
    results (tr ++ [.derived .stop a b]) = results tr := by simp [results]
theorem results_snoc_raise (tr : List (Event α β)) (e : Exc) (a b : Nat) :
    results (tr ++ [.derived (.raise e) a b]) = results tr := by simp [results]
theorem results_snoc_direct (tr : List (Event α β)) (x : Answer α) (a b : Nat) :
    results (tr ++ [.direct x a b]) = results tr := by simp [results]
theorem asked_snoc_derived (tr : List (Event α β)) (x : Answer β) (a b : Nat) :
    asked (tr ++ [.derived x a b]) = asked tr + 1 := by simp [asked]
theorem asked_snoc_direct (tr : List (Event α β)) (x : Answer α) (a b : Nat) :
    asked (tr ++ [.direct x a b]) = asked tr := by simp [asked]

theorem takeUpTo_spec (f : Source α) (n p : Nat) :
    p ≤ (takeUpTo f n p).2.1 ∧ given f p (takeUpTo f n p).2.1 = (takeUpTo f n p).1 ∧ (takeUpTo f n p).1.length ≤ n ∧
    ((takeUpTo f n p).2.2 = none → (takeUpTo f n p).1.length < n → ∃ i, i < (takeUpTo f n p).2.1 ∧ f i = .stop) ∧
    (∀ e, (takeUpTo f n p).2.2 = some e → (takeUpTo f n p).1.length < n ∧ ∃ i, f i = .raise e) := by
  induction n generalizing p with
  | zero => simp [takeUpTo, given_self]
  | succ n ih =>
    unfold takeUpTo
    cases hf : f p with
    | value x =>
      obtain ⟨h1, h2, h3, h4, h5⟩ := ih (p + 1)
      simp only
      refine ⟨by omega, ?_, by simpa using h3, ?_, ?_⟩
      · rw [given_split f (Nat.le_succ p) h1, given_value hf, h2]; rfl
      · intro a b; exact h4 a (by simpa using b)
      · intro e he
        obtain ⟨a, b⟩ := h5 e he
        exact ⟨by simpa using a, b⟩
    | stop => simp only; exact ⟨by omega, given_stop hf, by simp, fun _ _ => ⟨p, by omega, hf⟩, by simp⟩
    | raise e => simp only; exact ⟨by omega, given_raise hf, by simp, by simp, fun e' he => ⟨by simp, p, by cases he; exact hf⟩⟩

/-! ## Facts about any derived iterator -/

/-- What the events of any schedule have in common. -/
structure Plain (f : Source α) (wd : World α β σ) : Prop where
  contiguous : Contiguous 0 wd.trace ∧ (∀ tr : List (Event α β), Contiguous wd.pos tr → Contiguous 0 (wd.trace ++ tr))
  direct : ∀ x a b, Event.direct x a b ∈ wd.trace → x = f a

theorem plain_run (f : Source α) (next : σ → Nat → Answer β × σ × Nat) (hmono : ∀ s p, p ≤ (next s p).2.2) (it : σ) (sched : List Bool) :
    Plain f (runSchedule f next it sched) := by
  unfold runSchedule
  suffices ∀ wd : World α β σ, Plain f wd → Plain f (sched.foldl (World.step f next) wd) from
    this _ ⟨⟨trivial, fun tr h => h⟩, by simp⟩
  induction sched with
  | nil => exact fun wd h => h
  | cons d sched ih =>
    intro wd h
    refine ih _ ?_
    obtain ⟨⟨c1, c2⟩, h3⟩ := h
    cases d with
    | true =>
      simp only [World.step, if_true]
      refine ⟨⟨c2 _ ⟨rfl, hmono _ _, trivial⟩, fun tr ht => ?_⟩, ?_⟩
      · rw [List.append_assoc]; exact c2 _ ⟨rfl, hmono _ _, ht⟩
      · intro x a b hm
        simp only [List.mem_append, List.mem_singleton, reduceCtorEq, or_false] at hm
        exact h3 x a b hm
    | false =>
      simp only [World.step, Bool.false_eq_true, if_false]
      refine ⟨⟨c2 _ ⟨rfl, rfl, trivial⟩, fun tr ht => ?_⟩, ?_⟩
      · rw [List.append_assoc]; exact c2 _ ⟨rfl, rfl, ht⟩
      · intro x a b hm
        simp only [List.mem_append, List.mem_singleton, Event.direct.injEq] at hm
        rcases hm with hm | ⟨rfl, rfl, rfl⟩
        · exact h3 x a b hm
        · rfl

theorem drainStep_state (n : Nat) (win : List α) (h : (drainStep n win).1 = .stop) : (drainStep n win).2 = .over := by
  cases n with
  | zero => rfl
  | succ n =>
    cases win with
    | nil => rfl
    | cons x win =>
      simp only [drainStep, popleft] at h ⊢
      split
      · rfl
      · rename_i hh; simp [hh] at h

/-! ## The generator of `windowed` -/

/-- The first `n` windows of `T`. -/
def wins (T : List α) (w n : Nat) : List (List α) := (List.range n).map fun i => (T.drop i).take w

theorem wins_succ (T : List α) (w n : Nat) : wins T w (n + 1) = wins T w n ++ [(T.drop n).take w] := by
  simp [wins, List.range_succ]

theorem wins_append (T u : List α) (w n : Nat) (h : n + w ≤ T.length + 1) : wins (T ++ u) w n = wins T w n := by
  unfold wins
  refine List.map_congr_left fun i hi => ?_
  have hi := List.mem_range.1 hi
  rw [List.drop_append_of_le_length (by omega), List.take_append_of_le_length (by simp; omega)]

/-- The invariant. -/
structure WinInv (f : Source α) (w : Nat) (p : Bool) (wd : World α (List α) (WinState α)) : Prop where
  windows : results wd.trace = wins (taken f wd.trace) w (results wd.trace).length
  lazy : (taken f wd.trace).length < (results wd.trace).length + w
  raises : ∀ e, Raised wd.trace e → ∃ i, f i = .raise e
  live : wd.it ≠ .over → ¬ Stopped wd.trace ∧ (∀ e, ¬ Raised wd.trace e) ∧ asked wd.trace = (results wd.trace).length
  state : match wd.it with
    | .fresh => results wd.trace = [] ∧ taken f wd.trace = []
    | .running win => 1 ≤ (results wd.trace).length ∧ win = ((taken f wd.trace).drop ((results wd.trace).length - 1)).take w ∧
        win ≠ [] ∧ ((taken f wd.trace).length + 1 = (results wd.trace).length + w ∨
          (p = true ∧ (results wd.trace).length = 1 ∧ ∃ i, i < wd.pos ∧ f i = .stop))
    | .draining l win => p = true ∧ 1 ≤ (results wd.trace).length ∧ win = (taken f wd.trace).drop ((results wd.trace).length - 1) ∧
        win ≠ [] ∧ win.length ≤ l + 1 ∧ ∃ i, f i = .stop
    | .over => (∃ e, Raised wd.trace e) ∨
        ((results wd.trace).length = (if p then (taken f wd.trace).length else (taken f wd.trace).length + 1 - w) ∧
          (∃ i, f i = .stop))

theorem stopped_snoc {tr : List (Event α β)} {ev : Event α β} : Stopped (tr ++ [ev]) ↔ Stopped tr ∨ ∃ a b, ev = .derived .stop a b := by
  simp only [Stopped, List.mem_append, List.mem_singleton]
  constructor
  · rintro ⟨a, b, h | h⟩
    · exact .inl ⟨a, b, h⟩
    · exact .inr ⟨a, b, h.symm⟩
  · rintro (⟨a, b, h⟩ | ⟨a, b, h⟩)
    · exact ⟨a, b, .inl h⟩
    · exact ⟨a, b, .inr h.symm⟩

theorem raised_snoc {tr : List (Event α β)} {ev : Event α β} {e : Exc} :
    Raised (tr ++ [ev]) e ↔ Raised tr e ∨ ∃ a b, ev = .derived (.raise e) a b := by
  simp only [Raised, List.mem_append, List.mem_singleton]
  constructor
  · rintro ⟨a, b, h | h⟩
    · exact .inl ⟨a, b, h⟩
    · exact .inr ⟨a, b, h.symm⟩
  · rintro (⟨a, b, h⟩ | ⟨a, b, h⟩)
    · exact ⟨a, b, .inl h⟩
    · exact ⟨a, b, .inr h.symm⟩

/-- One more direct call. -/
theorem WinInv.direct {f : Source α} {w : Nat} {p : Bool} {wd : World α (List α) (WinState α)} (h : WinInv f w p wd) :
    WinInv f w p (wd.step f (winStep f w p) false) := by
  obtain ⟨h1, h2, h3, h4, h5⟩ := h
  simp only [World.step, Bool.false_eq_true, if_false]
  refine ⟨?_, ?_, ?_, ?_, ?_⟩
  · simp only [taken_snoc_direct, results_snoc_direct]; exact h1
  · simp only [taken_snoc_direct, results_snoc_direct]; exact h2
  · intro e he
    rw [raised_snoc] at he
    rcases he with he | ⟨a, b, he⟩
    · exact h3 e he
    · cases he
  · intro ho
    obtain ⟨a1, a2, a3⟩ := h4 ho
    refine ⟨?_, fun e => ?_, ?_⟩
    · rw [stopped_snoc]; rintro (he | ⟨a, b, he⟩)
      · exact a1 he
      · cases he
    · rw [raised_snoc]; rintro (he | ⟨a, b, he⟩)
      · exact a2 e he
      · cases he
    · rw [asked_snoc_direct, results_snoc_direct]; exact a3
  · simp only [taken_snoc_direct, results_snoc_direct]
    cases hit : wd.it with
    | fresh => rw [hit] at h5; exact h5
    | running win =>
      rw [hit] at h5
      simp only at h5 ⊢
      refine ⟨h5.1, h5.2.1, h5.2.2.1, ?_⟩
      rcases h5.2.2.2 with h | ⟨a, b, i, hi, c⟩
      · exact .inl h
      · exact .inr ⟨a, b, i, by omega, c⟩
    | draining l win => rw [hit] at h5; exact h5
    | over =>
      rw [hit] at h5
      simp only at h5 ⊢
      rcases h5 with ⟨e, he⟩ | h
      · exact .inl ⟨e, raised_snoc.2 (.inl he)⟩
      · exact .inr h

/-- A step that ends the generator. -/
theorem WinInv.ends {f : Source α} {w : Nat} {p : Bool} {wd : World α (List α) (WinState α)} {q : Nat}
    (h : WinInv f w p wd) (hg : given f wd.pos q = [])
    (hfin : (∃ e, Raised wd.trace e) ∨
        ((results wd.trace).length = (if p then (taken f wd.trace).length else (taken f wd.trace).length + 1 - w) ∧ (∃ i, f i = .stop))) :
    WinInv f w p ⟨.over, q, wd.trace ++ [.derived .stop wd.pos q]⟩ := by
  obtain ⟨h1, h2, h3, h4, h5⟩ := h
  refine ⟨?_, ?_, ?_, ?_, ?_⟩
  · simp only [taken_snoc_derived, results_snoc_stop, hg, List.append_nil]; exact h1
  · simp only [taken_snoc_derived, results_snoc_stop, hg, List.append_nil]; exact h2
  · intro e he
    rw [raised_snoc] at he
    rcases he with he | ⟨a, b, he⟩
    · exact h3 e he
    · cases he
  · simp
  · simp only [taken_snoc_derived, results_snoc_stop, hg, List.append_nil]
    rcases hfin with ⟨e, he⟩ | h
    · exact .inl ⟨e, raised_snoc.2 (.inl he)⟩
    · exact .inr h

/-- A step that gives the next window. -/
theorem WinInv.yields {f : Source α} {w : Nat} {p : Bool} {wd : World α (List α) (WinState α)} {q : Nat} {win : List α} {s : WinState α}
    (h : WinInv f w p wd) (ho : wd.it ≠ .over) (hg : given f wd.pos q = [])
    (hwin : win = ((taken f wd.trace).drop (results wd.trace).length).take w)
    (hs : match s with
      | .fresh => False
      | .running _ => False
      | .draining l win' => p = true ∧ win' = (taken f wd.trace).drop (results wd.trace).length ∧ win' ≠ [] ∧ win'.length ≤ l + 1 ∧
          ∃ i, f i = .stop
      | .over => False) :
    WinInv f w p ⟨s, q, wd.trace ++ [.derived (.value win) wd.pos q]⟩ := by
  obtain ⟨h1, h2, h3, h4, h5⟩ := h
  obtain ⟨a1, a2, a3⟩ := h4 ho
  refine ⟨?_, ?_, ?_, ?_, ?_⟩
  · simp only [taken_snoc_derived, results_snoc_value, hg, List.append_nil, List.length_append, List.length_singleton]
    rw [wins_succ, ← h1, hwin]
  · simp only [taken_snoc_derived, results_snoc_value, hg, List.append_nil, List.length_append, List.length_singleton]
    omega
  · intro e he
    rw [raised_snoc] at he
    rcases he with he | ⟨a, b, he⟩
    · exact h3 e he
    · cases he
  · intro _
    refine ⟨?_, fun e => ?_, ?_⟩
    · rw [stopped_snoc]; rintro (he | ⟨a, b, he⟩)
      · exact a1 he
      · cases he
    · rw [raised_snoc]; rintro (he | ⟨a, b, he⟩)
      · exact a2 e he
      · cases he
    · simp only [asked_snoc_derived, results_snoc_value, List.length_append, List.length_singleton, a3]
  · simp only [taken_snoc_derived, results_snoc_value, hg, List.append_nil, List.length_append, List.length_singleton]
    cases s with
    | fresh => exact hs.elim
    | running _ => exact hs.elim
    | draining l win' =>
      simp only at hs ⊢
      refine ⟨hs.1, by omega, ?_, hs.2.2⟩
      rw [hs.2.1]; congr 1
    | over => exact hs.elim

theorem WinInv.drains {f : Source α} {w : Nat} {wd : World α (List α) (WinState α)} {q l : Nat} {win : List α}
    (h : WinInv f w true wd) (ho : wd.it ≠ .over) (hg : given f wd.pos q = []) (hn : 1 ≤ (results wd.trace).length)
    (hw : win = (taken f wd.trace).drop ((results wd.trace).length - 1)) (hne : win ≠ []) (hl : win.length ≤ l + 1)
    (hstop : ∃ i, f i = .stop) :
    WinInv f w true ⟨(drainStep l win).2, q, wd.trace ++ [.derived (drainStep l win).1 wd.pos q]⟩ := by
  have hlen : win.length = (taken f wd.trace).length - ((results wd.trace).length - 1) := by rw [hw]; simp
  have hpos : 0 < win.length := List.length_pos_of_ne_nil hne
  have hlazy := h.lazy
  cases win with
  | nil => exact absurd rfl hne
  | cons x win =>
    have hx : win = (taken f wd.trace).drop (results wd.trace).length := by
      have : (x :: win).tail = ((taken f wd.trace).drop ((results wd.trace).length - 1)).tail := by rw [← hw]
      rw [List.tail_drop] at this
      simp only [List.tail_cons] at this
      rw [this]; congr 1; omega
    simp only [List.length_cons] at hlen hl hpos
    cases l with
    | zero => exact h.ends hg (.inr ⟨by simp only [if_true]; omega, hstop⟩)
    | succ l =>
      simp only [drainStep, popleft]
      cases win with
      | nil =>
        simp only [List.isEmpty_nil, if_true]
        exact h.ends hg (.inr ⟨by simp only [if_true]; simp at hlen; omega, hstop⟩)
      | cons y win =>
        simp only [List.isEmpty_cons, Bool.false_eq_true, if_false]
        refine h.yields ho hg ?_ ⟨rfl, hx, by simp, by simp only [List.length_cons] at hl ⊢; omega, hstop⟩
        rw [← hx, List.take_of_length_le]
        simp only [List.length_cons] at hlen hl ⊢
        omega

/-- One more step of the generator. -/
theorem WinInv.derived {f : Source α} {w : Nat} (hw : 1 ≤ w) {p : Bool} (hst : p = true → Sticky f)
    {wd : World α (List α) (WinState α)} (h : WinInv f w p wd) : WinInv f w p (wd.step f (winStep f w p) true) := by
  simp only [World.step, if_true]
  have h5 := h.state
  cases hit : wd.it with
  | over =>
    rw [hit] at h5
    simp only [winStep]
    exact h.ends (given_self _ _) h5
  | draining l win =>
    rw [hit] at h5
    simp only at h5
    obtain ⟨rfl, a1, a2, a3, a4, a5⟩ := h5
    simp only [winStep]
    exact h.drains (by rw [hit]; simp) (given_self _ _) a1 a2 a3 a4 a5
  | fresh =>
    rw [hit] at h5
    simp only at h5
    obtain ⟨hr, ht⟩ := h5
    obtain ⟨t1, t2, t3, t4, t5⟩ := takeUpTo_spec f w wd.pos
    obtain ⟨l1, l2, l3⟩ := h.live (by rw [hit]; simp)
    simp only [winStep]
    have hdq : dequeOf w (takeUpTo f w wd.pos).1 = (takeUpTo f w wd.pos).1 := by
      have := IterUtils.dequeOf_take w (takeUpTo f w wd.pos).1
      rwa [List.take_of_length_le t3] at this
    cases he : (takeUpTo f w wd.pos).2.2 with
    | some e =>
      simp only
      obtain ⟨b1, b2⟩ := t5 e he
      refine ⟨?_, ?_, ?_, by simp, ?_⟩
      · simp only [results_snoc_raise, hr]; rfl
      · simp only [taken_snoc_derived, results_snoc_raise, hr, ht, List.nil_append, t2]; simpa using b1
      · intro e' hr'
        rcases raised_snoc.1 hr' with hr' | ⟨a, b, hr'⟩
        · exact h.raises e' hr'
        · cases hr'; exact b2
      · exact .inl ⟨e, raised_snoc.2 (.inr ⟨_, _, rfl⟩)⟩
    | none =>
      simp only [hdq]
      by_cases hcond : (if p then (takeUpTo f w wd.pos).1.isEmpty else decide ((takeUpTo f w wd.pos).1.length < w)) = true
      · rw [if_pos hcond]
        have hshort : (takeUpTo f w wd.pos).1.length < w := by
          cases p with
          | true => simp only [if_true, List.isEmpty_iff] at hcond; rw [hcond]; exact hw
          | false => simpa using hcond
        obtain ⟨i, -, hi⟩ := t4 he hshort
        refine ⟨?_, ?_, ?_, by simp, ?_⟩
        · simp only [results_snoc_stop, hr]; rfl
        · simp only [taken_snoc_derived, results_snoc_stop, hr, ht, List.nil_append, t2]; simpa using hshort
        · intro e' hr'
          rcases raised_snoc.1 hr' with hr' | ⟨a, b, hr'⟩
          · exact h.raises e' hr'
          · cases hr'
        · refine .inr ⟨?_, i, hi⟩
          simp only [taken_snoc_derived, results_snoc_stop, hr, ht, List.nil_append, t2]
          cases p with
          | true => simp only [if_true, List.isEmpty_iff] at hcond ⊢; rw [hcond]; rfl
          | false => simp only [Bool.false_eq_true, if_false, List.length_nil]; omega
      · rw [if_neg hcond]
        have hne : (takeUpTo f w wd.pos).1 ≠ [] := by
          intro hc
          apply hcond
          rw [hc]
          cases p <;> simp
          omega
        have hpos := List.length_pos_of_ne_nil hne
        refine ⟨?_, ?_, ?_, ?_, ?_⟩
        · simp only [taken_snoc_derived, results_snoc_value, hr, ht, List.nil_append, t2, List.length_singleton]
          simp only [wins, List.range_one, List.map_cons, List.map_nil, List.drop_zero, List.take_of_length_le t3]
        · simp only [taken_snoc_derived, results_snoc_value, hr, ht, List.nil_append, t2, List.length_singleton]; omega
        · intro e' hr'
          rcases raised_snoc.1 hr' with hr' | ⟨a, b, hr'⟩
          · exact h.raises e' hr'
          · cases hr'
        · intro _
          refine ⟨?_, fun e => ?_, ?_⟩
          · rw [stopped_snoc]; rintro (he | ⟨a, b, he⟩)
            · exact l1 he
            · cases he
          · rw [raised_snoc]; rintro (he | ⟨a, b, he⟩)
            · exact l2 e he
            · cases he
          · simp only [asked_snoc_derived, results_snoc_value, List.length_append, List.length_singleton, l3]
        · simp only [taken_snoc_derived, results_snoc_value, hr, ht, List.nil_append, t2, List.length_singleton]
          refine ⟨le_refl _, ?_, hne, ?_⟩
          · simp [List.take_of_length_le t3]
          · by_cases hfull : (takeUpTo f w wd.pos).1.length < w
            · refine .inr ⟨?_, trivial, t4 he hfull⟩
              cases p with
              | true => rfl
              | false => exact absurd hfull (by simpa using hcond)
            · exact .inl (by omega)
  | running win =>
    rw [hit] at h5
    simp only at h5
    obtain ⟨a1, a2, a3, a4⟩ := h5
    have ho : wd.it ≠ .over := by rw [hit]; simp
    obtain ⟨l1, l2, l3⟩ := h.live ho
    simp only [winStep]
    cases hf : f wd.pos with
    | raise e =>
      simp only
      refine ⟨?_, ?_, ?_, by simp, ?_⟩
      · simp only [taken_snoc_derived, results_snoc_raise, given_raise hf, List.append_nil]; exact h.windows
      · simp only [taken_snoc_derived, results_snoc_raise, given_raise hf, List.append_nil]; exact h.lazy
      · intro e' hr'
        rcases raised_snoc.1 hr' with hr' | ⟨a, b, hr'⟩
        · exact h.raises e' hr'
        · cases hr'; exact ⟨_, hf⟩
      · exact .inl ⟨e, raised_snoc.2 (.inr ⟨_, _, rfl⟩)⟩
    | stop =>
      simp only
      cases p with
      | false =>
        simp only [Bool.false_eq_true, if_false]
        refine h.ends (given_stop hf) (.inr ⟨?_, _, hf⟩)
        rcases a4 with a4 | ⟨a4, -⟩
        · simp only [Bool.false_eq_true, if_false]; omega
        · cases a4
      | true =>
        simp only [if_true]
        have hlz := h.lazy
        have hfull : win = (taken f wd.trace).drop ((results wd.trace).length - 1) := by
          rw [a2, List.take_of_length_le]
          rw [List.length_drop]; omega
        refine h.drains ho (given_stop hf) a1 hfull a3 ?_ ⟨_, hf⟩
        rw [hfull, List.length_drop]; omega
    | value x =>
      simp only
      have hfull : (taken f wd.trace).length + 1 = (results wd.trace).length + w := by
        rcases a4 with a4 | ⟨a4, a5, i, hi, hs⟩
        · exact a4
        · exfalso
          have := hst a4 i wd.pos (by omega) hs
          rw [hf] at this; cases this
      have hwl : win.length = w := by rw [a2]; simp; omega
      have hnew : dequeAppend w win x = ((taken f wd.trace ++ [x]).drop (results wd.trace).length).take w := by
        unfold dequeAppend
        rw [if_pos hwl]
        have hle : (results wd.trace).length - 1 ≤ (taken f wd.trace).length := by omega
        have e1 : win ++ [x] = (taken f wd.trace ++ [x]).drop ((results wd.trace).length - 1) := by
          rw [List.drop_append_of_le_length hle, a2, List.take_of_length_le (by simp; omega)]
        rw [e1, List.tail_drop, List.take_of_length_le]
        · congr 1; omega
        · simp; omega
      refine ⟨?_, ?_, ?_, ?_, ?_⟩
      · simp only [taken_snoc_derived, results_snoc_value, given_value hf, List.length_append, List.length_singleton]
        rw [wins_succ, wins_append _ _ _ _ (by omega), ← h.windows, hnew]
      · simp only [taken_snoc_derived, results_snoc_value, given_value hf, List.length_append, List.length_singleton]; omega
      · intro e' hr'
        rcases raised_snoc.1 hr' with hr' | ⟨a, b, hr'⟩
        · exact h.raises e' hr'
        · cases hr'
      · intro _
        refine ⟨?_, fun e => ?_, ?_⟩
        · rw [stopped_snoc]; rintro (he | ⟨a, b, he⟩)
          · exact l1 he
          · cases he
        · rw [raised_snoc]; rintro (he | ⟨a, b, he⟩)
          · exact l2 e he
          · cases he
        · simp only [asked_snoc_derived, results_snoc_value, List.length_append, List.length_singleton, l3]
      · simp only [taken_snoc_derived, results_snoc_value, given_value hf, List.length_append, List.length_singleton]
        refine ⟨by omega, ?_, ?_, .inl (by omega)⟩
        · rw [hnew]; congr 1
        · intro hc
          have := congrArg List.length hnew
          rw [hc] at this
          simp at this
          omega

theorem winInv_run (f : Source α) {w : Nat} (hw : 1 ≤ w) {p : Bool} (hst : p = true → Sticky f) (sched : List Bool) :
    WinInv f w p (runSchedule f (winStep f w p) .fresh sched) := by
  unfold runSchedule
  suffices ∀ wd, WinInv f w p wd → WinInv f w p (sched.foldl (World.step f (winStep f w p)) wd) from
    this _ ⟨rfl, by simp [taken, results]; omega, by simp [Raised], fun _ => ⟨by simp [Stopped], by simp [Raised], rfl⟩, ⟨rfl, rfl⟩⟩
  induction sched with
  | nil => exact fun wd h => h
  | cons d sched ih =>
    intro wd h
    refine ih _ ?_
    cases d with
    | true => exact h.derived hw hst
    | false => exact h.direct

theorem winStep_mono (f : Source α) (w : Nat) (p : Bool) (s : WinState α) (q : Nat) : q ≤ (winStep f w p s q).2.2 := by
  cases s with
  | fresh =>
    have := (takeUpTo_spec f w q).1
    simp only [winStep]
    cases (takeUpTo f w q).2.2 with
    | some e => exact this
    | none =>
      simp only
      by_cases hc : (if p then (dequeOf w (takeUpTo f w q).1).isEmpty else decide ((dequeOf w (takeUpTo f w q).1).length < w)) = true
      · rw [if_pos hc]; exact this
      · rw [if_neg hc]; exact this
  | running win =>
    simp only [winStep]
    cases f q <;> simp only
    · omega
    · split <;> simp
    · omega
  | draining l win => exact le_refl _
  | over => exact le_refl _

/-! ## After the end -/

/-- Once the derived iterator has not given a value, it only says that it has ended, without touching the underlying iterator. -/
def QuietAfterEnd (tr : List (Event α β)) : Prop :=
  ∀ pre x a b post, tr = pre ++ .derived x a b :: post → (∀ v, x ≠ .value v) →
    ∀ y c d, Event.derived y c d ∈ post → y = .stop ∧ d = c

theorem quiet_run (f : Source α) (next : σ → Nat → Answer β × σ × Nat) (over : σ → Prop)
    (h1 : ∀ s p, over s → (next s p).1 = .stop ∧ (next s p).2.2 = p ∧ over (next s p).2.1)
    (h2 : ∀ s p, (∀ v, (next s p).1 ≠ .value v) → over (next s p).2.1) (it : σ) (sched : List Bool) :
    QuietAfterEnd (runSchedule f next it sched).trace := by
  unfold runSchedule
  suffices ∀ wd : World α β σ, (QuietAfterEnd wd.trace ∧ (over wd.it ∨ ∀ x a b, Event.derived x a b ∈ wd.trace → ∃ v, x = .value v)) →
      QuietAfterEnd (sched.foldl (World.step f next) wd).trace from
    this _ ⟨by intro pre x a b post h; simp at h, .inr (by simp)⟩
  induction sched with
  | nil => exact fun wd h => h.1
  | cons d sched ih =>
    rintro wd ⟨hq, hs⟩
    refine ih _ ?_
    cases d with
    | false =>
      simp only [World.step, Bool.false_eq_true, if_false]
      refine ⟨?_, ?_⟩
      · intro pre x a b post h hx y c d hm
        rcases List.eq_nil_or_concat post with rfl | ⟨post', z, rfl⟩
        · simp at hm
        · rw [List.concat_eq_append, ← List.cons_append, ← List.append_assoc] at h
          obtain ⟨e1, e2⟩ := List.append_inj' h rfl
          have e2 := List.singleton_inj.1 e2
          rw [List.concat_eq_append, List.mem_append, List.mem_singleton] at hm
          rcases hm with hm | hm
          · exact hq pre x a b post' e1 hx y c d hm
          · rw [← hm] at e2; cases e2
      · rcases hs with hs | hs
        · exact .inl hs
        · refine .inr fun x a b hm => ?_
          simp only [List.mem_append, List.mem_singleton, reduceCtorEq, or_false] at hm
          exact hs x a b hm
    | true =>
      simp only [World.step, if_true]
      refine ⟨?_, ?_⟩
      · intro pre x a b post h hx y c d hm
        rcases List.eq_nil_or_concat post with rfl | ⟨post', z, rfl⟩
        · simp at hm
        · rw [List.concat_eq_append, ← List.cons_append, ← List.append_assoc] at h
          obtain ⟨e1, e2⟩ := List.append_inj' h rfl
          have e2 := List.singleton_inj.1 e2
          rw [List.concat_eq_append, List.mem_append, List.mem_singleton] at hm
          rcases hm with hm | hm
          · exact hq pre x a b post' e1 hx y c d hm
          · rcases hs with hs | hs
            · obtain ⟨o1, o2, -⟩ := h1 wd.it wd.pos hs
              rw [← e2] at hm
              cases hm
              exact ⟨o1, o2⟩
            · obtain ⟨v, hv⟩ := hs x a b (by rw [e1]; simp)
              exact absurd hv (hx v)
      · by_cases hv : ∀ v, (next wd.it wd.pos).1 ≠ .value v
        · exact .inl (h2 _ _ hv)
        · rcases hs with hs | hs
          · exact .inl (h1 wd.it wd.pos hs).2.2
          · refine .inr fun x a b hm => ?_
            simp only [List.mem_append, List.mem_singleton, Event.derived.injEq] at hm
            rcases hm with hm | ⟨rfl, -, -⟩
            · exact hs x a b hm
            · by_contra hc
              exact hv fun v hvv => hc ⟨v, hvv⟩

theorem winStep_over (f : Source α) (w : Nat) (p : Bool) (s : WinState α) (q : Nat) (h : ∀ v, (winStep f w p s q).1 ≠ .value v) :
    (winStep f w p s q).2.1 = .over := by
  have hd : ∀ n (win : List α), (∀ v, (drainStep n win).1 ≠ .value v) → (drainStep n win).2 = .over := by
    intro n win hh
    cases n with
    | zero => rfl
    | succ n =>
      cases win with
      | nil => rfl
      | cons x win =>
        simp only [drainStep, popleft] at hh ⊢
        cases win with
        | nil => rfl
        | cons y win => simp at hh
  cases s with
  | fresh =>
    simp only [winStep] at h ⊢
    cases he : (takeUpTo f w q).2.2 with
    | some e => rfl
    | none =>
      simp only [he] at h ⊢
      by_cases hc : (if p then (dequeOf w (takeUpTo f w q).1).isEmpty else decide ((dequeOf w (takeUpTo f w q).1).length < w)) = true
      · rw [if_pos hc]
      · rw [if_neg hc] at h
        exact absurd rfl (h _)
  | running win =>
    simp only [winStep] at h ⊢
    cases hf : f q with
    | value x => simp only [hf] at h; exact absurd rfl (h _)
    | raise e => rfl
    | stop =>
      simp only [hf] at h ⊢
      cases p with
      | true => simp only [if_true] at h ⊢; exact hd _ _ h
      | false => rfl
  | draining n win => exact hd _ _ h
  | over => rfl

/-! ## C87: `windowed` -/

/-- `windowed` raises `ValueError` for a window size below one, else always returns an iterator. -/
theorem C87_windowed_accepts (f : Source α) (w : Int) (p : Bool) (sched : List Bool) :
    (w < 1 → (match useWindowed f w p sched with | .error e => e = .valueError | .ok _ => False)) ∧
    (1 ≤ w → ∃ tr, useWindowed f w p sched = .ok tr) := by
  constructor
  · intro h
    have : ¬ (1 ≤ w) := by omega
    simp [useWindowed, checkArg, bind, Except.bind, this]
  · intro h
    exact ⟨_, by simp [useWindowed, checkArg, bind, Except.bind, h]; rfl⟩

/-- Whatever the order in which a program advances the windows and the underlying iterator, endless or not, raising or not:
the windows given so far are the first windows of the elements the generator has taken; it never takes more elements than needed for
the windows asked for; when it says that it has ended, every window has been given; it ends only because the underlying iterator did,
and raises only what that raised. -/
theorem C87_windowed (f : Source α) (w : Int) (p : Bool) (hst : p = true → Sticky f) (sched : List Bool)
    (tr : List (Event α (List α))) (h : useWindowed f w p sched = .ok tr) :
    results tr = (List.range (results tr).length).map (fun i => ((taken f tr).drop i).take w.toNat) ∧
    (taken f tr).length < (results tr).length + w.toNat ∧
    (Stopped tr → (∃ e, Raised tr e) ∨
      ((results tr).length = (if p then (taken f tr).length else (taken f tr).length + 1 - w.toNat) ∧ ∃ i, f i = .stop)) ∧
    (∀ e, Raised tr e → ∃ i, f i = .raise e) ∧
    (¬ Stopped tr → (∀ e, ¬ Raised tr e) → (results tr).length = asked tr) := by
  by_cases hw : 1 ≤ w
  · have hw' : 1 ≤ w.toNat := by omega
    simp only [useWindowed, checkArg, bind, Except.bind, ge_iff_le, hw, decide_true, if_true, Except.ok.injEq] at h
    subst h
    have inv := winInv_run f hw' hst sched
    refine ⟨inv.windows, inv.lazy, ?_, inv.raises, ?_⟩
    · intro hs
      by_cases ho : (runSchedule f (winStep f w.toNat p) .fresh sched).it = .over
      · have := inv.state
        rw [ho] at this
        exact this
      · exact absurd hs (inv.live ho).1
    · intro hs hr
      by_cases ho : (runSchedule f (winStep f w.toNat p) .fresh sched).it = .over
      · exfalso
        -- a finished generator has stopped or raised
        have key : ∀ sched, (runSchedule f (winStep f w.toNat p) .fresh sched).it = .over →
            Stopped (runSchedule f (winStep f w.toNat p) .fresh sched).trace ∨
              ∃ e, Raised (runSchedule f (winStep f w.toNat p) .fresh sched).trace e := by
          intro sched
          induction sched using List.reverseRecOn with
          | nil => intro h; simp [runSchedule] at h
          | append_singleton sched d ih =>
            simp only [runSchedule, List.foldl_append, List.foldl_cons, List.foldl_nil] at ih ⊢
            generalize sched.foldl (World.step f (winStep f w.toNat p)) ⟨.fresh, 0, []⟩ = wd at ih ⊢
            cases d with
            | false =>
              simp only [World.step, Bool.false_eq_true, if_false]
              intro h
              rcases ih h with h | ⟨e, h⟩
              · exact .inl (stopped_snoc.2 (.inl h))
              · exact .inr ⟨e, raised_snoc.2 (.inl h)⟩
            | true =>
              simp only [World.step, if_true]
              intro h
              cases ha : (winStep f w.toNat p wd.it wd.pos).1 with
              | stop => exact .inl (stopped_snoc.2 (.inr ⟨_, _, rfl⟩))
              | raise e => exact .inr ⟨e, raised_snoc.2 (.inr ⟨_, _, rfl⟩)⟩
              | value v =>
                exfalso
                have hd : ∀ n (win : List α), (drainStep n win).1 = .value v → (drainStep n win).2 ≠ .over := by
                  intro n win hh
                  cases n with
                  | zero => cases hh
                  | succ n =>
                    cases win with
                    | nil => cases hh
                    | cons x win =>
                      cases win with
                      | nil => cases hh
                      | cons y win => simp [drainStep, popleft]
                cases hit : wd.it with
                | over => rw [hit] at ha; cases ha
                | draining n win => rw [hit] at ha h; exact hd n win ha h
                | fresh =>
                  rw [hit] at ha h
                  simp only [winStep] at ha h
                  cases he : (takeUpTo f w.toNat wd.pos).2.2 with
                  | some e => simp only [he] at ha; cases ha
                  | none =>
                    simp only [he] at ha h
                    by_cases hc : (if p then (dequeOf w.toNat (takeUpTo f w.toNat wd.pos).1).isEmpty
                        else decide ((dequeOf w.toNat (takeUpTo f w.toNat wd.pos).1).length < w.toNat)) = true
                    · rw [if_pos hc] at ha; cases ha
                    · rw [if_neg hc] at h; cases h
                | running win =>
                  rw [hit] at ha h
                  simp only [winStep] at ha h
                  cases hf : f wd.pos with
                  | value x => simp only [hf] at h; cases h
                  | raise e => simp only [hf] at ha; cases ha
                  | stop =>
                    simp only [hf] at ha h
                    cases p with
                    | true => simp only [if_true] at ha h; exact hd _ _ ha h
                    | false => simp only [Bool.false_eq_true, if_false] at ha; cases ha
        rcases key sched ho with h | ⟨e, h⟩
        · exact hs h
        · exact hr e h
      · exact (inv.live ho).2.2.symm
  · have h' : ¬ (1 ≤ w) := hw
    simp [useWindowed, checkArg, bind, Except.bind, h'] at h

/-- On an endless iterator every request gives a window, and `k` requests take exactly `k + w - 1` elements. -/
theorem C87_windowed_endless (f : Source α) (x : Nat → α) (hf : ∀ i, f i = .value (x i)) (w : Int) (p : Bool) (sched : List Bool)
    (tr : List (Event α (List α))) (h : useWindowed f w p sched = .ok tr) :
    (results tr).length = asked tr ∧ (asked tr ≠ 0 → (taken f tr).length + 1 = asked tr + w.toNat) ∧
      ∀ win ∈ results tr, (win.length : Int) = w := by
  have hw : 1 ≤ w := by
    by_contra hw
    simp [useWindowed, checkArg, bind, Except.bind, hw] at h
  have hst : p = true → Sticky f := by
    intro _ i j _ hs; rw [hf i] at hs; cases hs
  obtain ⟨h1, h2, h3, h4, h5⟩ := C87_windowed f w p hst sched tr h
  have hr : ∀ e, ¬ Raised tr e := by
    intro e he
    obtain ⟨i, hi⟩ := h4 e he
    rw [hf i] at hi; cases hi
  have hs : ¬ Stopped tr := by
    intro hs
    rcases h3 hs with ⟨e, he⟩ | ⟨-, i, hi⟩
    · exact hr e he
    · rw [hf i] at hi; cases hi
  have hlen := h5 hs hr
  have hw' : 1 ≤ w.toNat := by omega
  have hfull : asked tr ≠ 0 → (taken f tr).length + 1 = asked tr + w.toNat := by
    simp only [useWindowed, checkArg, bind, Except.bind, ge_iff_le, hw, decide_true, if_true, Except.ok.injEq] at h
    subst h
    have inv := winInv_run f hw' hst sched
    intro ha
    have hst := inv.state
    cases hit : (runSchedule f (winStep f w.toNat p) .fresh sched).it with
    | fresh => rw [hit] at hst; simp only at hst; rw [hst.1] at hlen; simp at hlen; omega
    | running win =>
      rw [hit] at hst
      simp only at hst
      rcases hst.2.2.2 with hh | ⟨-, -, i, -, hi⟩
      · omega
      · rw [hf i] at hi; cases hi
    | draining l win =>
      rw [hit] at hst
      simp only at hst
      obtain ⟨-, -, -, -, -, i, hi⟩ := hst
      rw [hf i] at hi; cases hi
    | over =>
      rw [hit] at hst
      simp only at hst
      rcases hst with ⟨e, he⟩ | ⟨-, i, hi⟩
      · exact absurd he (hr e)
      · rw [hf i] at hi; cases hi
  refine ⟨hlen, hfull, ?_⟩
  intro win hm
  rw [h1] at hm
  obtain ⟨i, hi, rfl⟩ := List.mem_map.1 hm
  have hi := List.mem_range.1 hi
  have := hfull (by omega)
  simp only [List.length_take, List.length_drop]
  omega

/-- No call of the underlying iterator is lost, made twice or made for somebody else: each event makes the calls following those of the
event before, a direct call exactly one, whose answer is what the iterator says; and after its end the generator is quiet. -/
theorem C87_windowed_calls (f : Source α) (w : Int) (p : Bool) (sched : List Bool) (tr : List (Event α (List α)))
    (h : useWindowed f w p sched = .ok tr) :
    Contiguous 0 tr ∧ (∀ x a b, Event.direct x a b ∈ tr → x = f a) ∧ QuietAfterEnd tr := by
  by_cases hw : 1 ≤ w
  · simp only [useWindowed, checkArg, bind, Except.bind, ge_iff_le, hw, decide_true, if_true, Except.ok.injEq] at h
    subst h
    have hp := plain_run f (winStep f w.toNat p) (winStep_mono f w.toNat p) .fresh sched
    refine ⟨hp.contiguous.1, hp.direct, quiet_run f _ (fun s => s = .over) ?_ ?_ _ _⟩
    · rintro s q rfl; exact ⟨rfl, rfl, rfl⟩
    · exact fun s q => winStep_over f w.toNat p s q
  · simp [useWindowed, checkArg, bind, Except.bind, hw] at h

/-! ## C87: `drop` -/

theorem dropStep_spec (f : Source α) (k q : Nat) :
    q ≤ (dropStep f (.skipping k) q).2.2 ∧
    (∀ x, (dropStep f (.skipping k) q).1 = .value x →
      (dropStep f (.skipping k) q).2.1 = .skipping 0 ∧
      ∃ ys, given f q (dropStep f (.skipping k) q).2.2 = ys ++ [x] ∧ ys.length = k) ∧
    ((dropStep f (.skipping k) q).1 = .stop → (dropStep f (.skipping k) q).2.1 = .over ∧ (∃ i, f i = .stop) ∧
      (given f q (dropStep f (.skipping k) q).2.2).length ≤ k) ∧
    (∀ e, (dropStep f (.skipping k) q).1 = .raise e → (dropStep f (.skipping k) q).2.1 = .over ∧ (∃ i, f i = .raise e) ∧
      (given f q (dropStep f (.skipping k) q).2.2).length ≤ k) := by
  simp only [dropStep]
  induction k generalizing q with
  | zero =>
    unfold dropFrom
    cases hf : f q with
    | value x => simp [given_value hf]
    | stop => simp [given_stop hf]; exact ⟨q, hf⟩
    | raise e => simp [given_raise hf]; exact ⟨q, hf⟩
  | succ k ih =>
    unfold dropFrom
    cases hf : f q with
    | stop => simp [given_stop hf]; exact ⟨q, hf⟩
    | raise e => simp [given_raise hf]; exact ⟨q, hf⟩
    | value y =>
      simp only
      obtain ⟨i1, i2, i3, i4⟩ := ih (q + 1)
      have hsp := given_split f (Nat.le_succ q) i1
      rw [given_value hf] at hsp
      refine ⟨by omega, ?_, ?_, ?_⟩
      · intro x hx
        obtain ⟨a, ys, b, c⟩ := i2 x hx
        exact ⟨a, y :: ys, by rw [hsp, b]; rfl, by simp [c]⟩
      · intro hx
        obtain ⟨a, b, c⟩ := i3 hx
        exact ⟨a, b, by rw [hsp]; simp; omega⟩
      · intro e hx
        obtain ⟨a, b, c⟩ := i4 e hx
        exact ⟨a, b, by rw [hsp]; simp; omega⟩

/-- The invariant. -/
structure DropInv (f : Source α) (n : Nat) (wd : World α α DropState) : Prop where
  rest : results wd.trace = (taken f wd.trace).drop n
  lazy : (taken f wd.trace).length ≤ n + (results wd.trace).length
  raises : ∀ e, Raised wd.trace e → ∃ i, f i = .raise e
  stops : Stopped wd.trace → (∃ e, Raised wd.trace e) ∨ ∃ i, f i = .stop
  state : match wd.it with
    | .skipping k => ¬ Stopped wd.trace ∧ (∀ e, ¬ Raised wd.trace e) ∧ asked wd.trace = (results wd.trace).length ∧
        (taken f wd.trace).length + k = n + (results wd.trace).length ∧ (k ≠ 0 → asked wd.trace = 0)
    | .over => Stopped wd.trace ∨ ∃ e, Raised wd.trace e

theorem dropInv_run (f : Source α) (n : Nat) (sched : List Bool) : DropInv f n (runSchedule f (dropStep f) (.skipping n) sched) := by
  unfold runSchedule
  suffices ∀ wd, DropInv f n wd → DropInv f n (sched.foldl (World.step f (dropStep f)) wd) from
    this _ ⟨by simp [results, taken], by simp [taken], by simp [Raised], by simp [Stopped],
      ⟨by simp [Stopped], by simp [Raised], rfl, by simp [taken, results], fun _ => rfl⟩⟩
  induction sched with
  | nil => exact fun wd h => h
  | cons d sched ih =>
    rintro wd ⟨h1, h2, h3, h4, h5⟩
    refine ih _ ?_
    cases d with
    | false =>
      simp only [World.step, Bool.false_eq_true, if_false]
      refine ⟨?_, ?_, ?_, ?_, ?_⟩
      · simp only [taken_snoc_direct, results_snoc_direct]; exact h1
      · simp only [taken_snoc_direct, results_snoc_direct]; exact h2
      · intro e he
        rcases raised_snoc.1 he with he | ⟨a, b, he⟩
        · exact h3 e he
        · cases he
      · intro hs
        rcases stopped_snoc.1 hs with hs | ⟨a, b, hs⟩
        · rcases h4 hs with ⟨e, he⟩ | hi
          · exact .inl ⟨e, raised_snoc.2 (.inl he)⟩
          · exact .inr hi
        · cases hs
      · cases hit : wd.it with
        | skipping k =>
          rw [hit] at h5
          simp only [taken_snoc_direct, results_snoc_direct, asked_snoc_direct] at h5 ⊢
          refine ⟨?_, fun e => ?_, h5.2.2⟩
          · rw [stopped_snoc]; rintro (he | ⟨a, b, he⟩)
            · exact h5.1 he
            · cases he
          · rw [raised_snoc]; rintro (he | ⟨a, b, he⟩)
            · exact h5.2.1 e he
            · cases he
        | over =>
          rw [hit] at h5
          simp only at h5 ⊢
          rcases h5 with h | ⟨e, h⟩
          · exact .inl (stopped_snoc.2 (.inl h))
          · exact .inr ⟨e, raised_snoc.2 (.inl h)⟩
    | true =>
      simp only [World.step, if_true]
      cases hit : wd.it with
      | over =>
        rw [hit] at h5
        simp only [dropStep] at h5 ⊢
        refine ⟨?_, ?_, ?_, ?_, ?_⟩
        · simp only [taken_snoc_derived, results_snoc_stop, given_self, List.append_nil]; exact h1
        · simp only [taken_snoc_derived, results_snoc_stop, given_self, List.append_nil]; exact h2
        · intro e he
          rcases raised_snoc.1 he with he | ⟨a, b, he⟩
          · exact h3 e he
          · cases he
        · intro _
          rcases h5 with h | ⟨e, h⟩
          · rcases h4 h with ⟨e, he⟩ | hi
            · exact .inl ⟨e, raised_snoc.2 (.inl he)⟩
            · exact .inr hi
          · exact .inl ⟨e, raised_snoc.2 (.inl h)⟩
        · exact .inl (stopped_snoc.2 (.inr ⟨_, _, rfl⟩))
      | skipping k =>
        rw [hit] at h5
        simp only at h5
        obtain ⟨b1, b2, b3, b4, b5⟩ := h5
        obtain ⟨s1, s2, s3, s4⟩ := dropStep_spec f k wd.pos
        cases ha : (dropStep f (.skipping k) wd.pos).1 with
        | value x =>
          obtain ⟨c1, ys, c2, c3⟩ := s2 x ha
          rw [c1]
          refine ⟨?_, ?_, ?_, ?_, ?_⟩
          · simp only [taken_snoc_derived, results_snoc_value, c2]
            by_cases hk : k = 0
            · subst hk
              have : ys = [] := List.length_eq_zero_iff.1 c3
              subst this
              rw [List.nil_append, List.drop_append_of_le_length (by omega), ← h1]
            · have h0 := b5 hk
              have hr : results wd.trace = [] := List.length_eq_zero_iff.1 (by omega)
              rw [hr] at h1 b4 ⊢
              simp only [List.length_nil] at b4
              rw [← List.append_assoc, List.drop_append_of_le_length (by simp; omega), List.drop_eq_nil_of_le (by simp; omega)]
          · simp only [taken_snoc_derived, results_snoc_value, c2, List.length_append, List.length_singleton]; omega
          · intro e he
            rcases raised_snoc.1 he with he | ⟨a, b, he⟩
            · exact h3 e he
            · cases he
          · intro hs
            rcases stopped_snoc.1 hs with hs | ⟨a, b, hs⟩
            · exact absurd hs b1
            · cases hs
          · simp only [taken_snoc_derived, results_snoc_value, asked_snoc_derived, c2, List.length_append, List.length_singleton]
            refine ⟨?_, fun e => ?_, by omega, by omega, by simp⟩
            · rw [stopped_snoc]; rintro (he | ⟨a, b, he⟩)
              · exact b1 he
              · cases he
            · rw [raised_snoc]; rintro (he | ⟨a, b, he⟩)
              · exact b2 e he
              · cases he
        | stop =>
          obtain ⟨c1, c2, c3⟩ := s3 ha
          rw [c1]
          refine ⟨?_, ?_, ?_, ?_, ?_⟩
          · simp only [taken_snoc_derived, results_snoc_stop]
            rw [List.drop_append, ← h1, List.drop_eq_nil_of_le (as := given _ _ _), List.append_nil]
            have : (results wd.trace).length = (taken f wd.trace).length - n := by rw [h1]; simp
            omega
          · simp only [taken_snoc_derived, results_snoc_stop, List.length_append]; omega
          · intro e he
            rcases raised_snoc.1 he with he | ⟨a, b, he⟩
            · exact h3 e he
            · cases he
          · exact fun _ => .inr c2
          · exact .inl (stopped_snoc.2 (.inr ⟨_, _, rfl⟩))
        | raise e =>
          obtain ⟨c1, c2, c3⟩ := s4 e ha
          rw [c1]
          refine ⟨?_, ?_, ?_, ?_, ?_⟩
          · simp only [taken_snoc_derived, results_snoc_raise]
            rw [List.drop_append, ← h1, List.drop_eq_nil_of_le (as := given _ _ _), List.append_nil]
            have : (results wd.trace).length = (taken f wd.trace).length - n := by rw [h1]; simp
            omega
          · simp only [taken_snoc_derived, results_snoc_raise, List.length_append]; omega
          · intro e' he
            rcases raised_snoc.1 he with he | ⟨a, b, he⟩
            · exact h3 e' he
            · cases he; exact c2
          · exact fun _ => .inl ⟨e, raised_snoc.2 (.inr ⟨_, _, rfl⟩)⟩
          · exact .inr ⟨e, raised_snoc.2 (.inr ⟨_, _, rfl⟩)⟩

/-- `drop(it, n)`: `ValueError` for a negative `n`; else, whatever the schedule, what is given are the elements taken without the first
`n`, no more elements are taken than needed, each request gives an element unless the underlying iterator ends or raises, and then
nothing more is asked of it. -/
theorem C87_drop (f : Source α) (n : Int) (sched : List Bool) :
    (n < 0 → (match useDrop f n sched with | .error e => e = .valueError | .ok _ => False)) ∧
    (0 ≤ n → ∃ tr, useDrop f n sched = .ok tr ∧
      results tr = (taken f tr).drop n.toNat ∧
      (taken f tr).length ≤ n.toNat + (results tr).length ∧
      (asked tr = 0 → taken f tr = []) ∧
      (∀ e, Raised tr e → ∃ i, f i = .raise e) ∧
      (Stopped tr → (∃ e, Raised tr e) ∨ ∃ i, f i = .stop) ∧
      (¬ Stopped tr → (∀ e, ¬ Raised tr e) → (results tr).length = asked tr ∧
        (asked tr ≠ 0 → (taken f tr).length = n.toNat + asked tr)) ∧
      Contiguous 0 tr ∧ (∀ x a b, Event.direct x a b ∈ tr → x = f a) ∧ QuietAfterEnd tr) := by
  constructor
  · intro h
    have : ¬ (0 ≤ n) := by omega
    simp [useDrop, checkArg, bind, Except.bind, this]
  · intro h
    refine ⟨_, by simp [useDrop, checkArg, bind, Except.bind, h]; rfl, ?_⟩
    have inv := dropInv_run f n.toNat sched
    have hp := plain_run f (dropStep f) (fun s p => by
      cases s with
      | skipping k => exact (dropStep_spec f k p).1
      | over => exact le_refl _) (.skipping n.toNat) sched
    refine ⟨inv.rest, inv.lazy, ?_, inv.raises, inv.stops, ?_, hp.contiguous.1, hp.direct,
      quiet_run f _ (fun s => s = .over) ?_ ?_ _ _⟩
    · intro ha
      have : ∀ tr : List (Event α α), asked tr = 0 → taken f tr = [] := by
        intro tr ht
        induction tr with
        | nil => rfl
        | cons ev tr ih =>
          cases ev with
          | derived a b c => simp [asked] at ht
          | direct a b c =>
            have h1 : asked (.direct a b c :: tr) = asked tr := by simp [asked]
            have h2 : taken f (.direct a b c :: tr) = taken f tr := by simp [taken]
            rw [h2]; exact ih (h1 ▸ ht)
      exact this _ ha
    · intro hs hr
      have hst := inv.state
      cases hit : (runSchedule f (dropStep f) (.skipping n.toNat) sched).it with
      | over =>
        rw [hit] at hst
        simp only at hst
        rcases hst with h | ⟨e, h⟩
        · exact absurd h hs
        · exact absurd h (hr e)
      | skipping k =>
        rw [hit] at hst
        simp only at hst
        obtain ⟨-, -, b3, b4, b5⟩ := hst
        refine ⟨b3.symm, fun ha => ?_⟩
        have : k = 0 := by by_contra hk; exact ha (b5 hk)
        omega
    · rintro s q rfl; exact ⟨rfl, rfl, rfl⟩
    · intro s q hv
      cases s with
      | over => rfl
      | skipping k =>
        obtain ⟨s1, s2, s3, s4⟩ := dropStep_spec f k q
        cases ha : (dropStep f (.skipping k) q).1 with
        | value x => exact absurd ha (hv x)
        | stop => exact (s3 ha).1
        | raise e => exact (s4 e ha).1

/-! ## Examples -/
namespace Example

/-- The natural numbers. -/
def nats : Source Nat := fun i => .value i
/-- Three elements, then an exception. -/
def bad : Source Nat := fun i => if i < 3 then .value i else .raise .keyError
/-- Three elements. -/
def three : Source Nat := fun i => if i < 3 then .value i else .stop

/-- The windows over an endless iterator of which the program takes one element itself. -/
example : ∃ tr, useWindowed nats 2 false [true, true, false, true] = .ok tr ∧ results tr = [[0, 1], [1, 2], [2, 4]] ∧
    taken nats tr = [0, 1, 2, 4] := ⟨_, rfl, by decide +kernel, by decide +kernel⟩
example : ∃ tr, useWindowed three 2 true [true, true, true, true, true] = .ok tr ∧ results tr = [[0, 1], [1, 2], [2]] ∧ Stopped tr :=
  ⟨_, rfl, by decide +kernel, ⟨4, 4, by simp [runSchedule, World.step, winStep, takeUpTo, three, drainStep, popleft, dequeOf, dequeAppend]⟩⟩
example : ∃ tr, useWindowed bad 2 true [true, true, true, true, true] = .ok tr ∧ results tr = [[0, 1], [1, 2]] :=
  ⟨_, rfl, by decide +kernel⟩
example : ∃ tr, useDrop nats 2 [true, false, true] = .ok tr ∧ results tr = [2, 4] ∧ taken nats tr = [0, 1, 2, 4] :=
  ⟨_, rfl, by decide +kernel, by decide +kernel⟩
example : Sticky three := by
  intro i j hij h
  simp only [three] at h ⊢
  split at h
  · cases h
  · rw [if_neg (by omega)]

end Example
end LazyIter
end Vista
