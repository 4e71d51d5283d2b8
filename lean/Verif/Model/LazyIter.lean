import Verif.Model.IterUtils

/-!
# `windowed` and `drop` one step at a time: `vistautils/iter_utils.py:34-54, 103-205`

`Model/IterUtils.lean` says what a complete loop over a finite iterator gives.  Here the underlying iterator may be endless, may raise,
and may also be advanced by the program itself between two steps of the iterator that `windowed` or `drop` returned.

An iterator is given by the outcome of each call of its `__next__`: `f i` for the `i`-th call.
-/
namespace Vista
namespace LazyIter
open IterUtils (dequeOf dequeAppend popleft)
variable {α : Type}

/-- What a call of `__next__` does. -/
inductive Answer (β : Type)
  | value (b : β)
  | stop
  | raise (e : Exc)
  deriving DecidableEq, Repr

/-- The underlying iterator. -/
abbrev Source (α : Type) := Nat → Answer α

/-- Running `islice(it, n)` to its end (as `deque` does, `iter_utils.py:161, 187`) from call number `p` on: the elements, the number of
calls made so far, and the exception raised by the iterator, if any. -/
def takeUpTo (f : Source α) : Nat → Nat → List α × Nat × Option Exc
  | 0, p => ([], p, none)
  | n + 1, p =>
    match f p with
    | .value x => let r := takeUpTo f n (p + 1); (x :: r.1, r.2.1, r.2.2)
    | .stop => ([], p + 1, none)
    | .raise e => ([], p + 1, some e)

/-- Where the generator made by `_complete_windows` or `_possibly_incomplete_windows` stands: not started, in its `for e in it` loop with
the given window, in the loop at `iter_utils.py:198-205` with the given number of rounds left, or finished. -/
inductive WinState (α : Type)
  | fresh
  | running (win : List α)
  | draining (left : Nat) (win : List α)
  | over

/-- `iter_utils.py:198-205`, up to the next `yield` or the end. -/
def drainStep : Nat → List α → Answer (List α) × WinState α
  | 0, _ => (.stop, .over)
  | n + 1, win =>
    match popleft win with
    | .error e => (.raise e, .over)
    | .ok win' => if win'.isEmpty then (.stop, .over) else (.value win', .draining n win')

/-- `next(…)` on the generator, `iter_utils.py:149-205` (`partialWindows`: line 112): the answer, and the generator and the number of
calls made to the underlying iterator afterwards. -/
def winStep (f : Source α) (w : Nat) (partialWindows : Bool) : WinState α → Nat → Answer (List α) × WinState α × Nat
  | .over, p => (.stop, .over, p)
  | .fresh, p =>
    let r := takeUpTo f w p
    match r.2.2 with
    | some e => (.raise e, .over, r.2.1)
    | none =>
      let win := dequeOf w r.1
      if (if partialWindows then win.isEmpty else decide (win.length < w)) then (.stop, .over, r.2.1)
      else (.value win, .running win, r.2.1)
  | .running win, p =>
    match f p with
    | .value e => let win' := dequeAppend w win e; (.value win', .running win', p + 1)
    | .raise e => (.raise e, .over, p + 1)
    | .stop =>
      if partialWindows then let d := drainStep (w - 1) win; (d.1, d.2, p + 1)
      else (.stop, .over, p + 1)
  | .draining n win, p => let d := drainStep n win; (d.1, d.2, p)

/-- The `itertools.islice` object returned by `drop` for an iterator (`iter_utils.py:52`): how many elements it has still to skip, or
that it is finished (after the end of the underlying iterator, or an exception, it asks it no more). -/
inductive DropState
  | skipping (left : Nat)
  | over

/-- `next(…)` on it, with the given number of elements to skip. -/
def dropFrom (f : Source α) : Nat → Nat → Answer α × DropState × Nat
  | 0, p =>
    match f p with
    | .value x => (.value x, .skipping 0, p + 1)
    | .stop => (.stop, .over, p + 1)
    | .raise e => (.raise e, .over, p + 1)
  | n + 1, p =>
    match f p with
    | .value _ => dropFrom f n (p + 1)
    | .stop => (.stop, .over, p + 1)
    | .raise e => (.raise e, .over, p + 1)

/-- `next(…)` on it. -/
def dropStep (f : Source α) : DropState → Nat → Answer α × DropState × Nat
  | .over, p => (.stop, .over, p)
  | .skipping n, p => dropFrom f n p

/-- One step of a program that uses the underlying iterator both through `windowed` or `drop` and directly: who called `next`, what it
was given, and the numbers of calls made to the underlying iterator before and after. -/
inductive Event (α β : Type)
  | derived (a : Answer β) (before after : Nat)
  | direct (a : Answer α) (before after : Nat)

/-- A program under way: the derived iterator, the number of calls made to the underlying one, and what happened so far. -/
structure World (α β σ : Type) where
  it : σ
  pos : Nat
  trace : List (Event α β)

/-- `next(…)` on the derived iterator (`true`) or on the underlying one (`false`). -/
def World.step {β σ : Type} (f : Source α) (next : σ → Nat → Answer β × σ × Nat) (wd : World α β σ) (derived : Bool) : World α β σ :=
  if derived then
    let r := next wd.it wd.pos
    ⟨r.2.1, r.2.2, wd.trace ++ [.derived r.1 wd.pos r.2.2]⟩
  else ⟨wd.it, wd.pos + 1, wd.trace ++ [.direct (f wd.pos) wd.pos (wd.pos + 1)]⟩

/-- Any schedule of such calls. -/
def runSchedule {β σ : Type} (f : Source α) (next : σ → Nat → Answer β × σ × Nat) (it : σ) (sched : List Bool) : World α β σ :=
  sched.foldl (World.step f next) ⟨it, 0, []⟩

/-- `windowed(it, w, partial_windows=…)` for an iterator, `iter_utils.py:103-115`, then used by a schedule. -/
def useWindowed (f : Source α) (w : Int) (partialWindows : Bool) (sched : List Bool) : Res (List (Event α (List α))) := do
  checkArg (decide (w ≥ 1))
  .ok (runSchedule f (winStep f w.toNat partialWindows) .fresh sched).trace

/-- `drop(it, n)` for an iterator, `iter_utils.py:34-54`, then used by a schedule. -/
def useDrop (f : Source α) (n : Int) (sched : List Bool) : Res (List (Event α α)) := do
  checkArg (decide (n ≥ 0))
  .ok (runSchedule f (dropStep f) (.skipping n.toNat) sched).trace

/-- `only(it)` for an iterator, `iter_utils.py:61-82`, from call number `p` on: the outcome and the number of calls made afterwards;
`neSentinel` as in `IterUtils.only`. -/
def onlyCall (neSentinel : α → Bool) (f : Source α) (p : Nat) : Res α × Nat :=
  match f p with
  | .stop => (.error .valueError, p + 1)
  | .raise e => (.error e, p + 1)
  | .value x =>
    match f (p + 1) with
    | .stop => (.ok x, p + 2)
    | .raise e => (.error e, p + 2)
    | .value y => if neSentinel y then (.error .valueError, p + 2) else (.ok x, p + 2)

/-- `get_only(it)` for an iterator without a length, `collection_utils.py:8-30`.  (For one with a length, the message of the exception
uses up the iterator, lines 24-25.) -/
def getOnlyCall (f : Source α) (p : Nat) : Res α × Nat :=
  match f p with
  | .stop => (.error .valueError, p + 1)
  | .raise e => (.error e, p + 1)
  | .value x =>
    match f (p + 1) with
    | .stop => (.ok x, p + 2)
    | .raise e => (.error e, p + 2)
    | .value _ => (.error .valueError, p + 2)

/-- `next(…)` on the generator made by `non_none`, `iter_utils.py:208-212`, until its end: from call number `p` of the underlying iterator
on, the answer, and the number of calls made afterwards.  A relation, as a call need not return (on endlessly many `None`s). -/
inductive NonNoneCall (f : Source (Option α)) : Nat → Answer α → Nat → Prop
  | skip {p q : Nat} {a : Answer α} : f p = .value none → NonNoneCall f (p + 1) a q → NonNoneCall f p a q
  | value {p : Nat} {x : α} : f p = .value (some x) → NonNoneCall f p (.value x) (p + 1)
  | stop {p : Nat} : f p = .stop → NonNoneCall f p .stop (p + 1)
  | raise {p : Nat} {e : Exc} : f p = .raise e → NonNoneCall f p (.raise e) (p + 1)

/-- `non_none(it)` used by a schedule all calls of which return; `over`: the generator has ended (by the end of the underlying iterator or
an exception) and then only says so. -/
inductive NonNoneRun (f : Source (Option α)) : (over : Bool) → Nat → List Bool → List (Event (Option α) α) → Prop
  | nil {o : Bool} {p : Nat} : NonNoneRun f o p [] []
  | direct {o : Bool} {p : Nat} {sched : List Bool} {tr : List (Event (Option α) α)} : NonNoneRun f o (p + 1) sched tr →
      NonNoneRun f o p (false :: sched) (.direct (f p) p (p + 1) :: tr)
  | gives {p q : Nat} {x : α} {sched : List Bool} {tr : List (Event (Option α) α)} : NonNoneCall f p (.value x) q →
      NonNoneRun f false q sched tr → NonNoneRun f false p (true :: sched) (.derived (.value x) p q :: tr)
  | ends {p q : Nat} {a : Answer α} {sched : List Bool} {tr : List (Event (Option α) α)} : NonNoneCall f p a q → (∀ x, a ≠ .value x) →
      NonNoneRun f true q sched tr → NonNoneRun f false p (true :: sched) (.derived a p q :: tr)
  | ended {p : Nat} {sched : List Bool} {tr : List (Event (Option α) α)} : NonNoneRun f true p sched tr →
      NonNoneRun f true p (true :: sched) (.derived .stop p p :: tr)

end LazyIter
end Vista
