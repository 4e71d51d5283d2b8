import Verif.Proofs.PyList
import Verif.Model.IterUtils

/-!
# Properties C34-C38: `iter_utils.py`, `collection_utils.py`, list helpers of `misc_utils.py`
-/
namespace Vista
namespace IterUtils
variable {α : Type}

theorem isliceTake_eq (n : Nat) (it : List α) : isliceTake n it = (it.take n, it.drop n) := by
  induction n generalizing it with
  | zero => simp [isliceTake]
  | succ n ih => cases it <;> simp [isliceTake, ih]

theorem isliceFrom_eq (n : Nat) (it : List α) : isliceFrom n it = it.drop n := by
  induction n generalizing it with
  | zero => simp [isliceFrom]
  | succ n ih => cases it <;> simp [isliceFrom, ih]

theorem dequeOf_take (w : Nat) (xs : List α) : dequeOf w (xs.take w) = xs.take w := by
  have : ∀ (l acc : List α), acc.length + l.length ≤ w → l.foldl (dequeAppend w) acc = acc ++ l := by
    intro l
    induction l with
    | nil => simp
    | cons x l ih =>
      intro acc h
      simp only [List.length_cons] at h
      rw [List.foldl_cons, dequeAppend, if_neg (by omega), ih _ (by simp; omega)]
      simp
  exact this _ [] (by simp)

/-- `take w (drop i xs)` for the first windows, by structural recursion. -/
theorem slide_eq (w : Nat) (hw : 1 ≤ w) (xs : List α) : ∀ (rest : List α) (i : Nat), i + w ≤ xs.length → rest = xs.drop (i + w) →
    slide w ((xs.drop i).take w) rest =
      ((List.range rest.length).map fun j => (xs.drop (i + 1 + j)).take w, (xs.drop (i + rest.length)).take w) := by
  intro rest
  induction rest with
  | nil => intro i _ _; simp [slide]
  | cons e es ih =>
    intro i hi he
    have hlen : (xs.drop (i + w)).length = es.length + 1 := by rw [← he]; simp
    rw [List.length_drop] at hlen
    have hstep : dequeAppend w ((xs.drop i).take w) e = (xs.drop (i + 1)).take w := by
      unfold dequeAppend
      rw [if_pos (by simp; omega)]
      have he' : xs[i + w]? = some e := by
        have := congrArg (fun l => l[0]?) he
        simpa using this.symm
      have hi' : i < xs.length := by omega
      obtain ⟨y, hy⟩ : ∃ y, xs.drop i = y :: xs.drop (i + 1) := ⟨xs[i], List.drop_eq_getElem_cons hi'⟩
      obtain ⟨w', rfl⟩ : ∃ w', w = w' + 1 := ⟨w - 1, by omega⟩
      rw [hy, List.take_succ_cons, List.cons_append, List.tail_cons]
      rw [List.take_add_one, List.getElem?_drop]
      have : i + 1 + w' = i + (w' + 1) := by omega
      rw [this, he']; rfl
    have := ih (i + 1) (by omega) (by
      have := congrArg List.tail he
      simp only [List.tail_cons, List.tail_drop] at this
      rw [this]; congr 1; omega)
    rw [slide, hstep, this]
    simp only [List.length_cons, List.range_succ_eq_map, List.map_cons, List.map_map, Nat.add_zero, Prod.mk.injEq,
      List.cons.injEq, true_and]
    refine ⟨?_, ?_⟩
    · apply List.map_congr_left
      intro j _
      simp only [Function.comp]
      congr 2; omega
    · congr 2; omega

/-! ## C34 -/

theorem completeWindows_eq (xs : List α) (w : Nat) (hw : 1 ≤ w) :
    completeWindows xs w = (List.range (xs.length + 1 - w)).map fun i => (xs.drop i).take w := by
  unfold completeWindows
  rw [isliceTake_eq]
  simp only [dequeOf_take]
  by_cases h : xs.length < w
  · rw [if_pos (by simp; omega)]
    have : xs.length + 1 - w = 0 := by omega
    rw [this]; rfl
  · rw [if_neg (by simp; omega)]
    have hs := slide_eq w hw xs (xs.drop w) 0 (by omega) (by simp)
    simp only [List.drop_zero, Nat.zero_add] at hs
    rw [hs]
    have : xs.length + 1 - w = (xs.length - w) + 1 := by omega
    rw [this, List.range_succ_eq_map]
    simp only [List.map_cons, List.drop_zero, List.map_map, List.length_drop, List.cons.injEq, true_and]
    apply List.map_congr_left
    intro j _
    simp only [Function.comp]
    congr 2; omega

/-- `windowed(xs, w)`: every complete window `xs[i:i+w]`, in order.  Looping again over the result for an iterable gives the
same windows; over the result for an iterator, none. -/
theorem C34_complete_windows (xs : List α) (isIterator : Bool) (w : Int) :
    (w < 1 → windowed xs isIterator w false = .error .valueError) ∧
    (1 ≤ w → ∃ r, windowed xs isIterator w false = .ok r ∧
      r.loop.1 = .ok ((List.range (xs.length + 1 - w.toNat)).map fun i => (xs.drop i).take w.toNat) ∧
      r.loop.2.loop.1 = if isIterator then .ok [] else r.loop.1) := by
  constructor
  · intro h
    have : ¬ (1 ≤ w) := by omega
    simp [windowed, checkArg, bind, Except.bind, this]
  · intro h
    have hw : 1 ≤ w.toNat := by omega
    cases isIterator with
    | true =>
      refine ⟨_, by simp [windowed, checkArg, bind, Except.bind, h]; rfl, ?_, ?_⟩
      · simp [Windowed.loop, windowsOf, completeWindows_eq xs _ hw]
      · simp [Windowed.loop, windowsOf, completeWindows_eq _ _ hw]; omega
    | false =>
      refine ⟨_, by simp [windowed, checkArg, bind, Except.bind, h]; rfl, ?_, ?_⟩
      · simp [Windowed.loop, windowsOf, completeWindows_eq xs _ hw]
      · simp [Windowed.loop]

/-- `tile_with_pairs(xs)` is the list of adjacent pairs. -/
theorem C34_tile_with_pairs (xs : List α) (isIterator : Bool) :
    ∃ r, tileWithPairs xs isIterator = .ok r ∧
      r.loop.1 = .ok ((List.range (xs.length - 1)).map fun i => (xs.drop i).take 2) := by
  obtain ⟨r, h1, h2, -⟩ := (C34_complete_windows xs isIterator 2).2 (by decide)
  exact ⟨r, h1, h2⟩

example : ∃ r, windowed [1, 2, 3, 4] true 3 false = .ok r ∧ r.loop.1 = .ok [[1, 2, 3], [2, 3, 4]] := ⟨_, rfl, rfl⟩

/-! ## C35 -/

theorem drain_eq (n : Nat) (win : List α) (hne : win ≠ []) (hn : win.length ≤ n + 1) :
    drain n win = .ok ((List.range (win.length - 1)).map fun i => win.drop (i + 1)) := by
  induction n generalizing win with
  | zero =>
    have : win.length - 1 = 0 := by omega
    rw [this]; rfl
  | succ n ih =>
    cases win with
    | nil => exact absurd rfl hne
    | cons x win =>
      unfold drain
      simp only [popleft, bind, Except.bind]
      cases win with
      | nil => simp
      | cons y win =>
        simp only [List.length_cons] at hn
        rw [ih (y :: win) (by simp) (by simp only [List.length_cons]; omega)]
        simp only [List.isEmpty_cons, Bool.false_eq_true, if_false, List.length_cons, Nat.add_sub_cancel]
        rw [List.range_succ_eq_map]
        simp

theorem possiblyIncompleteWindows_eq (xs : List α) (w : Nat) (hw : 1 ≤ w) :
    possiblyIncompleteWindows xs w = .ok ((List.range xs.length).map fun i => (xs.drop i).take w) := by
  unfold possiblyIncompleteWindows
  rw [isliceTake_eq]
  simp only [dequeOf_take]
  cases xs with
  | nil => simp
  | cons x xs' =>
    generalize hX : x :: xs' = xs
    have hne : xs ≠ [] := by rw [← hX]; simp
    have hpos : 0 < xs.length := List.length_pos_of_ne_nil hne
    have htne : xs.take w ≠ [] := by
      intro h
      rcases List.take_eq_nil_iff.1 h with h | h
      · omega
      · exact hne h
    rw [if_neg (by simpa using htne)]
    by_cases h : xs.length < w
    · rw [List.drop_eq_nil_of_le (by omega), List.take_of_length_le (by omega)]
      simp only [slide, bind, Except.bind, List.nil_append]
      rw [drain_eq (w - 1) xs hne (by omega)]
      simp only [Except.ok.injEq]
      obtain ⟨n, hn⟩ : ∃ n, xs.length = n + 1 := ⟨xs.length - 1, by omega⟩
      rw [hn, List.range_succ_eq_map]
      simp only [Nat.add_sub_cancel, List.map_cons, List.drop_zero, List.map_map, List.cons.injEq]
      refine ⟨(List.take_of_length_le (by omega)).symm, ?_⟩
      apply List.map_congr_left
      intro i _
      simp only [Function.comp]
      rw [List.take_of_length_le (by simp; omega)]
    · have hs := slide_eq w hw xs (xs.drop w) 0 (by omega) (by simp)
      simp only [List.drop_zero, Nat.zero_add, List.length_drop] at hs
      rw [hs]
      simp only [bind, Except.bind]
      have hlast : (xs.drop (xs.length - w)).take w = xs.drop (xs.length - w) := List.take_of_length_le (by simp; omega)
      rw [hlast, drain_eq (w - 1) _ (by intro hc; rw [List.drop_eq_nil_iff] at hc; omega) (by simp; omega)]
      simp only [Except.ok.injEq]
      have e : xs.length = (xs.length - w + 1) + (w - 1) := by omega
      conv_rhs => rw [e, List.range_add, List.map_append, List.range_succ_eq_map]
      simp only [List.map_cons, List.drop_zero, List.map_map, List.cons_append, List.cons.injEq, true_and]
      congr 1
      · apply List.map_congr_left
        intro i _
        simp only [Function.comp]
        congr 2; omega
      · have : (xs.drop (xs.length - w)).length - 1 = w - 1 := by simp; omega
        rw [this]
        apply List.map_congr_left
        intro i _
        simp only [Function.comp, List.drop_drop]
        rw [List.take_of_length_le (by simp; omega)]
        congr 1; omega

/-- `windowed(xs, w, partial_windows=True)`: one window `xs[i:i+w]` (cut at the end) per element, in order. -/
theorem C35_partial_windows (xs : List α) (isIterator : Bool) (w : Int) :
    (w < 1 → windowed xs isIterator w true = .error .valueError) ∧
    (1 ≤ w → ∃ r, windowed xs isIterator w true = .ok r ∧
      r.loop.1 = .ok ((List.range xs.length).map fun i => (xs.drop i).take w.toNat) ∧
      r.loop.2.loop.1 = if isIterator then .ok [] else r.loop.1) := by
  constructor
  · intro h
    have : ¬ (1 ≤ w) := by omega
    simp [windowed, checkArg, bind, Except.bind, this]
  · intro h
    have hw : 1 ≤ w.toNat := by omega
    cases isIterator with
    | true =>
      refine ⟨_, by simp [windowed, checkArg, bind, Except.bind, h]; rfl, ?_, ?_⟩
      · simp [Windowed.loop, windowsOf, possiblyIncompleteWindows_eq xs _ hw]
      · simp [Windowed.loop, windowsOf, possiblyIncompleteWindows_eq _ _ hw]
    | false =>
      refine ⟨_, by simp [windowed, checkArg, bind, Except.bind, h]; rfl, ?_, ?_⟩
      · simp [Windowed.loop, windowsOf, possiblyIncompleteWindows_eq xs _ hw]
      · simp [Windowed.loop]

example : ∃ r, windowed [1, 2, 3] true 5 true = .ok r ∧ r.loop.1 = .ok [[1, 2, 3], [2, 3], [3]] := ⟨_, rfl, rfl⟩

/-! ## C36 -/

/-- `drop(it, n)`: `ValueError` iff `n < 0`; else `xs[n:]`.  Looping again over the result for an iterable gives the same;
over the result for an iterator, nothing. -/
theorem C36_drop (xs : List α) (isIterator : Bool) (n : Int) :
    (n < 0 → (match drop xs isIterator n with | .error e => e = .valueError | .ok _ => False)) ∧
    (0 ≤ n → ∃ r, drop xs isIterator n = .ok r ∧ r.loop.1 = xs.drop n.toNat ∧
      r.loop.2.loop.1 = (if isIterator then [] else xs.drop n.toNat)) := by
  constructor
  · intro h
    have : ¬ (0 ≤ n) := by omega
    simp [drop, checkArg, bind, Except.bind, this]
  · intro h
    cases isIterator with
    | true =>
      refine ⟨_, by simp [drop, checkArg, bind, Except.bind, h]; rfl, ?_, ?_⟩
      · simp [Dropped.loop, isliceFrom_eq]
      · simp [Dropped.loop, isliceFrom]
    | false =>
      refine ⟨_, by simp [drop, checkArg, bind, Except.bind, h]; rfl, ?_, ?_⟩ <;> simp [Dropped.loop, isliceFrom_eq]

example : ∃ r, drop [1, 2, 3] false 2 = .ok r ∧ r.loop.1 = [3] ∧ r.loop.2.loop.1 = [3] := ⟨_, rfl, rfl, rfl⟩

/-! ## C37 -/

/-- `only` returns `x` iff the input has exactly the one element `x`, else raises `ValueError`; it takes at most two
elements.  (Provided every element compares unequal to a fresh object, as line 80 needs.) -/
theorem C37_only (xs : List α) (ne : α → Bool) (hne : ∀ x ∈ xs, ne x = true) :
    (∀ x, (only ne xs).1 = .ok x ↔ xs = [x]) ∧
    ((only ne xs).1 = .error .valueError ↔ xs.length ≠ 1) ∧
    ∃ taken, xs = taken ++ (only ne xs).2 ∧ taken.length ≤ 2 := by
  match xs, hne with
  | [], _ => exact ⟨by simp [only], by simp [only], [], rfl, by simp⟩
  | [y], _ => exact ⟨by simp [only], by simp [only], [y], rfl, by simp⟩
  | y :: z :: rest, hne =>
    have hz := hne z (by simp)
    refine ⟨by simp [only, hz], by simp [only, hz], [y, z], by simp [only, hz], by simp⟩

/-- Deviation: an element whose `!=` answers `False` to everything makes `only` accept a longer input. -/
theorem C37_only_counterexample : (only (fun _ => false) [1, 2, 3]).1 = .ok 1 := rfl

/-- `get_only` returns `x` iff the input has exactly the one element `x`, else raises `ValueError`. -/
theorem C37_get_only (xs : List α) :
    (∀ x, (getOnly xs).1 = .ok x ↔ xs = [x]) ∧
    ((getOnly xs).1 = .error .valueError ↔ xs.length ≠ 1) ∧
    ∃ taken, xs = taken ++ (getOnly xs).2 ∧ taken.length ≤ 2 := by
  match xs with
  | [] => exact ⟨by simp [getOnly], by simp [getOnly], [], rfl, by simp⟩
  | [y] => exact ⟨by simp [getOnly], by simp [getOnly], [y], rfl, by simp⟩
  | y :: z :: rest => exact ⟨by simp [getOnly], by simp [getOnly], [y, z], by simp [getOnly], by simp⟩

example : ∀ x ∈ [7], (fun _ : Nat => true) x = true := by simp

/-! ## C38 -/

/-- `non_none` gives the elements that are not `None`, in order. -/
theorem C38_non_none (xs : List (Option α)) : (nonNone xs).map some = xs.filter (·.isSome) := by
  induction xs with
  | nil => rfl
  | cons x xs ih => cases x <;> simp [nonNone, ih]

/-- `flatten_once_to_list` concatenates. -/
theorem C38_flatten (xss : List (List α)) : flattenOnceToList xss = xss.flatten := by
  induction xss with
  | nil => rfl
  | cons x xs ih => simp [flattenOnceToList, ih]

theorem rfind_of_not_mem {c : Char} {s : Str} (h : c ∉ s) : rfind c s = -1 := by
  unfold rfind
  have : s.reverse.findIdx? (· == c) = none := by
    rw [List.findIdx?_eq_none_iff]
    intro x hx
    have : x ∈ s := by simpa using hx
    simp only [beq_eq_false_iff_ne]
    rintro rfl; exact h this
  rw [this]

theorem rfind_append {c : Char} {stem ext : Str} (h : c ∉ ext) : rfind c (stem ++ c :: ext) = stem.length := by
  unfold rfind
  have : (stem ++ c :: ext).reverse.findIdx? (· == c) = some ext.length := by
    have e : (stem ++ c :: ext).reverse = ext.reverse ++ c :: stem.reverse := by simp
    rw [e, List.findIdx?_append]
    have : ext.reverse.findIdx? (· == c) = none := by
      rw [List.findIdx?_eq_none_iff]
      intro x hx
      have : x ∈ ext := by simpa using hx
      simp only [beq_eq_false_iff_ne]
      rintro rfl; exact h this
    rw [this]
    simp [List.findIdx?_cons]
  rw [this]
  simp only [List.length_append, List.length_cons]
  omega

/-- `strip_extension(stem + "." + ext) = stem` when `ext` has no dot; a name without a dot is unchanged. -/
theorem C38_strip_extension :
    (∀ stem ext : Str, '.' ∉ ext → stripExtension (stem ++ '.' :: ext) = stem) ∧
    (∀ name : Str, '.' ∉ name → stripExtension name = name) := by
  constructor
  · intro stem ext h
    unfold stripExtension
    rw [rfind_append h]
    simp only
    rw [if_pos (by omega), pySlice_nonneg _ (le_refl _) (by omega)]
    simp
  · intro name h
    unfold stripExtension
    rw [rfind_of_not_mem h]
    simp

/-- `str_list_limited`: `ValueError` for a negative limit; `str(list)` when it fits; otherwise the first `limit` elements as
`str(list)` shows them, followed by the number of the others. -/
theorem C38_str_list_limited (repr : α → Str) (xs : List α) (limit : Int) :
    (limit < 0 → strListLimited repr xs limit = .error .valueError) ∧
    (0 ≤ limit → xs.length ≤ limit → strListLimited repr xs limit =
      .ok ('[' :: List.intercalate ", ".toList (xs.map repr) ++ "]".toList)) ∧
    (∀ shown hidden : List α, xs = shown ++ hidden → hidden ≠ [] → (shown.length : Int) = limit →
      strListLimited repr xs limit = .ok ("[".toList ++ List.intercalate ", ".toList (shown.map repr) ++
        (" and ".toList ++ (toString (hidden.length : Int)).toList ++ " more".toList) ++ "]".toList)) := by
  refine ⟨fun h => by simp [strListLimited, h], fun h1 h2 => ?_, ?_⟩
  · have : ¬ limit < 0 := by omega
    simp [strListLimited, strList, this, h2]
  · rintro shown hidden rfl hne hl
    have hpos := List.length_pos_of_ne_nil hne
    have h1 : ¬ limit < 0 := by omega
    have h2 : ¬ (((shown ++ hidden).length : Int) ≤ limit) := by simp; omega
    unfold strListLimited
    rw [if_neg h1, if_neg h2, pySlice_nonneg _ (le_refl _) (by omega)]
    have h3 : limit.toNat = shown.length := by omega
    have h4 : ((shown ++ hidden).length : Int) - limit = (hidden.length : Int) := by simp; omega
    rw [h3, h4]
    simp

example : stripExtension "a.b.txt".toList = "a.b".toList := by decide +kernel
example : strListLimited (fun n : Nat => (toString n).toList) [1, 2, 3, 4, 5] 2 = .ok "[1, 2 and 3 more]".toList := by decide +kernel

end IterUtils
end Vista
