import Verif.Props.Interpolate
import Mathlib.Data.List.Infix

/-!
# C51: placeholders that go on below a leaf
-/
set_option linter.unusedSimpArgs false
namespace Vista
namespace Interp
open PVal Params

theorem isSubstring_iff (k s : Str) : isSubstring k s = true ↔ k <:+: s := by
  unfold isSubstring
  simp only [List.any_eq_true, List.mem_tails, List.isPrefixOf_iff_prefix]
  exact (List.infix_iff_prefix_suffix).symm.trans Iff.rfl |> fun h => ⟨fun ⟨t, a, b⟩ => h.1 ⟨t, b, a⟩, fun hh => let ⟨t, a, b⟩ := h.2 hh; ⟨t, b, a⟩⟩

theorem stepIntoOther_leaf {v : PVal} (hv : Leaf v) (k : Str) :
    (∀ e, stepIntoOther k v = some e ↔ e = .typeError ∧ (∀ s, v = .str s → k <:+: s) ∧ ∀ xs, v = .list xs → .str k ∈ xs) := by
  intro e
  have hp := hv.1
  cases v with
  | str s =>
    simp only [stepIntoOther]
    by_cases h : isSubstring k s = true
    · simp [h, (isSubstring_iff k s).1 h, eq_comm]
    · have : ¬ k <:+: s := fun h' => h ((isSubstring_iff k s).2 h')
      simp [h, this]
  | list xs =>
    simp only [stepIntoOther]
    split
    · rename_i h
      have : PVal.str k ∈ xs := by
        rw [List.any_eq_true] at h
        obtain ⟨x, hx, h⟩ := h
        cases x <;> simp at h
        subst h; exact hx
      simp [this, eq_comm]
    · rename_i h
      have : ¬ PVal.str k ∈ xs := fun hm => h (by rw [List.any_eq_true]; exact ⟨_, hm, by simp⟩)
      simp [this]
  | params => simp [isParams] at hp
  | _ => simp [stepIntoOther, eq_comm]

theorem getFrom_val {σ : Store} {v : PVal} (hv : Leaf v) (b : List Str) (hb : b ≠ []) (e : Exc) :
    getFrom σ (.val v) b = .error e ↔ ∃ k, (b = [k] ∧ e = .attributeError) ∨
      ((∃ k' ks, b = k :: k' :: ks) ∧ e = .typeError ∧ (∀ s, v = .str s → k <:+: s) ∧ ∀ xs, v = .list xs → .str k ∈ xs) := by
  cases b with
  | nil => exact absurd rfl hb
  | cons k ks =>
    cases ks with
    | nil =>
      have : getOnOther k v = .attributeError := by have h1 := hv.1; cases v <;> first | rfl | (simp [isParams] at h1)
      simp [getFrom, this, eq_comm]
    | cons k' ks =>
      have := stepIntoOther_leaf hv k
      simp only [getFrom]
      cases hs : stepIntoOther k v with
      | none =>
        simp only [hs, reduceCtorEq, false_iff] at this
        constructor
        · intro h; simp at h
        · rintro ⟨k1, ⟨h, -⟩ | ⟨⟨k2, ks2, h⟩, h1, h2⟩⟩
          · simp at h
          · simp only [List.cons.injEq] at h
            obtain ⟨rfl, -⟩ := h
            exact absurd ⟨h1, h2⟩ (this e)
      | some e' =>
        simp only [hs, Option.some.injEq] at this
        simp only [Except.error.injEq, this e]
        constructor
        · intro h; exact ⟨k, .inr ⟨⟨k', ks, rfl⟩, h⟩⟩
        · rintro ⟨k1, ⟨h, -⟩ | ⟨⟨k2, ks2, h⟩, h1⟩⟩
          · simp at h
          · simp only [List.cons.injEq] at h
            obtain ⟨rfl, -⟩ := h
            exact h1

theorem tree_leaf {v u : PVal} {q : List Str} (h : Tree v) (hr : v.Reaches q u) (hu : u.isParams = false) : Leaf u := by
  have := PVal.Tree.reaches h hr
  cases this with
  | leaf hl => exact hl
  | params => simp [isParams] at hu

theorem getFrom_error {file : Params} (ht : file.Tree) (e : Exc) : ∀ (ks p : List Str) (pfx : List Str) (es : Entries), file.toVal.Reaches p (.params pfx es) → ks ≠ [] →
    (getFrom (store0 file) (.ns p) ks = .error e ↔
      ∃ a b v, ks = a ++ b ∧ b ≠ [] ∧ file.toVal.Reaches (p ++ a) v ∧ Leaf v ∧ getFrom (store0 file) (.val v) b = .error e) := by
  intro ks
  induction ks with
  | nil => intro p pfx es _ h; exact absurd rfl h
  | cons k ks ih =>
    intro p pfx es hp _
    -- a leaf is not the namespace itself
    have hne : ∀ v, file.toVal.Reaches p v → ¬ Leaf v := by
      intro v hv hl
      rw [reaches_unique (PVal.Tree.wf ht) hv hp] at hl
      simp [Leaf, isParams] at hl
    cases ks with
    | nil =>
      simp only [getFrom, reduceCtorEq, false_iff]
      rintro ⟨a, b, v, h1, h2, h3, h4, h5⟩
      cases a with
      | nil => exact hne v (by simpa using h3) h4
      | cons x a => simp only [List.cons_append, List.cons.injEq, List.nil_eq, List.append_eq_nil_iff] at h1; exact h2 h1.2.2
    | cons k' ks =>
      simp only [getFrom]
      cases hg : dictGet (store0 file) (p ++ [k]) with
      | none =>
        simp only [reduceCtorEq, false_iff]
        rintro ⟨a, b, v, h1, h2, h3, h4, h5⟩
        cases a with
        | nil => exact hne v (by simpa using h3) h4
        | cons x a =>
          simp only [List.cons_append, List.cons.injEq] at h1
          obtain ⟨rfl, -⟩ := h1
          obtain ⟨w, hw, -⟩ := reaches_append.1 (show file.toVal.Reaches ((p ++ [k]) ++ a) v by simpa using h3)
          rw [(store0_get ht (p ++ [k]) _).2 ⟨by simp, w, hw, rfl⟩] at hg
          simp at hg
      | some c =>
        obtain ⟨-, u, hu, rfl⟩ := (store0_get ht _ _).1 hg
        simp only
        by_cases hup : u.isParams = true
        · obtain ⟨pfx', es', rfl⟩ : ∃ pfx' es', u = .params pfx' es' := by cases u <;> simp [isParams] at hup; exact ⟨_, _, rfl⟩
          simp only [cellOf, isParams, if_true]
          rw [ih (p ++ [k]) pfx' es' hu (by simp)]
          constructor
          · rintro ⟨a, b, v, h1, h2, h3, h4, h5⟩
            exact ⟨k :: a, b, v, by rw [h1]; rfl, h2, by simpa using h3, h4, h5⟩
          · rintro ⟨a, b, v, h1, h2, h3, h4, h5⟩
            cases a with
            | nil => exact absurd h4 (hne v (by simpa using h3))
            | cons x a =>
              simp only [List.cons_append, List.cons.injEq] at h1
              obtain ⟨rfl, h1⟩ := h1
              exact ⟨a, b, v, h1, h2, by simpa using h3, h4, h5⟩
        · have hup : u.isParams = false := by simpa using hup
          have hl := tree_leaf ht hu hup
          simp only [cellOf, hup, Bool.false_eq_true, if_false]
          constructor
          · intro h; exact ⟨[k], k' :: ks, u, rfl, by simp, hu, hl, h⟩
          · rintro ⟨a, b, v, h1, h2, h3, h4, h5⟩
            cases a with
            | nil => exact absurd h4 (hne v (by simpa using h3))
            | cons x a =>
              simp only [List.cons_append, List.cons.injEq] at h1
              obtain ⟨rfl, h1⟩ := h1
              cases a with
              | nil =>
                rw [reaches_unique (PVal.Tree.wf ht) (show file.toVal.Reaches (p ++ [k]) v by simpa using h3) hu] at h5
                simp only [List.nil_append] at h1
                rw [h1]; exact h5
              | cons y a =>
                obtain ⟨w, hw, hw2⟩ := reaches_append.1 (show file.toVal.Reaches ((p ++ [k]) ++ y :: a) v by simpa using h3)
                rw [reaches_unique (PVal.Tree.wf ht) hw hu] at hw2
                obtain ⟨_, _, _, hx, -⟩ := reaches_cons.1 hw2
                rw [hx] at hup; simp [isParams] at hup

theorem stuck_iff {file : Params} (ht : file.Tree) (m : Str) (e : Exc) : getFrom (store0 file) root (splitOn '.' m) = .error e ↔ Stuck file m e := by
  unfold root
  obtain ⟨pfx, es⟩ := file
  rw [getFrom_error ht e _ [] pfx es (reaches_nil.2 rfl) (splitOn_ne_nil _ _)]
  constructor
  · rintro ⟨a, b, v, h1, h2, h3, h4, h5⟩
    obtain ⟨k, h | h⟩ := (getFrom_val h4 b h2 e).1 h5
    · exact ⟨a, k, v, by simpa using h3, h4, .inl ⟨by rw [h1, h.1], h.2⟩⟩
    · obtain ⟨⟨k', ks, rfl⟩, h⟩ := h
      exact ⟨a, k, v, by simpa using h3, h4, .inr ⟨⟨k', ks, h1⟩, h⟩⟩
  · rintro ⟨a, k, v, h3, h4, ⟨h1, h2⟩ | ⟨⟨k', ks, h1⟩, h2⟩⟩
    · exact ⟨a, [k], v, h1, by simp, by simpa using h3, h4, (getFrom_val h4 _ (by simp) e).2 ⟨k, .inl ⟨rfl, h2⟩⟩⟩
    · exact ⟨a, _, v, h1, by simp, by simpa using h3, h4, (getFrom_val h4 _ (by simp) e).2 ⟨k, .inr ⟨⟨k', ks, rfl⟩, h2⟩⟩⟩

section
variable {word : Char → Bool}

theorem gatherFrom_error {σ : Store} {key : Str} {ms : List Str} {e : Exc} (h : gatherFrom σ key ms = .error e) :
    ∃ m ∈ ms, getFrom σ root (splitOn '.' m) = .error e := by
  induction ms with
  | nil => simp [gatherFrom] at h
  | cons m ms ih =>
    simp only [gatherFrom, bind, Except.bind] at h
    cases hg : getFrom σ root (splitOn '.' m) with
    | error e' => simp only [hg, Except.error.injEq] at h; exact ⟨m, by simp, h ▸ hg⟩
    | ok c =>
      simp only [hg] at h
      cases hg' : gatherFrom σ key ms with
      | error e' =>
        simp only [hg', Except.error.injEq] at h
        obtain ⟨m', h1, h2⟩ := ih (h ▸ hg')
        exact ⟨m', by simp [h1], h2⟩
      | ok r' => simp only [hg'] at h; split at h <;> simp at h

theorem gather_error {σ : Store} {items : List (Str × PVal)} {e : Exc} (h : gather word σ items = .error e) :
    ∃ k s m, (k, .str s) ∈ items ∧ m ∈ placeholders word s ∧ getFrom σ root (splitOn '.' m) = .error e := by
  induction items with
  | nil => simp [gather] at h
  | cons x items ih =>
    obtain ⟨key, v⟩ := x
    by_cases hv : ∃ s, v = .str s
    · obtain ⟨s', rfl⟩ := hv
      simp only [gather, bind, Except.bind] at h
      cases hg : gatherFrom σ key (placeholders word s') with
      | error e' =>
        simp only [hg, Except.error.injEq] at h
        obtain ⟨m, h1, h2⟩ := gatherFrom_error hg
        exact ⟨key, s', m, by simp, h1, h ▸ h2⟩
      | ok c =>
        simp only [hg] at h
        cases hg' : gather word σ items with
        | error e' =>
          simp only [hg', Except.error.injEq] at h
          obtain ⟨k, s, m, h1, h2⟩ := ih (h ▸ hg')
          exact ⟨k, s, m, List.mem_cons_of_mem _ h1, h2⟩
        | ok r' => simp [hg'] at h
    · have hg : gather word σ ((key, v) :: items) = gather word σ items := by
        cases v <;> first | rfl | exact absurd ⟨_, rfl⟩ hv
      rw [hg] at h
      obtain ⟨k, s, m, h1, h2⟩ := ih h
      exact ⟨k, s, m, List.mem_cons_of_mem _ h1, h2⟩

/-- If some placeholder of the file cannot be looked up, interpolation raises what one of these raises. -/
theorem C51_stuck (hw : word '%' = false) (file ctx : Params) (hf : file.Loaded) (hcp : ctx.pfx = []) (path : List Str) (s m : Str) (e : Exc)
    (hs : file.toVal.Reaches path (.str s)) (hm : Mentions word s m) (hst : Stuck file m e) :
    ∃ e', interpolate word file ctx = .error e' ∧ ∃ path s m, file.toVal.Reaches path (.str s) ∧ Mentions word s m ∧ Stuck file m e' := by
  have ht : file.Tree := ((loaded_iff file).1 hf).tree
  have hpfx : file.pfx = [] := ((loaded_iff file).1 hf).inv.1
  have hne : path ≠ [] := by
    rintro rfl
    have := reaches_nil.1 hs
    simp [toVal] at this
  have hsj := splitOn_joinWith hne (reaches_dotfree (PVal.Tree.wf ht) hs)
  have hitem := (C43_items file hf (joinWith '.' path) (.str s)).2 ⟨hsj.symm ▸ hs, rfl⟩
  cases hg : gather word (store0 file) file.namespacedItems with
  | ok r =>
    obtain ⟨c, hc⟩ := gather_ok hg _ _ hitem m ((placeholders_iff hw s m).2 hm)
    rw [(stuck_iff ht m e).2 hst] at hc
    simp at hc
  | error e' =>
    refine ⟨e', ?_, ?_⟩
    · have hg' : gather word (storeOfEntries [] file.data) file.namespacedItems = .error e' := hg
      simp only [interpolate, hpfx, hcp, List.isEmpty_nil, checkArg, if_true, bind, Except.bind, hg']
    · obtain ⟨k, s', m', h1, h2, h3⟩ := gather_error hg
      exact ⟨_, s', m', ((C43_items file hf k _).1 h1).1, (placeholders_iff hw s' m').1 h2, (stuck_iff ht m' e').1 h3⟩

end

/-- `a: "text"`, `n: "%a.c%"` and `m: "%a.x.y%"` are stuck. -/
example : Stuck ⟨[], [("a".toList, .str "text".toList), ("n".toList, .str "%a.c%".toList), ("m".toList, .str "%a.x.y%".toList)]⟩ "a.c".toList .attributeError ∧
    Stuck ⟨[], [("a".toList, .str "text".toList), ("n".toList, .str "%a.c%".toList), ("m".toList, .str "%a.x.y%".toList)]⟩ "a.x.y".toList .typeError := by
  refine ⟨⟨["a".toList], "c".toList, .str "text".toList, .step (List.mem_cons_self ..) (.here _), ⟨rfl, rfl⟩, .inl ⟨by decide +kernel, rfl⟩⟩,
    ⟨["a".toList], "x".toList, .str "text".toList, .step (List.mem_cons_self ..) (.here _), ⟨rfl, rfl⟩,
      .inr ⟨⟨"y".toList, [], by decide +kernel⟩, rfl, ?_, fun xs h => by cases h⟩⟩⟩
  intro s h
  cases h
  exact ⟨"te".toList, "t".toList, by decide +kernel⟩

end Interp
end Vista
