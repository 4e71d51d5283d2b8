import Verif.Proofs.Params
import Verif.Spec.Interpolate

/-!
# Interpolation: the regular expression, and the store of mutable dicts
-/
set_option linter.unusedSectionVars false
set_option linter.unusedSimpArgs false
namespace Vista
namespace Interp
open PVal Params

section regex
variable {word : Char → Bool}

theorem nameChar_iff (c : Char) : nameChar word c = true ↔ word c = true ∨ c = '.' ∨ c = '-' := by
  simp [nameChar, or_assoc]

theorem takeWhile_append_stop {p : Char → Bool} {n rest : Str} {c : Char} (hn : ∀ x ∈ n, p x = true) (hc : p c = false) :
    (n ++ c :: rest).takeWhile p = n ∧ (n ++ c :: rest).dropWhile p = c :: rest := by
  induction n with
  | nil => simp [hc]
  | cons a n ih =>
    obtain ⟨h1, h2⟩ := ih fun x hx => hn x (List.mem_cons_of_mem _ hx)
    simp [hn a (by simp), h1, h2]

theorem matchHere_iff (hw : word '%' = false) (s n rest : Str) : matchHere word s = some (n, rest) ↔ Starts word s n rest := by
  have hpc : nameChar word '%' = false := by simp [nameChar, hw]
  constructor
  · intro h
    cases s with
    | nil => simp [matchHere] at h
    | cons c s =>
      simp only [matchHere] at h
      split at h
      · rename_i hc
        split at h
        · rename_i a as after h1 h2
          simp only [Option.some.injEq, Prod.mk.injEq] at h
          obtain ⟨rfl, rfl⟩ := h
          refine ⟨⟨by simp, fun x hx => ?_⟩, ?_⟩
          · rw [← nameChar_iff]
            rw [← h1] at hx
            exact List.all_eq_true.1 (List.all_takeWhile) x hx
          · have := List.takeWhile_append_dropWhile (p := nameChar word) (l := s)
            rw [h1, h2] at this
            rw [hc, this]
        · simp at h
      · simp at h
  · rintro ⟨⟨h1, h2⟩, rfl⟩
    obtain ⟨h3, h4⟩ := takeWhile_append_stop (p := nameChar word) (rest := rest) (c := '%')
      (fun x hx => (nameChar_iff x).2 (h2 x hx)) hpc
    simp only [matchHere, if_true, h3, h4]
    cases n with
    | nil => exact absurd rfl h1
    | cons => rfl

theorem matchHere_none (hw : word '%' = false) (s : Str) : matchHere word s = Option.none ↔ ¬ ∃ n rest, Starts word s n rest := by
  cases h : matchHere word s with
  | none => simp only [true_iff]; rintro ⟨n, r, hs⟩; rw [(matchHere_iff hw s n r).2 hs] at h; simp at h
  | some r => simp only [reduceCtorEq, false_iff, not_not]; exact ⟨r.1, r.2, (matchHere_iff hw s _ _).1 h⟩

theorem starts_unique (hw : word '%' = false) {s n rest n' rest' : Str} (h : Starts word s n rest) (h' : Starts word s n' rest') :
    n = n' ∧ rest = rest' := by
  have := (matchHere_iff hw s n rest).2 h
  rw [(matchHere_iff hw s n' rest').2 h'] at this
  simp only [Option.some.injEq, Prod.mk.injEq] at this
  exact ⟨this.1.symm, this.2.symm⟩

theorem tokens_starts (hw : word '%' = false) {s n rest : Str} (h : Starts word s n rest) :
    tokens word s = .placeholder n :: tokens word rest := by
  rw [tokens]
  have := (matchHere_iff hw s n rest).2 h
  split
  · rename_i r hr; rw [this] at hr; simp only [Option.some.injEq] at hr; rw [← hr]
  · rename_i hr; rw [this] at hr; simp at hr

theorem tokens_char (hw : word '%' = false) {c : Char} {s : Str} (h : ¬ ∃ n rest, Starts word (c :: s) n rest) :
    tokens word (c :: s) = .char c :: tokens word s := by
  rw [tokens]
  have := (matchHere_none hw (c :: s)).2 h
  split
  · rename_i r hr; rw [this] at hr; simp at hr
  · rfl

theorem tokens_nil : tokens word [] = [] := by
  rw [tokens]
  split
  · rename_i r hr; simp [matchHere] at hr
  · rfl

/-- Reading a string from left to right. -/
theorem scan_induction (_hw : word '%' = false) {P : Str → Prop} (nil : P [])
    (placeholder : ∀ s n rest, Starts word s n rest → P rest → P s)
    (char : ∀ c s, (¬ ∃ n rest, Starts word (c :: s) n rest) → P s → P (c :: s)) (s : Str) : P s := by
  induction h : s.length using Nat.strong_induction_on generalizing s with
  | _ k ih =>
    by_cases hs : ∃ n rest, Starts word s n rest
    · obtain ⟨n, rest, hs⟩ := hs
      refine placeholder s n rest hs (ih rest.length ?_ rest rfl)
      rw [← h, hs.2]; simp; omega
    · cases s with
      | nil => exact nil
      | cons c s => exact char c s hs (ih s.length (by simp at h; omega) s rfl)

theorem placeholders_iff (hw : word '%' = false) (s m : Str) : m ∈ placeholders word s ↔ Mentions word s m := by
  unfold placeholders
  induction s using scan_induction hw with
  | nil =>
    rw [tokens_nil]
    simp only [List.filterMap_nil, List.not_mem_nil, false_iff]
    intro h
    cases h with
    | here h => exact absurd h.2 (by simp)
    | later h _ => exact absurd h.2 (by simp)
  | placeholder s n rest hs ih =>
    rw [tokens_starts hw hs]
    simp only [List.filterMap_cons, List.mem_cons, ih]
    constructor
    · rintro (rfl | h)
      · exact .here hs
      · exact .later hs h
    · intro h
      cases h with
      | here h => exact .inl (starts_unique hw h hs).1
      | later h h' => exact .inr ((starts_unique hw h hs).2 ▸ h')
      | char h _ => exact absurd ⟨_, _, hs⟩ h
  | char c s hs ih =>
    rw [tokens_char hw hs]
    simp only [List.filterMap_cons, ih]
    constructor
    · exact .char hs
    · intro h
      cases h with
      | here h => exact absurd ⟨_, _, h⟩ hs
      | later h _ => exact absurd ⟨_, _, h⟩ hs
      | char _ h => exact h

theorem fullMatch_iff (hw : word '%' = false) (s n : Str) : fullMatch word s = some n ↔ Starts word s n [] := by
  unfold fullMatch
  rw [← matchHere_iff hw]
  split
  · rename_i a h; rw [h]; simp
  · rename_i h
    simp only [reduceCtorEq, false_iff]
    intro h'; exact h n h'

theorem expand_iff (hw : word '%' = false) (σ : Store) (ctx : Params) (s t : Str) :
    expand σ ctx (tokens word s) = .ok t ↔ Expands word (fun n w => resolve σ ctx n = .ok (.val (.str w))) s t := by
  induction s using scan_induction hw generalizing t with
  | nil =>
    rw [tokens_nil]
    simp only [expand, Except.ok.injEq]
    constructor
    · rintro rfl; exact .done
    · intro h
      cases h with
      | done => rfl
      | placeholder h _ _ => exact absurd h.2 (by simp)
  | placeholder s n rest hs ih =>
    rw [tokens_starts hw hs]
    simp only [expand, bind, Except.bind]
    constructor
    · intro h
      cases hr : resolve σ ctx n with
      | error e => simp [hr] at h
      | ok c =>
        simp only [hr] at h
        split at h
        · rename_i w
          cases he : expand σ ctx (tokens word rest) with
          | error e => simp [he] at h
          | ok r =>
            simp only [he, Except.ok.injEq] at h
            rw [← h]
            exact .placeholder hs hr ((ih r).1 he)
        · simp at h
    · intro h
      cases h with
      | done => exact absurd hs.2 (by simp)
      | @placeholder _ n' rest' w t h h1 h2 =>
        obtain ⟨rfl, rfl⟩ := starts_unique hw h hs
        simp only [h1, (ih t).2 h2]
      | char h _ => exact absurd ⟨_, _, hs⟩ h
  | char c s hs ih =>
    rw [tokens_char hw hs]
    simp only [expand, bind, Except.bind]
    constructor
    · intro h
      cases he : expand σ ctx (tokens word s) with
      | error e => simp [he] at h
      | ok r =>
        simp only [he, Except.ok.injEq] at h
        rw [← h]
        exact .char hs ((ih r).1 he)
    · intro h
      cases h with
      | placeholder h _ _ => exact absurd ⟨_, _, h⟩ hs
      | char _ h => simp only [(ih _).2 h]

theorem Expands.mono {f g : Str → Str → Prop} {s t : Str} (h : Expands word f s t) (hfg : ∀ n w, Mentions word s n → f n w → g n w) :
    Expands word g s t := by
  induction h with
  | done => exact .done
  | placeholder hs hf _ ih => exact .placeholder hs (hfg _ _ (.here hs) hf) (ih fun n w hm => hfg n w (.later hs hm))
  | char hs _ ih => exact .char hs (ih fun n w hm => hfg n w (.char hs hm))

theorem Mentions.ne_nil {s m : Str} (h : Mentions word s m) : s ≠ [] := by
  cases h with
  | here h => rw [h.2]; simp
  | later h _ => rw [h.2]; simp
  | char => simp

end regex

/-! ## The initial store -/

/-- The object stored for the value `v` of the file at the path `q`. -/
def cellOf (q : List Str) (v : PVal) : Cell := if v.isParams then .ns q else .val v

theorem storeOfEntries_mem (path : List Str) (es : Entries) (x : List Str × Cell) :
    x ∈ storeOfEntries path es ↔ ∃ e ∈ es, x ∈ storeOfVal (path ++ [e.1]) e.2 := by
  induction es with
  | nil => simp [storeOfEntries]
  | cons e es ih => obtain ⟨k, v⟩ := e; simp [storeOfEntries, storeOfEntry, ih]

theorem storeOfVal_leaf {v : PVal} (h : v.isParams = false) (path) : storeOfVal path v = [(path, .val v)] := by
  cases v <;> first | rfl | simp [isParams] at h

theorem mem_storeOfVal (v : PVal) : ∀ path q c,
    (q, c) ∈ storeOfVal path v ↔ ∃ r u, q = path ++ r ∧ v.Reaches r u ∧ c = cellOf q u := by
  have hleaf : ∀ v : PVal, v.isParams = false → ∀ path q c,
      ((q, c) ∈ storeOfVal path v ↔ ∃ r u, q = path ++ r ∧ v.Reaches r u ∧ c = cellOf q u) := by
    intro v hv path q c
    rw [storeOfVal_leaf hv]
    simp only [List.mem_singleton, Prod.mk.injEq]
    constructor
    · rintro ⟨rfl, rfl⟩; exact ⟨[], v, by simp, .here v, by simp [cellOf, hv]⟩
    · rintro ⟨r, u, rfl, hr, rfl⟩
      cases r with
      | nil => rw [reaches_nil.1 hr]; simp [cellOf, hv]
      | cons k r =>
        obtain ⟨pfx, es, w, rfl, -⟩ := reaches_cons.1 hr
        simp [isParams] at hv
  induction v using PVal.ind with
  | leaf v hl => exact hleaf v hl.1
  | dict es _ => exact hleaf _ rfl
  | params pfx es ih =>
    intro path q c
    simp only [storeOfVal, List.mem_cons, storeOfEntries_mem, Prod.mk.injEq]
    constructor
    · rintro (⟨rfl, rfl⟩ | ⟨e, he, hx⟩)
      · exact ⟨[], _, by simp, .here _, rfl⟩
      · obtain ⟨r, u, rfl, hr, rfl⟩ := (ih e he _ _ _).1 hx
        exact ⟨e.1 :: r, u, by simp, .step he hr, by simp⟩
    · rintro ⟨r, u, rfl, hr, rfl⟩
      cases r with
      | nil => left; rw [reaches_nil.1 hr]; exact ⟨by simp, by simp [cellOf, isParams]⟩
      | cons k r =>
        obtain ⟨pfx', es', w, e, hm, hr⟩ := reaches_cons.1 hr
        simp only [PVal.params.injEq] at e
        obtain ⟨-, rfl⟩ := e
        exact .inr ⟨(k, w), hm, (ih _ hm _ _ _).2 ⟨r, u, by simp, hr, rfl⟩⟩

theorem storeOfVal_key_prefix {v : PVal} {path q : List Str} (h : q ∈ (storeOfVal path v).map (·.1)) : ∃ r, q = path ++ r := by
  obtain ⟨⟨a, b⟩, hm, rfl⟩ := List.mem_map.1 h
  obtain ⟨r, u, e, -⟩ := (mem_storeOfVal v path a b).1 hm
  exact ⟨r, e⟩

theorem storeOfEntries_nodup {path : List Str} {es : Entries} (hn : (es.map (·.1)).Nodup)
    (h : ∀ e ∈ es, ((storeOfVal (path ++ [e.1]) e.2).map (·.1)).Nodup) : ((storeOfEntries path es).map (·.1)).Nodup := by
  induction es with
  | nil => simp [storeOfEntries]
  | cons e es ih =>
    obtain ⟨k, v⟩ := e
    simp only [List.map_cons, List.nodup_cons] at hn
    simp only [storeOfEntries, storeOfEntry, List.map_append]
    rw [List.nodup_append]
    refine ⟨h (k, v) (by simp), ih hn.2 fun e he => h e (List.mem_cons_of_mem _ he), ?_⟩
    rintro a ha b hb rfl
    obtain ⟨r, rfl⟩ := storeOfVal_key_prefix ha
    obtain ⟨⟨x, c⟩, hm, hx⟩ := List.mem_map.1 hb
    obtain ⟨e, he, hm⟩ := (storeOfEntries_mem _ _ _).1 hm
    obtain ⟨r', u, hr', -⟩ := (mem_storeOfVal _ _ _ _).1 hm
    simp only at hx
    rw [hx] at hr'
    simp only [List.append_assoc, List.append_cancel_left_eq, List.singleton_append, List.cons.injEq] at hr'
    exact hn.1 (hr'.1 ▸ List.mem_map_of_mem (f := (·.1)) he)

theorem storeOfVal_nodup {v : PVal} (hv : v.Tree) : ∀ path, ((storeOfVal path v).map (·.1)).Nodup := by
  induction hv with
  | leaf h => intro path; rw [storeOfVal_leaf h.1]; simp
  | @params pfx es hn _ _ ih =>
    intro path
    simp only [storeOfVal, List.map_cons, List.nodup_cons]
    refine ⟨?_, storeOfEntries_nodup hn fun e he => ih e he _⟩
    intro h
    obtain ⟨⟨x, c⟩, hm, hx⟩ := List.mem_map.1 h
    obtain ⟨e, he, hm⟩ := (storeOfEntries_mem _ _ _).1 hm
    obtain ⟨r', u, hr', -⟩ := (mem_storeOfVal _ _ _ _).1 hm
    simp only at hx
    rw [hx] at hr'
    simp at hr'

/-- The children of a namespace, in order. -/
theorem children_storeOfEntries {es : Entries} (path : List Str) :
    ((storeOfEntries path es).map (·.1)).filter (fun q => decide (q.dropLast = path)) = es.map fun e => path ++ [e.1] := by
  induction es with
  | nil => simp [storeOfEntries]
  | cons e es ih =>
    obtain ⟨k, v⟩ := e
    simp only [storeOfEntries, storeOfEntry, List.map_append, List.filter_append, ih, List.map_cons]
    have : ((storeOfVal (path ++ [k]) v).map (·.1)).filter (fun q => decide (q.dropLast = path)) = [path ++ [k]] := by
      cases hv : v.isParams with
      | false => rw [storeOfVal_leaf hv]; simp
      | true =>
        obtain ⟨pfx, es', rfl⟩ := (isParams_iff v).1 hv
        simp only [storeOfVal, List.map_cons, List.filter_cons, List.dropLast_concat, decide_true, if_true, List.cons.injEq, true_and]
        rw [List.filter_eq_nil_iff]
        intro q hq
        obtain ⟨⟨x, c⟩, hm, hx⟩ := List.mem_map.1 hq
        obtain ⟨e, he, hm⟩ := (storeOfEntries_mem _ _ _).1 hm
        obtain ⟨r', u, hr', -⟩ := (mem_storeOfVal _ _ _ _).1 hm
        simp only at hx
        subst hx
        rw [hr']
        simp only [decide_eq_true_eq]
        intro hc
        have := congrArg List.length hc
        simp at this
    rw [this]; rfl

theorem children_of_reaches {v : PVal} (hv : v.Tree) {r : List Str} {pfx : List Str} {es : Entries} (hr : v.Reaches r (.params pfx es)) :
    ∀ path, path ++ r ≠ [] → ((storeOfVal path v).map (·.1)).filter (fun q => decide (q.dropLast = path ++ r)) = es.map fun e => path ++ r ++ [e.1] := by
  generalize hw : PVal.params pfx es = w at hr
  induction hr with
  | here v =>
    subst hw
    intro path hne
    rw [List.append_nil] at hne ⊢
    simp only [storeOfVal, List.map_cons, List.filter_cons]
    have : path.dropLast ≠ path := by
      intro h
      have := congrArg List.length h
      have := List.length_pos_of_ne_nil hne
      simp at *; omega
    simp only [this, decide_false, Bool.false_eq_true, if_false]
    rw [children_storeOfEntries]
  | @step pfx' es' k ks u w hm hr ih =>
    intro path hne
    obtain ⟨hn, -, ht⟩ := hv.inv
    have h1 := ih (ht _ hm) hw (path ++ [k]) (by simp)
    simp only [List.append_assoc, List.singleton_append] at h1
    simp only [storeOfVal, List.map_cons, List.filter_cons]
    have : path.dropLast ≠ path ++ k :: ks := by
      intro h
      have := congrArg List.length h
      simp at this; omega
    simp only [this, decide_false, Bool.false_eq_true, if_false]
    have hother : ∀ e : Str × PVal, e.1 ≠ k →
        ((storeOfVal (path ++ [e.1]) e.2).map (·.1)).filter (fun q => decide (q.dropLast = path ++ k :: ks)) = [] := by
      intro e hek
      rw [List.filter_eq_nil_iff]
      intro q hq
      obtain ⟨r, rfl⟩ := storeOfVal_key_prefix hq
      simp only [decide_eq_true_eq]
      intro hc
      rcases List.eq_nil_or_concat r with rfl | ⟨r', x, rfl⟩
      · have := congrArg List.length hc; simp at this
      · rw [List.concat_eq_append, ← List.append_assoc, List.dropLast_concat] at hc
        simp only [List.append_assoc, List.append_cancel_left_eq, List.singleton_append, List.cons.injEq] at hc
        exact hek hc.1
    clear ih hne ht this hr
    revert hn hm
    generalize es' = l
    intro hm hn
    induction l with
    | nil => simp at hm
    | cons e l ih =>
      obtain ⟨k', v'⟩ := e
      simp only [List.map_cons, List.nodup_cons] at hn
      simp only [storeOfEntries, storeOfEntry, List.map_append, List.filter_append]
      rcases List.mem_cons.1 hm with heq | hm'
      · simp only [Prod.mk.injEq] at heq
        obtain ⟨rfl, rfl⟩ := heq
        rw [h1]
        have : ((storeOfEntries path l).map (·.1)).filter (fun q => decide (q.dropLast = path ++ k :: ks)) = [] := by
          rw [List.filter_eq_nil_iff]
          intro q hq
          obtain ⟨⟨x, c⟩, hm, hx⟩ := List.mem_map.1 hq
          obtain ⟨e, he, hm⟩ := (storeOfEntries_mem _ _ _).1 hm
          have hek : e.1 ≠ k := fun h => hn.1 (h ▸ List.mem_map_of_mem (f := (·.1)) he)
          exact List.filter_eq_nil_iff.1 (hother e hek) q (hx ▸ List.mem_map_of_mem (f := (·.1)) hm)
        rw [this, List.append_nil]
        simp
      · have hek : k' ≠ k := by rintro rfl; exact hn.1 (List.mem_map_of_mem (f := (·.1)) hm')
        rw [hother (k', v') hek, List.nil_append]
        exact ih hm' hn.2

end Interp
end Vista
