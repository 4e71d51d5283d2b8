import Verif.Spec.Text
import Verif.Proofs.FileSystem
import Verif.Proofs.PyStr
import Verif.Proofs.PyList
import Verif.Props.KeyValue

/-!
# Lines, stripping, sorting strings
-/
set_option linter.unusedSectionVars false
set_option linter.unusedSimpArgs false
namespace Vista

/-! ## Stripping -/

theorem dropWhile_append_of_all {α : Type} {p : α → Bool} {l r : List α} (h : ∀ c ∈ l, p c = true) : (l ++ r).dropWhile p = r.dropWhile p := by
  induction l with
  | nil => rfl
  | cons a l ih =>
    rw [List.cons_append, List.dropWhile_cons_of_pos (h a (by simp)), ih fun c hc => h c (by simp [hc])]

theorem dropWhile_eq_self_of_head {α : Type} {p : α → Bool} {l : List α} (h : ∀ c, l.head? = some c → p c = false) : l.dropWhile p = l := by
  cases l with
  | nil => rfl
  | cons a l => rw [List.dropWhile_cons_of_neg (by simp [h a rfl])]

theorem strip_of_stripped {s t : Str} (h : Stripped s t) : strip s = t := by
  obtain ⟨⟨l, r, rfl, hl, hr⟩, h1, h2⟩ := h
  unfold strip
  rw [List.append_assoc, dropWhile_append_of_all hl]
  by_cases ht : t = []
  · subst ht
    have : r.dropWhile isSpace = [] := by
      rw [← List.append_nil r, dropWhile_append_of_all hr]; rfl
    simp [this]
  · have : (t ++ r).dropWhile isSpace = t ++ r := by
      apply dropWhile_eq_self_of_head
      intro c hc
      cases t with
      | nil => exact absurd rfl ht
      | cons a t => exact h1 c (by simpa using hc)
    rw [this, List.reverse_append, dropWhile_append_of_all (by simpa using hr), dropWhile_eq_self_of_head, List.reverse_reverse]
    intro c hc
    exact h2 c (by rw [List.head?_reverse] at hc; exact hc)

theorem dropWhile_split {α : Type} (p : α → Bool) (s : List α) :
    ∃ l, s = l ++ s.dropWhile p ∧ (∀ c ∈ l, p c = true) ∧ ∀ c, (s.dropWhile p).head? = some c → p c = false := by
  induction s with
  | nil => exact ⟨[], by simp⟩
  | cons a s ih =>
    by_cases ha : p a = true
    · obtain ⟨l, h1, h2, h3⟩ := ih
      rw [List.dropWhile_cons_of_pos ha]
      refine ⟨a :: l, by rw [List.cons_append, ← h1], ?_, h3⟩
      intro c hc
      rcases List.mem_cons.1 hc with rfl | hc
      · exact ha
      · exact h2 c hc
    · refine ⟨[], ?_, by simp, ?_⟩
      · rw [List.dropWhile_cons_of_neg ha]; rfl
      · rw [List.dropWhile_cons_of_neg ha]
        intro c hc
        simp only [List.head?_cons, Option.some.injEq] at hc
        rw [← hc]; simpa using ha

theorem stripped_strip (s : Str) : Stripped s (strip s) := by
  unfold strip
  obtain ⟨l, h1, h2, h3⟩ := dropWhile_split isSpace s
  generalize s.dropWhile isSpace = u at *
  obtain ⟨r, g1, g2, g3⟩ := dropWhile_split isSpace u.reverse
  have hu : u = (u.reverse.dropWhile isSpace).reverse ++ r.reverse := by
    rw [← List.reverse_append, ← g1, List.reverse_reverse]
  refine ⟨⟨l, r.reverse, ?_, h2, by simpa using g2⟩, ?_, ?_⟩
  · rw [List.append_assoc, ← hu, ← h1]
  · intro c hc
    refine h3 c ?_
    rw [hu, List.head?_append, hc]; rfl
  · intro c hc
    rw [List.getLast?_reverse] at hc
    exact g3 c hc

theorem stripped_iff (s t : Str) : Stripped s t ↔ strip s = t :=
  ⟨strip_of_stripped, fun h => h ▸ stripped_strip s⟩

/-! ## Lines -/

theorem textLines_line {l : Str} (h : '\n' ∉ l) (s : Str) : textLines (l ++ '\n' :: s) = (l ++ ['\n']) :: textLines s := by
  induction l with
  | nil => simp [textLines]
  | cons c l ih =>
    simp only [List.mem_cons, not_or] at h
    rw [List.cons_append, textLines, if_neg (fun h' => h.1 h'.symm), ih h.2]
    rfl

theorem textLines_unended {l : Str} (h : '\n' ∉ l) (hne : l ≠ []) : textLines l = [l] := by
  induction l with
  | nil => exact absurd rfl hne
  | cons c l ih =>
    simp only [List.mem_cons, not_or] at h
    rw [textLines, if_neg (fun h' => h.1 h'.symm)]
    by_cases hl : l = []
    · subst hl; rfl
    · rw [ih h.2 hl]

theorem textLines_of_isLines {s : Str} {ls : List Str} (h : IsLines s ls) : textLines s = ls := by
  induction h with
  | none => rfl
  | unended h hne => exact textLines_unended h hne
  | line h _ ih => rw [textLines_line h, ih]

theorem isLines_textLines (s : Str) : IsLines s (textLines s) := by
  induction hn : s.length using Nat.strong_induction_on generalizing s with
  | _ n ih =>
    by_cases hs : s = []
    · subst hs; exact .none
    · by_cases hnl : '\n' ∈ s
      · obtain ⟨l, r, rfl, hl⟩ := List.eq_append_cons_of_mem hnl
        rw [textLines_line hl]
        exact .line hl (ih r.length (by rw [← hn]; simp; omega) r rfl)
      · rw [textLines_unended hnl hs]
        exact .unended hnl hs

theorem isLines_iff (s : Str) (ls : List Str) : IsLines s ls ↔ textLines s = ls :=
  ⟨textLines_of_isLines, fun h => h ▸ isLines_textLines s⟩

/-! ## Universal newlines -/

theorem universalNewlines_of_no_cr {s : Str} (h : '\r' ∉ s) : universalNewlines s = s := by
  induction s with
  | nil => rfl
  | cons c s ih =>
    simp only [List.mem_cons, not_or] at h
    rw [universalNewlines]
    · rw [ih h.2, if_neg (fun h' => h.1 h'.symm)]
    · intro rest hc; exact absurd hc.symm h.1

theorem no_cr_universalNewlines (s : Str) : '\r' ∉ universalNewlines s := by
  induction s using universalNewlines.induct with
  | case1 => simp [universalNewlines]
  | case2 rest ih => rw [universalNewlines]; simp [ih]
  | case3 c rest hne ih =>
    rw [universalNewlines]
    · simp only [List.mem_cons, not_or]
      refine ⟨?_, ih⟩
      split
      · decide
      · rename_i h; exact fun h' => h h'.symm
    · exact hne

/-! ## Sorting strings -/

theorem strLe_refl (a : Str) : strLe a a = true := by
  induction a with
  | nil => rfl
  | cons c a ih => simp [strLe, ih]

theorem strLe_total (a b : Str) : strLe a b = true ∨ strLe b a = true := by
  induction a generalizing b with
  | nil => exact .inl rfl
  | cons c a ih =>
    cases b with
    | nil => exact .inr rfl
    | cons d b =>
      simp only [strLe]
      by_cases h : c = d
      · subst h; simpa using ih b
      · have hne : c.toNat ≠ d.toNat := fun h' => h (Char.toNat_inj.1 h')
        simp only [h, if_false, Ne.symm h, decide_eq_true_eq]
        omega

theorem strLe_antisymm {a b : Str} (h1 : strLe a b = true) (h2 : strLe b a = true) : a = b := by
  induction a generalizing b with
  | nil =>
    cases b with
    | nil => rfl
    | cons d b => simp [strLe] at h2
  | cons c a ih =>
    cases b with
    | nil => simp [strLe] at h1
    | cons d b =>
      simp only [strLe] at h1 h2
      by_cases h : c = d
      · subst h
        simp only [if_true] at h1 h2
        rw [ih h1 h2]
      · simp only [h, if_false, Ne.symm h, decide_eq_true_eq] at h1 h2
        omega

theorem strLe_trans {a b c : Str} (h1 : strLe a b = true) (h2 : strLe b c = true) : strLe a c = true := by
  induction a generalizing b c with
  | nil => rfl
  | cons x a ih =>
    cases b with
    | nil => simp [strLe] at h1
    | cons y b =>
      cases c with
      | nil => simp [strLe] at h2
      | cons z c =>
        simp only [strLe] at h1 h2 ⊢
        by_cases hxy : x = y
        · subst hxy
          simp only [if_true] at h1
          by_cases hxz : x = z
          · subst hxz
            simp only [if_true] at h2 ⊢
            exact ih h1 h2
          · simpa [hxz] using h2
        · simp only [hxy, if_false, decide_eq_true_eq] at h1
          by_cases hyz : y = z
          · subst hyz
            simp [hxy, h1]
          · simp only [hyz, if_false, decide_eq_true_eq] at h2
            have : x ≠ z := by rintro rfl; omega
            simp only [this, if_false, decide_eq_true_eq]
            omega

/-! ## Paths -/

theorem rootOf_join {ws : List Str} (h : ∀ w ∈ ws, w ≠ [] ∧ '/' ∉ w) (r : Str) (hr : r = [] ∨ r = ['/'] ∨ r = ['/', '/']) :
    PyPath.rootOf (r ++ joinWith '/' ws) = r := by
  have hhead : ∀ c t, joinWith '/' ws = c :: t → c ≠ '/' := by
    intro c t ht
    cases ws with
    | nil => simp [joinWith] at ht
    | cons w ws =>
      obtain ⟨h1, h4⟩ := h w (by simp)
      cases w with
      | nil => exact absurd rfl h1
      | cons x w =>
        have : joinWith '/' ((x :: w) :: ws) = x :: (joinWith '/' ((x :: w) :: ws)).tail := by
          cases ws <;> simp [joinWith]
        rw [this] at ht
        simp only [List.cons.injEq] at ht
        rw [← ht.1]
        simp only [List.mem_cons, not_or] at h4
        exact fun h' => h4.1 h'.symm
  generalize joinWith '/' ws = u at hhead
  cases u with
  | nil => rcases hr with rfl | rfl | rfl <;> rfl
  | cons c u =>
    have hc := hhead c u rfl
    rcases hr with rfl | rfl | rfl
    · simp only [List.nil_append]
      unfold PyPath.rootOf
      split <;> simp_all
    · simp only [List.cons_append, List.nil_append]
      unfold PyPath.rootOf
      split <;> simp_all
    · have hc' : ∀ t, c :: u ≠ '/' :: t := fun t h' => hc (by simpa using congrArg List.head? h')
      show PyPath.rootOf ('/' :: '/' :: c :: u) = ['/', '/']
      generalize c :: u = v at hc'
      cases v with
      | nil => rfl
      | cons d v =>
        have hd : d ≠ '/' := fun h' => hc' v (by rw [h'])
        rw [PyPath.rootOf.eq_2]
        intro t h'
        simp only [List.cons.injEq] at h'
        exact hd h'.1

/-- Rendering a path and reading it again gives the same path. -/
theorem PyPath.parse_render {p : PyPath} (h : p.Normal) : PyPath.parse p.render = p := by
  obtain ⟨r, ws⟩ := p
  have hw : ∀ w ∈ ws, w ≠ [] ∧ '/' ∉ w := fun w hm => ⟨(h.parts w hm).1, (h.parts w hm).2.2⟩
  have hr : r = [] ∨ r = ['/'] ∨ r = ['/', '/'] := h.root
  have hsplit : (splitOn '/' (joinWith '/' ws)).filter (fun w => decide (w ≠ [] ∧ w ≠ ['.'])) = ws := by
    by_cases hw : ws = []
    · subst hw; decide
    · rw [splitOn_joinWith hw fun w hm => (h.parts w hm).2.2]
      exact List.filter_eq_self.2 fun w hm => by simp [(h.parts w hm).1, (h.parts w hm).2.1]
  have hparts : (splitOn '/' (r ++ joinWith '/' ws)).filter (fun w => decide (w ≠ [] ∧ w ≠ ['.'])) = ws := by
    have step : ∀ s, (splitOn '/' ('/' :: s)).filter (fun w => decide (w ≠ [] ∧ w ≠ ['.'])) = (splitOn '/' s).filter (fun w => decide (w ≠ [] ∧ w ≠ ['.'])) := by
      intro s
      have : splitOn '/' ('/' :: s) = [] :: splitOn '/' s := by simp [splitOn]
      rw [this, List.filter_cons_of_neg (by simp)]
    rcases hr with rfl | rfl | rfl
    · exact hsplit
    · rw [List.cons_append, step]; exact hsplit
    · rw [List.cons_append, step, List.cons_append, step]; exact hsplit
  unfold PyPath.render
  by_cases he : r = [] ∧ ws = []
  · obtain ⟨rfl, rfl⟩ := he
    decide
  · simp only [he, if_false]
    unfold PyPath.parse
    rw [rootOf_join hw r hr, hparts]

theorem PyPath.parse_normal (s : Str) : (PyPath.parse s).Normal := by
  constructor
  · simp only [PyPath.parse]
    unfold PyPath.rootOf
    split <;> simp
  · intro w hw
    simp only [PyPath.parse, List.mem_filter, decide_eq_true_eq] at hw
    exact ⟨hw.2.1, hw.2.2, splitOn_no_sep '/' s w hw.1⟩

/-! ## Document maps -/

theorem splitOn_two {s a b : Str} : splitOn '\t' s = [a, b] ↔ s = a ++ '\t' :: b ∧ '\t' ∉ a ∧ '\t' ∉ b := by
  constructor
  · intro h
    refine ⟨?_, splitOn_no_sep _ _ _ (by rw [h]; simp), splitOn_no_sep _ _ _ (by rw [h]; simp)⟩
    have := joinWith_splitOn '\t' s
    rw [h] at this
    rw [← this]; rfl
  · rintro ⟨rfl, ha, hb⟩
    rw [splitOn_append_sep, splitOn_of_not_mem ha, splitOn_of_not_mem hb]; rfl

theorem twoFields_iff (line a b : Str) : TwoFields line a b ↔ ∃ x y, splitOn '\t' line = [x, y] ∧ strip x = a ∧ strip y = b := by
  simp only [TwoFields, splitOn_two, stripped_iff]
  constructor
  · rintro ⟨x, y, h1, h2, h3, h4, h5⟩; exact ⟨x, y, ⟨h1, h2, h3⟩, h4, h5⟩
  · rintro ⟨x, y, ⟨h1, h2, h3⟩, h4, h5⟩; exact ⟨x, y, h1, h2, h3, h4, h5⟩

/-- Reading the lines: exactly if each has two fields. -/
theorem docMapItems_spec (ls : List Str) (hne : ∀ l ∈ ls, l ≠ []) :
    (∀ items, docMapItems ls = .ok items ↔ List.Forall₂ (fun l e => ∃ a b, TwoFields l a b ∧ e = (a, PyPath.parse b)) ls items) ∧
    ((∃ l ∈ ls, ¬ ∃ a b, TwoFields l a b) → docMapItems ls = .error .ioError) := by
  induction ls with
  | nil =>
    refine ⟨fun items => ?_, by simp⟩
    simp only [docMapItems, Except.ok.injEq, List.forall₂_nil_left_iff]
    exact eq_comm
  | cons l ls ih =>
    obtain ⟨ih1, ih2⟩ := ih fun x hx => hne x (by simp [hx])
    have hl : l ≠ [] := hne l (by simp)
    by_cases htwo : ∃ a b, splitOn '\t' l = [a, b]
    · obtain ⟨a, b, hab⟩ := htwo
      rw [docMapItems, if_pos hl, hab]
      simp only [bind, Except.bind]
      have htf : TwoFields l (strip a) (strip b) := (twoFields_iff _ _ _).2 ⟨a, b, hab, rfl, rfl⟩
      constructor
      · intro items
        rw [List.forall₂_cons_left_iff]
        cases hd : docMapItems ls with
        | error e =>
          simp only [reduceCtorEq, false_iff]
          rintro ⟨_, r, -, hr, -⟩
          rw [(ih1 r).2 hr] at hd; simp at hd
        | ok r =>
          simp only [Except.ok.injEq]
          constructor
          · rintro rfl
            exact ⟨_, _, ⟨_, _, htf, rfl⟩, (ih1 r).1 hd, rfl⟩
          · rintro ⟨e, r', ⟨a', b', htf', rfl⟩, hr', rfl⟩
            have := (ih1 r').2 hr'
            rw [hd, Except.ok.injEq] at this
            obtain ⟨x, y, h1, rfl, rfl⟩ := (twoFields_iff _ _ _).1 htf'
            rw [hab] at h1
            simp only [List.cons.injEq, and_true] at h1
            rw [h1.1, h1.2, this]
      · rintro ⟨l', hl', hno⟩
        rcases List.mem_cons.1 hl' with rfl | hl'
        · exact absurd ⟨_, _, htf⟩ hno
        · rw [ih2 ⟨l', hl', hno⟩]
    · have hno : ¬ ∃ a b, TwoFields l a b := by
        rintro ⟨a, b, h⟩
        obtain ⟨x, y, h1, -⟩ := (twoFields_iff _ _ _).1 h
        exact htwo ⟨x, y, h1⟩
      have herr : docMapItems (l :: ls) = .error .ioError := by
        rw [docMapItems, if_pos hl]
        split
        · rename_i a b h; exact absurd ⟨a, b, h⟩ htwo
        · rfl
      rw [herr]
      refine ⟨fun items => ?_, fun _ => rfl⟩
      simp only [reduceCtorEq, false_iff]
      rw [List.forall₂_cons_left_iff]
      rintro ⟨e, r, ⟨a, b, h, -⟩, -⟩
      exact hno ⟨a, b, h⟩

end Vista
