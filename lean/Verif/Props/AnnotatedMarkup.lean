import Verif.Props.AnnotatedText
import Verif.Spec.Markup

/-!
# Property C86: annotated text can be read back

Stated about the string returned only: a reader of markup (`Verif/Spec/Markup.lean`) gets back the text and the annotations.
-/
set_option linter.unusedSectionVars false
set_option linter.unusedSimpArgs false
namespace Vista
namespace AnnotatedText
open Markup

/-! ## Specification -/

/-- Nothing in the annotation looks like markup: the label has no `>` or blank and does not start with `/`, a key of an
attribute has no `>` or `=`, a value no `>` or `"`. -/
def Plain (a : AnnotatedSpan) : Prop :=
  '>' ∉ a.label ∧ ' ' ∉ a.label ∧ a.label.head? ≠ some '/' ∧
  ∀ kv ∈ a.attributes, '>' ∉ kv.1 ∧ '=' ∉ kv.1 ∧ '>' ∉ kv.2 ∧ '"' ∉ kv.2

/-- The element `e` read from the markup shows the annotation `a` of the document in the snippet at `o`: same label, same
attributes, and it covers exactly the offsets of `a` inside `o`, counted from the start of `o`. -/
def Shows (o : Span) (a : AnnotatedSpan) (e : Element) : Prop :=
  e.label = a.label ∧ e.attributes.Perm a.attributes ∧ e.start < e.stop ∧
    ∀ i : Int, (e.start : Int) ≤ i ∧ i < e.stop ↔
      (a.span.start ≤ i + o.start ∧ i + o.start < a.span.stop) ∧ (o.start ≤ i + o.start ∧ i + o.start < o.stop)

/-! ## Tags -/

/-- What is between `<` and `>`. -/
def bodyOf (t : Tag) : Str :=
  if t.isStart then
    t.ann.label ++ (stableSort attrLe t.ann.attributes).flatMap fun kv => ' ' :: (kv.1 ++ '=' :: '"' :: (kv.2 ++ ['"']))
  else '/' :: t.ann.label

theorem intercalate_cons_flatMap (f : Str × Str → Str) (x : Str × Str) (l : List (Str × Str)) :
    ' ' :: List.intercalate [' '] ((x :: l).map f) = (x :: l).flatMap fun kv => ' ' :: f kv := by
  induction l generalizing x with
  | nil => simp [List.intercalate]
  | cons y l ih =>
    have := ih y
    simp only [List.intercalate, List.map_cons, List.intersperse_cons_cons, List.flatten_cons, List.flatMap_cons] at this ⊢
    simp only [List.cons_append, List.nil_append, List.cons.injEq, true_and]
    rw [this]
    simp

theorem stableSort_isEmpty (le : Str × Str → Str × Str → Bool) (l : List (Str × Str)) (h : stableSort le l = []) : l = [] := by
  have := (stableSort_perm le l).length_eq
  rw [h] at this
  exact List.length_eq_zero_iff.1 this.symm

theorem Tag.string_eq (t : Tag) : t.string = '<' :: (bodyOf t ++ ['>']) := by
  obtain ⟨a, b, i⟩ := t
  cases b with
  | false => simp [Tag.string, toEndTag, bodyOf]
  | true =>
    simp only [Tag.string, toStartTag, bodyOf, if_true]
    cases hs : stableSort attrLe a.attributes with
    | nil =>
      have := stableSort_isEmpty _ _ hs
      simp [this]
    | cons x l =>
      have hne : a.attributes.isEmpty = false := by
        cases ha : a.attributes with
        | nil => rw [ha] at hs; simp [stableSort] at hs
        | cons => rfl
      simp only [hne, Bool.false_eq_true, if_false]
      have h1 := intercalate_cons_flatMap (fun kv => kv.1 ++ '=' :: '"' :: (kv.2 ++ ['"'])) x l
      have h2 : (fun x : Str × Str => x.1 ++ "=\"".toList ++ x.2 ++ "\"".toList) = fun kv => kv.1 ++ '=' :: '"' :: (kv.2 ++ ['"']) := by
        funext kv
        simp
      rw [h2, h1]
      simp

theorem scan_tag (b acc : Str) (hb : '>' ∉ b) (s : Str) : scan (some acc) (b ++ '>' :: s) = .tag (acc ++ b) :: scan none s := by
  induction b generalizing acc with
  | nil => simp [scan]
  | cons c b ih =>
    have hc : c ≠ '>' := fun h => hb (by simp [h])
    have := ih (acc ++ [c]) (fun h => hb (by simp [h]))
    simp only [List.cons_append, scan, hc, if_false, this]
    simp

theorem scan_text (t : Str) (ht : '<' ∉ t) (s : Str) : scan none (t ++ s) = t.map .char ++ scan none s := by
  induction t with
  | nil => simp
  | cons c t ih =>
    have hc : c ≠ '<' := fun h => ht (by simp [h])
    have := ih (fun h => ht (by simp [h]))
    simp only [List.cons_append, scan, hc, if_false, this, List.map_cons]

/-- The tokens of a piece. -/
def tokensOf : Piece → List Token
  | .text s => s.map .char
  | .tag t => [.tag (bodyOf t)]

theorem bodyOf_plain {t : Tag} (h : Plain t.ann) : '>' ∉ bodyOf t := by
  obtain ⟨h1, -, -, h2⟩ := h
  unfold bodyOf
  split
  · intro hm
    simp only [List.mem_append, List.mem_flatMap] at hm
    rcases hm with hm | ⟨kv, hkv, hm⟩
    · exact h1 hm
    · obtain ⟨k1, -, k2, -⟩ := h2 kv (mem_stableSort.1 hkv)
      simp only [List.mem_cons, List.mem_append] at hm
      have e1 : ¬ '>' = ' ' := by decide
      have e2 : ¬ '>' = '=' := by decide
      have e3 : ¬ '>' = '"' := by decide
      simp [e1, e2, e3, k1, k2] at hm
  · intro hm
    rcases List.mem_cons.1 hm with hm | hm
    · revert hm; decide
    · exact h1 hm

theorem scan_pieces (ps : List Piece) (ht : '<' ∉ eraseTags ps) (hp : ∀ t ∈ tagsOf ps, Plain t.ann) :
    scan none (ps.flatMap Piece.render) = ps.flatMap tokensOf := by
  induction ps with
  | nil => rfl
  | cons p ps ih =>
    cases p with
    | text s =>
      have h1 : eraseTags (.text s :: ps) = s ++ eraseTags ps := rfl
      rw [h1, List.mem_append, not_or] at ht
      have h2 : tagsOf (.text s :: ps) = tagsOf ps := rfl
      rw [h2] at hp
      simp only [List.flatMap_cons, Piece.render, tokensOf]
      rw [scan_text s ht.1, ih ht.2 hp]
    | tag t =>
      have h1 : eraseTags (.tag t :: ps) = eraseTags ps := rfl
      rw [h1] at ht
      have h2 : tagsOf (.tag t :: ps) = t :: tagsOf ps := rfl
      rw [h2] at hp
      simp only [List.flatMap_cons, Piece.render, tokensOf, Tag.string_eq]
      have h3 : scan none (('<' :: (bodyOf t ++ ['>'])) ++ ps.flatMap Piece.render) =
          scan (some []) (bodyOf t ++ '>' :: ps.flatMap Piece.render) := by
        simp [scan]
      rw [h3, scan_tag _ _ (bodyOf_plain (hp t (by simp))), ih ht fun t h => hp t (by simp [h])]
      simp

theorem chars_tokens (ps : List Piece) :
    (ps.flatMap tokensOf).filterMap Token.char? = eraseTags ps := by
  induction ps with
  | nil => rfl
  | cons p ps ih =>
    rw [List.flatMap_cons, List.filterMap_append, ih]
    cases p with
    | text s =>
      have h1 : eraseTags (.text s :: ps) = s ++ eraseTags ps := rfl
      rw [h1]
      congr 1
      clear h1
      induction s with
      | nil => rfl
      | cons c s ihs => simpa [tokensOf, Token.char?] using ihs
    | tag t => rfl

theorem plain_seen {o : Span} (ho : o.Valid) {as : List AnnotatedSpan} (ha : ∀ a ∈ as, a.span.Valid)
    (hp : ∀ a ∈ as, Plain a) : ∀ t ∈ tagSequence (as.filterMap (process1 o)), Plain t.ann := by
  intro t ht
  obtain ⟨h1, -⟩ := mem_tagSequence.1 ht
  obtain ⟨a, h2, h3⟩ := List.mem_filterMap.1 h1
  obtain ⟨-, -, -, h4, h5, -⟩ := process1_bounds ho (ha a h2) h3
  unfold Plain
  rw [h4, h5]
  exact hp a h2

/-! ## C86 -/

/-- Removing everything between `<` and `>` from what `annotated_text` returns gives the text back, when the text has no `<` and
the annotations are plain. -/
theorem C86_strip (text : Str) (annotations : List AnnotatedSpan) (off : Option Span) (o : Span)
    (ho : GoodOffsets text off o) (ha : ∀ a ∈ annotations, a.span.Valid) (ht : '<' ∉ text) (hp : ∀ a ∈ annotations, Plain a) :
    ∃ out, annotatedText text annotations off = .ok out ∧ strip out = text := by
  obtain ⟨h1, h2, h3, h4⟩ := ho.facts
  obtain ⟨g1, g2, g3⟩ := emit_good ho ha
  refine ⟨(emit text o.stop 0 (tagSequence (annotations.filterMap (process1 o)))).flatMap Piece.render, ?_, ?_⟩
  · simp only [annotatedText, pieces_eq ho ha, bind, Except.bind]
  · unfold strip
    rw [scan_pieces _ (by rw [g1]; exact ht) (by rw [g2]; exact plain_seen ((Span.valid_iff _).2 h3) ha hp), chars_tokens, g1]

/-! ### Reading a start tag -/

theorem readAttrs_value (k v acc s : Str) (hv : '"' ∉ v) :
    readAttrs (.value k acc) (v ++ '"' :: s) = (readAttrs .between s).map ((k, acc ++ v) :: ·) := by
  induction v generalizing acc with
  | nil => simp [readAttrs]
  | cons c v ih =>
    have hc : c ≠ '"' := fun h => hv (by simp [h])
    have := ih (acc ++ [c]) (fun h => hv (by simp [h]))
    simp only [List.cons_append, readAttrs, hc, if_false, this]
    simp

theorem readAttrs_key (k acc s : Str) (hk : '=' ∉ k) :
    readAttrs (.key acc) (k ++ '=' :: s) = readAttrs (.quote (acc ++ k)) s := by
  induction k generalizing acc with
  | nil => simp [readAttrs]
  | cons c v ih =>
    have hc : c ≠ '=' := fun h => hk (by simp [h])
    have := ih (acc ++ [c]) (fun h => hk (by simp [h]))
    simp only [List.cons_append, readAttrs, hc, if_false, this]
    simp

theorem readAttrs_all (l : List (Str × Str)) (h : ∀ kv ∈ l, '=' ∉ kv.1 ∧ '"' ∉ kv.2) :
    readAttrs .between (l.flatMap fun kv => ' ' :: (kv.1 ++ '=' :: '"' :: (kv.2 ++ ['"']))) = some l := by
  induction l with
  | nil => rfl
  | cons kv l ih =>
    obtain ⟨h1, h2⟩ := h kv (by simp)
    have ih := ih fun x hx => h x (by simp [hx])
    have e : ((kv :: l).flatMap fun kv => ' ' :: (kv.1 ++ '=' :: '"' :: (kv.2 ++ ['"']))) =
        ' ' :: (kv.1 ++ '=' :: '"' :: (kv.2 ++ '"' :: l.flatMap fun kv => ' ' :: (kv.1 ++ '=' :: '"' :: (kv.2 ++ ['"'])))) := by
      simp
    rw [e]
    simp only [readAttrs, if_true, readAttrs_key _ _ _ h1, readAttrs_value _ _ _ _ h2, ih]
    simp

theorem readTag_start {t : Tag} (ht : t.isStart = true) (h : Plain t.ann) :
    readTag (bodyOf t) = some (t.ann.label, stableSort attrLe t.ann.attributes) := by
  obtain ⟨h1, h2, h3, h4⟩ := h
  have hall := readAttrs_all (stableSort attrLe t.ann.attributes) fun kv hkv =>
    ⟨(h4 kv (mem_stableSort.1 hkv)).2.1, (h4 kv (mem_stableSort.1 hkv)).2.2.2⟩
  have hl : ∀ c ∈ t.ann.label, (c ≠ ' ') = True := by
    intro c hc
    simp only [ne_eq, eq_iff_iff, iff_true]
    rintro rfl
    exact h2 hc
  unfold readTag bodyOf
  rw [if_pos ht]
  have hd : ∀ r : Str, (r = [] ∨ ∃ r', r = ' ' :: r') →
      (t.ann.label ++ r).dropWhile (fun x => decide (x ≠ ' ')) = r ∧
      (t.ann.label ++ r).takeWhile (fun x => decide (x ≠ ' ')) = t.ann.label := by
    intro r hr
    rw [List.dropWhile_append_of_pos (by intro c hc; simp [hl c hc]), List.takeWhile_append_of_pos (by intro c hc; simp [hl c hc])]
    rcases hr with rfl | ⟨r', rfl⟩
    · simp
    · simp
  obtain ⟨d1, d2⟩ := hd ((stableSort attrLe t.ann.attributes).flatMap fun kv => ' ' :: (kv.1 ++ '=' :: '"' :: (kv.2 ++ ['"']))) (by
    cases stableSort attrLe t.ann.attributes with
    | nil => exact .inl rfl
    | cons x l => exact .inr ⟨_, rfl⟩)
  rw [d1, d2, hall]
  rfl

theorem bodyOf_start_head {t : Tag} (ht : t.isStart = true) (h : Plain t.ann) : ∀ l, bodyOf t ≠ '/' :: l := by
  obtain ⟨h1, h2, h3, h4⟩ := h
  intro l hl
  unfold bodyOf at hl
  rw [if_pos ht] at hl
  cases hlab : t.ann.label with
  | cons c cs =>
    rw [hlab] at hl h3
    simp only [List.cons_append, List.cons.injEq] at hl
    simp [hl.1] at h3
  | nil =>
    rw [hlab] at hl
    cases hs : stableSort attrLe t.ann.attributes with
    | nil => rw [hs] at hl; simp at hl
    | cons x l =>
      rw [hs] at hl
      simp only [List.nil_append, List.flatMap_cons, List.cons_append, List.cons.injEq] at hl
      exact absurd hl.1 (by decide)

/-! ### Reading the elements -/

/-- The tags of `ps`, when `pos` characters of text were written before it, stand at their offsets. -/
def Placed (pos : Nat) (ps : List Piece) : Prop :=
  ∀ pre t post, ps = pre ++ .tag t :: post →
    ((pos + (eraseTags pre).length : Nat) : Int) = if t.isStart then t.ann.span.start else t.ann.span.stop

theorem Placed.left {pos : Nat} {u w : List Piece} (h : Placed pos (u ++ w)) : Placed pos u := by
  intro pre t post e
  exact h pre t (post ++ w) (by rw [e]; simp)

theorem Placed.right {pos : Nat} {u w : List Piece} (h : Placed pos (u ++ w)) : Placed (pos + (eraseTags u).length) w := by
  intro pre t post e
  have := h (u ++ pre) t post (by rw [e]; simp)
  rw [eraseTags_append, List.length_append] at this
  rw [← this]
  push_cast
  omega

/-- The element of an annotation. -/
def elementOf (c : AnnotatedSpan) : Element :=
  ⟨c.label, stableSort attrLe c.attributes, c.span.start.toNat, c.span.stop.toNat⟩

theorem readElements_chars (s : Str) (st : List (Str × List (Str × Str) × Nat)) (pos : Nat) (rest : List Token) :
    readElements st pos (s.map Token.char ++ rest) = readElements st (pos + s.length) rest := by
  induction s generalizing pos with
  | nil => simp
  | cons c s ih =>
    simp only [List.map_cons, List.cons_append, readElements, ih, List.length_cons]
    congr 1
    omega

theorem readElements_start {t : Tag} (ht : t.isStart = true) (h : Plain t.ann) (st : List (Str × List (Str × Str) × Nat)) (pos : Nat)
    (rest : List Token) :
    readElements st pos (.tag (bodyOf t) :: rest) =
      readElements ((t.ann.label, stableSort attrLe t.ann.attributes, pos) :: st) pos rest := by
  have h1 := readTag_start ht h
  have h2 := bodyOf_start_head ht h
  cases hb : bodyOf t with
  | nil =>
    rw [hb] at h1
    cases st <;> simp only [readElements, h1]
  | cons c cs =>
    rw [hb] at h1 h2
    have hc : c ≠ '/' := fun e => h2 cs (by rw [e])
    cases st
    · rw [readElements]
      · rw [h1]
      · exact h2
    · rw [readElements]
      · rw [h1]
      · exact h2

theorem readElements_wellNested {w : List Piece} (hw : WellNested w) (hp : ∀ t ∈ tagsOf w, Plain t.ann) (pos : Nat)
    (hpl : Placed pos w) :
    ∃ es : List Element,
      es.Perm (((tagsOf w).filter (·.isStart)).map fun t => elementOf t.ann) ∧
      ∀ st rest, readElements st pos (w.flatMap tokensOf ++ rest) =
        (readElements st (pos + (eraseTags w).length) rest).map (es ++ ·) := by
  induction hw generalizing pos with
  | nil => exact ⟨[], .refl _, fun st rest => by simp [eraseTags]⟩
  | text s =>
    refine ⟨[], .refl _, fun st rest => ?_⟩
    have : eraseTags [.text s] = s := by simp [eraseTags]
    simp only [List.flatMap_cons, List.flatMap_nil, List.append_nil, tokensOf, readElements_chars, this]
    simp
  | append hu hw ihu ihw =>
    rename_i u w
    have ht : tagsOf (u ++ w) = tagsOf u ++ tagsOf w := by simp [tagsOf]
    rw [ht] at hp
    obtain ⟨es1, p1, r1⟩ := ihu (fun t h => hp t (by simp [h])) pos hpl.left
    obtain ⟨es2, p2, r2⟩ := ihw (fun t h => hp t (by simp [h])) _ hpl.right
    refine ⟨es1 ++ es2, ?_, fun st rest => ?_⟩
    · rw [ht, List.filter_append, List.map_append]; exact p1.append p2
    · rw [List.flatMap_append, List.append_assoc, r1, r2, eraseTags_append, List.length_append, Option.map_map, ← Nat.add_assoc]
      congr 1
      funext x
      simp
  | elem a i j hw ih =>
    rename_i w
    have ht : tagsOf (.tag ⟨a, true, i⟩ :: (w ++ [.tag ⟨a, false, j⟩])) = ⟨a, true, i⟩ :: (tagsOf w ++ [⟨a, false, j⟩]) := by
      simp [tagsOf]
    rw [ht] at hp
    have hpa : Plain a := hp ⟨a, true, i⟩ (by simp)
    have e1 := hpl [] ⟨a, true, i⟩ _ rfl
    have e2 := hpl (.tag ⟨a, true, i⟩ :: w) ⟨a, false, j⟩ [] (by simp)
    have er : ∀ q, eraseTags (.tag ⟨a, true, i⟩ :: q) = eraseTags q := fun q => rfl
    rw [er] at e2
    simp only [eraseTags, List.flatMap_nil, List.length_nil, Nat.add_zero, if_true, Bool.false_eq_true, if_false] at e1 e2
    have hpl' : Placed pos w := by
      intro pre t post e
      have := hpl (.tag ⟨a, true, i⟩ :: pre) t (post ++ [.tag ⟨a, false, j⟩]) (by rw [e]; simp)
      rw [er] at this
      exact this
    obtain ⟨es, p, r⟩ := ih (fun t h => hp t (by simp [h])) pos hpl'
    refine ⟨es ++ [elementOf a], ?_, fun st rest => ?_⟩
    · rw [ht]
      simp only [List.filter_cons, if_true, List.filter_append, List.filter_nil, Bool.false_eq_true, if_false, List.append_nil,
        List.map_cons]
      exact (List.perm_append_singleton _ _).trans (p.cons _)
    · have hend : bodyOf ⟨a, false, j⟩ = '/' :: a.label := by simp [bodyOf]
      have hlen : (eraseTags (.tag ⟨a, true, i⟩ :: (w ++ [.tag ⟨a, false, j⟩]))).length = (eraseTags w).length := by
        rw [er, eraseTags_append]; simp [eraseTags]
      rw [hlen]
      have e3 : ((.tag ⟨a, true, i⟩ :: (w ++ [.tag ⟨a, false, j⟩])).flatMap tokensOf ++ rest) =
          .tag (bodyOf ⟨a, true, i⟩) :: (w.flatMap tokensOf ++ (.tag ('/' :: a.label) :: rest)) := by
        simp [tokensOf, hend]
      rw [e3, readElements_start rfl hpa, r]
      simp only [readElements, if_true, Option.map_map]
      congr 1
      funext x
      have : elementOf a = ⟨a.label, stableSort attrLe a.attributes, pos, pos + (eraseTags w).length⟩ := by
        simp only [elementOf, Element.mk.injEq, true_and]
        have e2' : ((pos + (eraseTags w).length : Nat) : Int) = a.span.stop := e2
        omega
      simp [this]

theorem shows_of_seen {o : Span} {a c : AnnotatedSpan} (h : SeenAs o a c) : Shows o a (elementOf c) := by
  obtain ⟨h1, h2, h3, h4⟩ := h
  have h3' := (Span.valid_iff _).1 h3
  simp only [Span.containsOffset_iff] at h4
  have h0 := ((h4 c.span.start).1 ⟨le_refl _, h3'⟩).2.1
  refine ⟨h1, ?_, ?_, ?_⟩
  · rw [← h2]; exact stableSort_perm _ _
  · show c.span.start.toNat < c.span.stop.toNat
    omega
  · intro i
    rw [← h4 i]
    simp only [elementOf]
    omega

theorem forall₂_shows {o : Span} {as cs : List AnnotatedSpan} (h : List.Forall₂ (SeenAs o) as cs) :
    List.Forall₂ (Shows o) as (cs.map elementOf) := by
  induction h with
  | nil => exact .nil
  | cons h _ ih => exact .cons (shows_of_seen h) ih

/-- What `annotated_text` returns can be read back: when the annotations, clipped to the snippet, are distinct and nested or
disjoint, and neither text nor annotations look like markup, a reader of the markup finds the text, and exactly one element for
each annotation that overlaps the snippet, showing it. -/
theorem C86_read_back (text : Str) (annotations : List AnnotatedSpan) (off : Option Span) (o : Span)
    (ho : GoodOffsets text off o) (ha : ∀ a ∈ annotations, a.span.Valid) (ht : '<' ∉ text) (hp : ∀ a ∈ annotations, Plain a)
    (hdistinct : (annotations.filterMap (visible o)).Nodup)
    (hlam : ∀ s ∈ annotations.filterMap (visible o), ∀ t ∈ annotations.filterMap (visible o), Laminar s t) :
    ∃ out es, annotatedText text annotations off = .ok out ∧ strip out = text ∧ elements out = some es ∧
      ∃ es', es.Perm es' ∧
        List.Forall₂ (Shows o) (annotations.filter fun a => a.span.overlaps o) es' := by
  obtain ⟨h1, h2, h3, h4⟩ := ho.facts
  obtain ⟨ps, seen, t1, t2, t3, t4⟩ := C32_tags text annotations off o ho ha
  obtain ⟨ps', n1, n2⟩ := C31_well_nested text annotations off o ho ha hdistinct hlam
  obtain ⟨ps'', e1, e2, e3⟩ := C30_text_preserved text annotations off o ho ha
  rw [t1] at n1 e1
  cases n1
  cases e1
  have hv : ∀ c ∈ seen, Plain c := by
    have : ∀ {as cs}, List.Forall₂ (SeenAs o) as cs → (∀ a ∈ as, Plain a) → ∀ c ∈ cs, Plain c := by
      intro as cs h
      induction h with
      | nil => simp
      | cons h _ ih =>
        intro hh c hc
        rcases List.mem_cons.1 hc with rfl | hc
        · have := hh _ (List.mem_cons_self ..)
          unfold Plain
          rw [h.1, h.2.1]
          exact this
        · exact ih (fun a ha => hh a (by simp [ha])) c hc
    exact this t2 fun a h => hp a (List.mem_filter.1 h).1
  have hc0 : ∀ {as cs}, List.Forall₂ (SeenAs o) as cs → ∀ c ∈ cs, 0 ≤ c.span.start ∧ c.span.start < c.span.stop := by
    intro as cs h
    induction h with
    | nil => simp
    | cons h _ ih =>
      intro c hc
      rcases List.mem_cons.1 hc with rfl | hc
      · obtain ⟨-, -, h3, h4⟩ := h
        have h3' := (Span.valid_iff _).1 h3
        simp only [Span.containsOffset_iff] at h4
        have := ((h4 c.span.start).1 ⟨le_refl _, h3'⟩).2.1
        omega
      · exact ih c hc
  have hpos := hc0 t2
  have htag : ∀ t ∈ tagsOf ps, t.ann ∈ seen ∧ 0 ≤ t.ann.span.start ∧ t.ann.span.start < t.ann.span.stop ∧
      t.ann.span.stop ≤ text.length := by
    intro t ht
    have hm : t.ann ∈ seen := by
      have := t3.mem_iff.1 ht
      simp only [List.mem_append, List.mem_map] at this
      rcases this with ⟨a, h, rfl⟩ | ⟨a, h, rfl⟩ <;> exact h
    refine ⟨hm, (hpos _ hm).1, (hpos _ hm).2, ?_⟩
    have hb : ∀ {as cs}, List.Forall₂ (SeenAs o) as cs → ∀ c ∈ cs, c.span.stop ≤ o.len := by
      intro as cs h
      induction h with
      | nil => simp
      | cons h _ ih =>
        intro c hc
        rcases List.mem_cons.1 hc with rfl | hc
        · obtain ⟨-, -, h3, h4⟩ := h
          have h3' := (Span.valid_iff _).1 h3
          simp only [Span.containsOffset_iff] at h4
          have := ((h4 (c.span.stop - 1)).1 (by omega)).2
          simp only [Span.len]
          omega
        · exact ih c hc
    have := hb t2 _ hm
    omega
  have hplaced : Placed 0 ps := by
    intro pre t post e
    have h5 := t4 pre t post e
    have hm : t ∈ tagsOf ps := by rw [e]; simp [tagsOf]
    obtain ⟨-, b1, b2, b3⟩ := htag t hm
    rw [h5, List.length_take]
    split <;> omega
  obtain ⟨es, p1, p2⟩ := readElements_wellNested n2 (fun t h => hv _ (htag t h).1) 0 hplaced
  have hscan := scan_pieces ps (by rw [e3]; exact ht) fun t h => hv _ (htag t h).1
  refine ⟨_, es, e2, ?_, ?_, seen.map elementOf, ?_, forall₂_shows t2⟩
  · unfold strip
    rw [hscan, chars_tokens, e3]
  · unfold elements
    rw [hscan]
    have := p2 [] []
    rw [List.append_nil] at this
    rw [this]
    simp [readElements]
  · refine p1.trans ?_
    have h6 := (t3.filter fun t => t.isStart).map fun t => elementOf t.ann
    refine h6.trans ?_
    rw [List.filter_append]
    have f1 : (seen.map fun c => (⟨c, false, c.span.stop⟩ : Tag)).filter (fun t => t.isStart) = [] := by
      rw [List.filter_eq_nil_iff]
      intro t ht
      obtain ⟨c, -, rfl⟩ := List.mem_map.1 ht
      simp
    have f2 : (seen.map fun c => (⟨c, true, c.span.start⟩ : Tag)).filter (fun t => t.isStart) =
        seen.map fun c => (⟨c, true, c.span.start⟩ : Tag) := by
      rw [List.filter_eq_self]
      intro t ht
      obtain ⟨c, -, rfl⟩ := List.mem_map.1 ht
      rfl
    rw [f1, f2, List.nil_append, List.map_map]
    exact .refl _

theorem attrLe_iff (a b : Str × Str) : attrLe a b = true ↔ a.1 < b.1 ∨ (a.1 = b.1 ∧ a.2 ≤ b.2) := by
  simp [attrLe]

theorem attrLe_total (a b : Str × Str) : attrLe a b = true ∨ attrLe b a = true := by
  rw [attrLe_iff, attrLe_iff]
  by_cases h1 : a.1 < b.1
  · exact .inl (.inl h1)
  · by_cases h2 : b.1 < a.1
    · exact .inr (.inl h2)
    · have h : a.1 = b.1 := List.le_antisymm (List.not_lt.1 h2) (List.not_lt.1 h1)
      rcases List.le_total a.2 b.2 with h' | h'
      · exact .inl (.inr ⟨h, h'⟩)
      · exact .inr (.inr ⟨h.symm, h'⟩)

theorem attrLe_trans (a b c : Str × Str) (h1 : attrLe a b = true) (h2 : attrLe b c = true) : attrLe a c = true := by
  rw [attrLe_iff] at *
  rcases h1 with h1 | ⟨h1, h1'⟩ <;> rcases h2 with h2 | ⟨h2, h2'⟩
  · exact .inl (List.lt_trans h1 h2)
  · exact .inl (h2 ▸ h1)
  · exact .inl (h1 ▸ h2)
  · exact .inr ⟨h1.trans h2, List.le_trans h1' h2'⟩

theorem attrLe_antisymm (a b : Str × Str) (h1 : attrLe a b = true) (h2 : attrLe b a = true) : a = b := by
  rw [attrLe_iff] at *
  rcases h1 with h1 | ⟨h1, h1'⟩ <;> rcases h2 with h2 | ⟨h2, h2'⟩
  · exact absurd (List.lt_trans h1 h2) (List.lt_irrefl _)
  · rw [h2] at h1; exact absurd h1 (List.lt_irrefl _)
  · rw [h1] at h2; exact absurd h2 (List.lt_irrefl _)
  · exact Prod.ext h1 (List.le_antisymm h1' h2')

theorem sort_perm {l m : List (Str × Str)} (h : l.Perm m) : stableSort attrLe l = stableSort attrLe m := by
  have h1 := stableSort_sorted attrLe_total attrLe_trans l
  have h2 := stableSort_sorted attrLe_total attrLe_trans m
  refine List.Perm.eq_of_pairwise (fun a b _ _ => attrLe_antisymm a b) h1 h2 ?_
  exact (stableSort_perm _ _).trans (h.trans (stableSort_perm _ _).symm)

theorem toStartTag_perm {a b : AnnotatedSpan} (h1 : a.label = b.label) (h2 : a.attributes.Perm b.attributes) :
    toStartTag a = toStartTag b := by
  have : a.attributes.isEmpty = b.attributes.isEmpty := by
    rw [Bool.eq_iff_iff, List.isEmpty_iff, List.isEmpty_iff]
    constructor
    · intro h; rw [h] at h2; exact h2.nil_eq.symm
    · intro h; rw [h] at h2; exact h2.eq_nil
  unfold toStartTag
  rw [h1, sort_perm h2, this]

theorem insertBy_forall₂ {α : Type} {R : α → α → Prop} {le : α → α → Bool}
    (hle : ∀ a b c d, R a b → R c d → le a c = le b d) {x y : α} (hxy : R x y) {l m : List α} (h : List.Forall₂ R l m) :
    List.Forall₂ R (insertBy le x l) (insertBy le y m) := by
  induction h with
  | nil => exact .cons hxy .nil
  | cons h1 h2 ih =>
    rename_i a b l m
    simp only [insertBy]
    rw [hle _ _ _ _ hxy h1]
    split
    · exact .cons hxy (.cons h1 h2)
    · exact .cons h1 ih

theorem stableSort_forall₂ {α : Type} {R : α → α → Prop} {le : α → α → Bool}
    (hle : ∀ a b c d, R a b → R c d → le a c = le b d) {l m : List α} (h : List.Forall₂ R l m) :
    List.Forall₂ R (stableSort le l) (stableSort le m) := by
  induction h with
  | nil => exact .nil
  | cons h1 h2 ih =>
    exact insertBy_forall₂ hle h1 ih

/-- Same label, same span, and the same attributes given in any order. -/
def SameUpToOrder (a b : AnnotatedSpan) : Prop := a.label = b.label ∧ a.span = b.span ∧ a.attributes.Perm b.attributes

/-- The same for tags. -/
def SameTag (s t : Tag) : Prop := SameUpToOrder s.ann t.ann ∧ s.isStart = t.isStart ∧ s.offset = t.offset

theorem clipAndShift_same (o : Span) {as bs : List AnnotatedSpan} (h : List.Forall₂ SameUpToOrder as bs) :
    (∃ e, clipAndShift o as = .error e ∧ clipAndShift o bs = .error e) ∨
    ∃ cs ds, clipAndShift o as = .ok cs ∧ clipAndShift o bs = .ok ds ∧ List.Forall₂ SameUpToOrder cs ds := by
  induction h with
  | nil => exact .inr ⟨[], [], rfl, rfl, .nil⟩
  | cons h1 h2 ih =>
    rename_i a b as bs
    obtain ⟨l1, l2, l3⟩ := h1
    unfold clipAndShift
    rw [l2]
    cases hc : b.span.clipTo o with
    | error e => exact .inl ⟨e, rfl, rfl⟩
    | ok c =>
      cases c with
      | none => simpa only [bind, Except.bind] using ih
      | some c =>
        simp only [bind, Except.bind]
        cases hs : c.shift (-o.start) with
        | error e => exact .inl ⟨e, rfl, rfl⟩
        | ok s =>
          rcases ih with ⟨e, e1, e2⟩ | ⟨cs, ds, e1, e2, e3⟩
          · exact .inl ⟨e, by simp only [e1], by simp only [e2]⟩
          · refine .inr ⟨{ a with span := s } :: cs, { b with span := s } :: ds, by simp only [e1], by simp only [e2], .cons ⟨l1, rfl, l3⟩ e3⟩

theorem tagSequence_same {as bs : List AnnotatedSpan} (h : List.Forall₂ SameUpToOrder as bs) :
    List.Forall₂ SameTag (tagSequence as) (tagSequence bs) := by
  unfold tagSequence
  refine stableSort_forall₂ ?_ ?_
  · rintro a b c d ⟨-, h1, h2⟩ ⟨-, h3, h4⟩
    simp only [tagKey, h1, h2, h3, h4]
  · refine List.rel_append ?_ ?_
    · unfold endTags
      refine List.rel_map ?_ (stableSort_forall₂ ?_ h)
      · rintro a b ⟨h1, h2, h3⟩
        exact ⟨⟨h1, h2, h3⟩, rfl, by simp only [h2]⟩
      · rintro a b c d ⟨-, h1, -⟩ ⟨-, h2, -⟩
        simp only [endKey, h1, h2]
    · unfold startTags
      refine List.rel_map ?_ (stableSort_forall₂ ?_ h)
      · rintro a b ⟨h1, h2, h3⟩
        exact ⟨⟨h1, h2, h3⟩, rfl, by simp only [h2]⟩
      · rintro a b c d ⟨-, h1, -⟩ ⟨-, h2, -⟩
        simp only [startKey, h1, h2]

theorem emit_same (text : Str) (e : Int) {s t : List Tag} (h : List.Forall₂ SameTag s t) (last : Int) :
    (emit text e last s).flatMap Piece.render = (emit text e last t).flatMap Piece.render := by
  induction h generalizing last with
  | nil => rfl
  | cons h1 h2 ih =>
    rename_i a b l m
    obtain ⟨⟨l1, l2, l3⟩, h2, h3⟩ := h1
    have hr : (Piece.tag a).render = (Piece.tag b).render := by
      simp only [Piece.render, Tag.string, h2, toStartTag_perm l1 l3, toEndTag, l1]
    unfold emit
    rw [h3]
    split
    · simp only [List.flatMap_cons, hr, ih]
    · simp only [List.flatMap_cons, hr, ih]

/-- The order in which the attributes of an annotation are given does not matter, whatever the arguments. -/
theorem C86_attribute_order (text : Str) (as bs : List AnnotatedSpan) (off : Option Span)
    (h : List.Forall₂ SameUpToOrder as bs) : annotatedText text as off = annotatedText text bs off := by
  unfold annotatedText pieces
  cases resolveOffsets text off with
  | error e => rfl
  | ok o =>
    simp only [bind, Except.bind]
    cases checkArg (decide (o.len = text.length)) with
    | error e => rfl
    | ok u =>
      rcases clipAndShift_same o h with ⟨e, e1, e2⟩ | ⟨cs, ds, e1, e2, e3⟩
      · simp only [e1, e2]
      · simp only [e1, e2, emit_same text o.stop (tagSequence_same e3) 0]

/-- Nothing is escaped: from a text with markup in it a reader gets something else. -/
theorem C86_no_escaping_counterexample :
    annotatedText "a<b>c".toList [] none = .ok "a<b>c".toList ∧ strip "a<b>c".toList = "ac".toList := by
  decide +kernel

/-- Two annotations with the same span cannot be read back: the tags cross. -/
theorem C86_same_span_counterexample :
    annotatedText "ab".toList [⟨"x".toList, ⟨0, 2⟩, []⟩, ⟨"y".toList, ⟨0, 2⟩, []⟩] none = .ok "<x><y>ab</x></y>".toList ∧
    elements "<x><y>ab</x></y>".toList = none := by
  decide +kernel

/-! ## Examples -/
namespace MarkupExample

/-- Nested annotations with attributes, on a snippet at offset 10; the last one is outside. -/
def anns : List AnnotatedSpan :=
  [⟨"s".toList, ⟨8, 15⟩, []⟩, ⟨"w".toList, ⟨11, 13⟩, [("k".toList, "v w".toList), ("a".toList, "1".toList)]⟩,
   ⟨"out".toList, ⟨20, 30⟩, []⟩]

def out : Str := "<s>a<w a=\"1\" k=\"v w\">bc</w>de</s>f".toList

example : annotatedText "abcdef".toList anns (some ⟨10, 16⟩) = .ok out := by decide +kernel
example : elements out = some [⟨"w".toList, [("a".toList, "1".toList), ("k".toList, "v w".toList)], 1, 3⟩, ⟨"s".toList, [], 0, 5⟩] := by
  decide +kernel

instance (s : Span) : Decidable s.Valid := decidable_of_iff _ (Span.valid_iff s).symm
instance (a : AnnotatedSpan) : Decidable (Plain a) := by unfold Plain; infer_instance
instance (s t : Span) : Decidable (Laminar s t) := by unfold Laminar; infer_instance

example : ∃ out es, annotatedText "abcdef".toList anns (some ⟨10, 16⟩) = .ok out ∧ strip out = "abcdef".toList ∧ elements out = some es ∧
    ∃ es', es.Perm es' ∧ List.Forall₂ (Shows ⟨10, 16⟩) (anns.filter fun a => a.span.overlaps ⟨10, 16⟩) es' :=
  C86_read_back _ anns _ _ (.snippet ⟨10, 16⟩ (by decide) (by decide) (by decide +kernel)) (by decide +kernel) (by decide +kernel)
    (by decide +kernel) (by decide +kernel) (by decide +kernel)

example : strip out = "abcdef".toList := by decide +kernel

example : annotatedText "ab".toList [⟨"w".toList, ⟨0, 2⟩, [("k".toList, "v".toList), ("a".toList, "1".toList)]⟩] none =
    annotatedText "ab".toList [⟨"w".toList, ⟨0, 2⟩, [("a".toList, "1".toList), ("k".toList, "v".toList)]⟩] none :=
  C86_attribute_order _ _ _ _ (.cons ⟨rfl, rfl, List.Perm.swap _ _ _⟩ .nil)

end MarkupExample
end AnnotatedText
end Vista
