import Verif.Props.Span
import Verif.Proofs.PyList
import Verif.Model.AnnotatedText

/-!
# Properties C30-C33: annotated text
-/
set_option linter.unusedSectionVars false
namespace Vista
namespace AnnotatedText

/-! ## Specification -/

/-- The text left when the tags are removed. -/
def eraseTags (ps : List Piece) : Str := ps.flatMap fun
  | .text s => s
  | .tag _ => []

/-- The tags, in order. -/
def tagsOf (ps : List Piece) : List Tag := ps.filterMap fun
  | .text _ => none
  | .tag t => some t

/-- Properly nested markup: every start tag is closed by the end tag of the same annotation, without crossing. -/
inductive WellNested : List Piece → Prop
  | nil : WellNested []
  | text (s : Str) : WellNested [.text s]
  | elem (a : AnnotatedSpan) (i j : Int) {w : List Piece} :
      WellNested w → WellNested (.tag ⟨a, true, i⟩ :: (w ++ [.tag ⟨a, false, j⟩]))
  | append {u w : List Piece} : WellNested u → WellNested w → WellNested (u ++ w)

/-- The arguments `annotated_text` accepts: a text and the offsets it has in the document (`None`: it is the document). -/
inductive GoodOffsets (text : Str) : Option Span → Span → Prop
  | whole : text ≠ [] → GoodOffsets text none ⟨0, text.length⟩
  | snippet (o : Span) : o.Valid → 0 ≤ o.start → o.len = text.length → GoodOffsets text (some o) o

/-- `a` is seen as `c` in the snippet `o`: `c` covers exactly the offsets of `a` inside `o`, relative to `o`'s start. -/
def SeenAs (o : Span) (a c : AnnotatedSpan) : Prop :=
  c.label = a.label ∧ c.attributes = a.attributes ∧ c.span.Valid ∧
    ∀ i, c.span.containsOffset i = true ↔ a.span.containsOffset (i + o.start) = true ∧ o.containsOffset (i + o.start) = true

/-- Two spans are disjoint, or one contains the other. -/
def Laminar (s t : Span) : Prop := s.overlaps t = false ∨ s.containsSpan t = true ∨ t.containsSpan s = true

/-- The part of the span of `a` inside the snippet (C25 says what `clipTo` returns). -/
def visible (o : Span) (a : AnnotatedSpan) : Option Span := (a.span.clipTo o).toOption.join

/-! ## Lemmas -/

theorem GoodOffsets.facts {text : Str} {off : Option Span} {o : Span} (h : GoodOffsets text off o) :
    resolveOffsets text off = .ok o ∧ 0 ≤ o.start ∧ o.start < o.stop ∧ o.len = text.length := by
  cases h with
  | whole hne =>
    have : 0 < text.length := List.length_pos_of_ne_nil hne
    refine ⟨Span.new_ok (by omega), le_refl _, ?_, ?_⟩
    · show (0 : Int) < text.length; omega
    · simp [Span.len]
  | snippet _ hv h0 hl => exact ⟨rfl, h0, (Span.valid_iff _).1 hv, hl⟩

/-- The annotation `a` seen through `o`, as computed. -/
def process1 (o : Span) (a : AnnotatedSpan) : Option AnnotatedSpan :=
  (visible o a).map fun c => { a with span := ⟨c.start - o.start, c.stop - o.start⟩ }

theorem visible_spec {o : Span} (ho : o.Valid) {a : AnnotatedSpan} (ha : a.span.Valid) :
    a.span.clipTo o = .ok (visible o a) ∧
    (visible o a = none ↔ ∀ i, ¬ (a.span.containsOffset i = true ∧ o.containsOffset i = true)) ∧
    (∀ c, visible o a = some c → c.Valid ∧
      ∀ i, c.containsOffset i = true ↔ a.span.containsOffset i = true ∧ o.containsOffset i = true) := by
  rcases C25_clip_to a.span o ha ho with ⟨h1, h2⟩ | ⟨c, h1, h2, h3⟩
  · have hv : visible o a = none := by unfold visible; rw [h1]; rfl
    rw [hv, h1]
    exact ⟨rfl, by simpa using h2, by simp⟩
  · have hv : visible o a = some c := by unfold visible; rw [h1]; rfl
    rw [hv, h1]
    refine ⟨rfl, ?_, ?_⟩
    · simp only [reduceCtorEq, false_iff]
      intro h
      have := (Span.valid_iff _).1 h2
      exact h c.start ((h3 c.start).1 (by rw [Span.containsOffset_iff]; omega))
    · intro c' hc; cases hc; exact ⟨h2, h3⟩

theorem clipAndShift_eq {o : Span} (ho : o.Valid) {as : List AnnotatedSpan} (ha : ∀ a ∈ as, a.span.Valid) :
    clipAndShift o as = .ok (as.filterMap (process1 o)) := by
  induction as with
  | nil => rfl
  | cons a as ih =>
    obtain ⟨h1, -, h3⟩ := visible_spec ho (ha a (by simp))
    have ih := ih fun x hx => ha x (by simp [hx])
    unfold clipAndShift
    rw [h1]
    cases hv : visible o a with
    | none =>
      have : process1 o a = none := by simp [process1, hv]
      simp only [bind, Except.bind, List.filterMap_cons, this]
      exact ih
    | some c =>
      have hc := (Span.valid_iff _).1 (h3 c hv).1
      have hp : process1 o a = some { a with span := ⟨c.start - o.start, c.stop - o.start⟩ } := by simp [process1, hv]
      have hs : c.shift (-o.start) = .ok ⟨c.start - o.start, c.stop - o.start⟩ := by
        unfold Span.shift; rw [Span.new_ok (by omega)]; rfl
      simp only [bind, Except.bind, List.filterMap_cons, hp, hs, ih]

theorem process1_bounds {o : Span} (ho : o.Valid) {a c : AnnotatedSpan} (ha : a.span.Valid) (h : process1 o a = some c) :
    0 ≤ c.span.start ∧ c.span.start < c.span.stop ∧ c.span.stop ≤ o.len ∧ SeenAs o a c := by
  obtain ⟨-, -, h3⟩ := visible_spec ho ha
  simp only [process1, Option.map_eq_some_iff] at h
  obtain ⟨v, hv, rfl⟩ := h
  obtain ⟨h1, h2⟩ := h3 v hv
  have h1' := (Span.valid_iff _).1 h1
  have e1 := (h2 v.start).1 (by rw [Span.containsOffset_iff]; omega)
  have e2 := (h2 (v.stop - 1)).1 (by rw [Span.containsOffset_iff]; omega)
  simp only [Span.containsOffset_iff] at e1 e2
  refine ⟨by show 0 ≤ v.start - o.start; omega, by show v.start - o.start < v.stop - o.start; omega,
    by simp only [Span.len]; omega, rfl, rfl, (Span.valid_iff _).2 (by show v.start - o.start < v.stop - o.start; omega), ?_⟩
  intro i
  rw [← h2 (i + o.start)]
  simp only [Span.containsOffset_iff]; omega

/-- The tags produced are those of the processed annotations, one start and one end tag each. -/
theorem tagSequence_perm (as : List AnnotatedSpan) :
    (tagSequence as).Perm ((as.map fun a => ⟨a, false, a.span.stop⟩) ++ as.map fun a => ⟨a, true, a.span.start⟩) := by
  refine (stableSort_perm _ _).trans ?_
  exact ((stableSort_perm _ as).map _).append ((stableSort_perm _ as).map _)

theorem mem_tagSequence {as : List AnnotatedSpan} {t : Tag} :
    t ∈ tagSequence as ↔ t.ann ∈ as ∧ t.offset = if t.isStart then t.ann.span.start else t.ann.span.stop := by
  rw [(tagSequence_perm as).mem_iff, List.mem_append, List.mem_map, List.mem_map]
  constructor
  · rintro (⟨a, ha, rfl⟩ | ⟨a, ha, rfl⟩)
    · exact ⟨ha, by simp⟩
    · exact ⟨ha, by simp⟩
  · obtain ⟨a, b, i⟩ := t
    rintro ⟨ha, hi⟩
    simp only at ha hi
    cases b with
    | false => left; exact ⟨a, ha, by simp [hi]⟩
    | true => right; exact ⟨a, ha, by simp [hi]⟩

theorem tagSequence_offsets (as : List AnnotatedSpan) : (tagSequence as).Pairwise fun s t => s.offset ≤ t.offset := by
  have := stableSort_sorted (le := fun s t : Tag => pairLe (tagKey s) (tagKey t)) (fun _ _ => pairLe_total _ _)
    (fun _ _ _ => pairLe_trans _ _ _) (endTags as ++ startTags as)
  refine this.imp ?_
  intro a b h
  rw [pairLe_iff] at h
  simp only [tagKey] at h
  omega

/-- Everything about the loop: the erased output is the rest of the text, the tags come in the given order, and the text
before each tag reaches exactly to its offset. -/
theorem emit_spec (text : Str) (e : Int) (he : (text.length : Int) ≤ e) (ts : List Tag) (last : Int)
    (h0 : 0 ≤ last) (hl : last ≤ text.length) (hts : ts.Pairwise fun s t => s.offset ≤ t.offset)
    (hlo : ∀ t ∈ ts, last ≤ t.offset) (hhi : ∀ t ∈ ts, t.offset ≤ text.length) :
    eraseTags (emit text e last ts) = text.drop last.toNat ∧ tagsOf (emit text e last ts) = ts ∧
    ∀ pre t post, emit text e last ts = pre ++ .tag t :: post →
      eraseTags pre = (text.take t.offset.toNat).drop last.toNat := by
  induction ts generalizing last with
  | nil =>
    unfold emit
    by_cases h : last < e
    · rw [if_pos h]
      refine ⟨?_, by simp [tagsOf], ?_⟩
      · rw [pySlice_nonneg text h0 (by omega), List.take_of_length_le (by omega)]
        simp [eraseTags]
      · intro pre t post hp
        cases pre with
        | nil => simp at hp
        | cons p pre => simp at hp
    · rw [if_neg h]
      refine ⟨?_, by simp [tagsOf], ?_⟩
      · rw [List.drop_eq_nil_of_le (by omega)]; rfl
      · intro pre t post hp; simp at hp
  | cons t ts ih =>
    rw [List.pairwise_cons] at hts
    have ht1 := hlo t (by simp)
    have ht2 := hhi t (by simp)
    unfold emit
    by_cases h : last < t.offset
    · rw [if_pos h]
      obtain ⟨i1, i2, i3⟩ := ih t.offset (by omega) ht2 hts.2 hts.1 fun x hx => hhi x (by simp [hx])
      have hsl := pySlice_nonneg text h0 (b := t.offset) (by omega)
      have hcat : (text.take t.offset.toNat).drop last.toNat ++ text.drop t.offset.toNat = text.drop last.toNat := by
        have h1 : text.drop last.toNat = (text.take t.offset.toNat ++ text.drop t.offset.toNat).drop last.toNat := by
          rw [List.take_append_drop]
        rw [h1, List.drop_append_of_le_length (by simp; omega)]
      refine ⟨?_, ?_, ?_⟩
      · show pySlice text last t.offset ++ ([] ++ eraseTags (emit text e t.offset ts)) = _
        rw [hsl, i1, List.nil_append, hcat]
      · show t :: tagsOf (emit text e t.offset ts) = _
        rw [i2]
      · intro pre t' post hp
        cases pre with
        | nil => simp at hp
        | cons p pre =>
          simp only [List.cons_append, List.cons.injEq] at hp
          obtain ⟨rfl, hp⟩ := hp
          cases pre with
          | nil =>
            simp only [List.nil_append, List.cons.injEq, Piece.tag.injEq] at hp
            obtain ⟨rfl, -⟩ := hp
            simp [eraseTags, hsl]
          | cons p pre =>
            simp only [List.cons_append, List.cons.injEq] at hp
            obtain ⟨rfl, hp⟩ := hp
            have := i3 pre t' post hp
            have hmem : t' ∈ ts := by rw [← i2, hp]; simp [tagsOf]
            have ht' := hts.1 t' hmem
            show pySlice text last t.offset ++ ([] ++ eraseTags pre) = _
            rw [this, hsl, List.nil_append]
            have h1 : (text.take t'.offset.toNat).drop last.toNat =
                (((text.take t'.offset.toNat).take t.offset.toNat) ++ (text.take t'.offset.toNat).drop t.offset.toNat).drop last.toNat := by
              rw [List.take_append_drop]
            have hh := hhi t' (by simp [hmem])
            rw [h1, List.drop_append_of_le_length (by simp; omega), List.take_take, min_eq_left (by omega)]
    · rw [if_neg h]
      have hteq : t.offset = last := by omega
      obtain ⟨i1, i2, i3⟩ := ih last h0 hl hts.2 (fun x hx => hlo x (by simp [hx])) fun x hx => hhi x (by simp [hx])
      refine ⟨?_, ?_, ?_⟩
      · show [] ++ eraseTags (emit text e last ts) = _
        rw [i1]; rfl
      · show t :: tagsOf (emit text e last ts) = _
        rw [i2]
      · intro pre t' post hp
        cases pre with
        | nil =>
          simp only [List.nil_append, List.cons.injEq, Piece.tag.injEq] at hp
          obtain ⟨rfl, -⟩ := hp
          rw [hteq]
          simp [eraseTags]
        | cons p pre =>
          simp only [List.cons_append, List.cons.injEq] at hp
          obtain ⟨rfl, hp⟩ := hp
          show [] ++ eraseTags pre = _
          rw [i3 pre t' post hp]; rfl

/-- The pieces, in terms of the processed annotations. -/
theorem pieces_eq {text : Str} {off : Option Span} {o : Span} (ho : GoodOffsets text off o) {as : List AnnotatedSpan}
    (ha : ∀ a ∈ as, a.span.Valid) :
    pieces text as off = .ok (emit text o.stop 0 (tagSequence (as.filterMap (process1 o)))) := by
  obtain ⟨h1, h2, h3, h4⟩ := ho.facts
  simp only [pieces, h1, bind, Except.bind, checkArg, h4, decide_true, if_true,
    clipAndShift_eq ((Span.valid_iff _).2 h3) ha]

theorem emit_good {text : Str} {off : Option Span} {o : Span} (ho : GoodOffsets text off o) {as : List AnnotatedSpan}
    (ha : ∀ a ∈ as, a.span.Valid) :
    let ps := emit text o.stop 0 (tagSequence (as.filterMap (process1 o)))
    eraseTags ps = text ∧ tagsOf ps = tagSequence (as.filterMap (process1 o)) ∧
    ∀ pre t post, ps = pre ++ .tag t :: post → eraseTags pre = text.take t.offset.toNat := by
  obtain ⟨h1, h2, h3, h4⟩ := ho.facts
  have hb : ∀ t ∈ tagSequence (as.filterMap (process1 o)), 0 ≤ t.offset ∧ t.offset ≤ text.length := by
    intro t ht
    obtain ⟨hta, hto⟩ := mem_tagSequence.1 ht
    obtain ⟨a, haa, hp⟩ := List.mem_filterMap.1 hta
    obtain ⟨b1, b2, b3, -⟩ := process1_bounds ((Span.valid_iff _).2 h3) (ha a haa) hp
    rw [hto]
    split <;> omega
  have := emit_spec text o.stop (by simp only [Span.len] at h4; omega) (tagSequence (as.filterMap (process1 o))) 0 (le_refl _)
    (by omega) (tagSequence_offsets _) (fun t ht => (hb t ht).1) (fun t ht => (hb t ht).2)
  simpa using this

/-! ## C30 -/

/-- The call succeeds, its result is the concatenation of the text and tag pieces written, and removing the tags gives the
text back. -/
theorem C30_text_preserved (text : Str) (annotations : List AnnotatedSpan) (off : Option Span) (o : Span)
    (ho : GoodOffsets text off o) (ha : ∀ a ∈ annotations, a.span.Valid) :
    ∃ ps, pieces text annotations off = .ok ps ∧ annotatedText text annotations off = .ok (ps.flatMap Piece.render) ∧
      eraseTags ps = text := by
  refine ⟨_, pieces_eq ho ha, ?_, (emit_good ho ha).1⟩
  simp only [annotatedText, pieces_eq ho ha, bind, Except.bind]

/-- The call raises `ValueError` for an empty text without offsets, and when the length of the offsets is not that of the
text. -/
theorem C30_raises (text : Str) (annotations : List AnnotatedSpan) :
    annotatedText [] annotations none = .error .valueError ∧
    ∀ o : Span, o.len ≠ text.length → annotatedText text annotations (some o) = .error .valueError := by
  constructor
  · rfl
  · intro o h
    simp [annotatedText, pieces, resolveOffsets, checkArg, h, bind, Except.bind]

/-- Deviation: with a negative snippet start (which the code accepts) text can be lost. -/
theorem C30_negative_start_counterexample :
    annotatedText "abc".toList [] (some ⟨-2, 1⟩) = .ok "a".toList := by decide +kernel

/-! ## C32 -/

/-- Each annotation overlapping the snippet contributes exactly one start and one end tag (the others none), and the text
before each tag is the snippet's text up to the offset of the tag.  Repeated annotations are counted. -/
theorem C32_tags (text : Str) (annotations : List AnnotatedSpan) (off : Option Span) (o : Span)
    (ho : GoodOffsets text off o) (ha : ∀ a ∈ annotations, a.span.Valid) :
    ∃ ps seen, pieces text annotations off = .ok ps ∧
      -- `seen` lists the annotations overlapping the snippet, each restricted to it
      List.Forall₂ (SeenAs o) (annotations.filter fun a => a.span.overlaps o) seen ∧
      (tagsOf ps).Perm ((seen.map fun c => ⟨c, false, c.span.stop⟩) ++ seen.map fun c => ⟨c, true, c.span.start⟩) ∧
      ∀ pre t post, ps = pre ++ .tag t :: post →
        eraseTags pre = text.take (if t.isStart then t.ann.span.start else t.ann.span.stop).toNat := by
  obtain ⟨h1, h2, h3, h4⟩ := ho.facts
  obtain ⟨g1, g2, g3⟩ := emit_good ho ha
  refine ⟨_, annotations.filterMap (process1 o), pieces_eq ho ha, ?_, ?_, ?_⟩
  · clear g1 g2 g3
    induction annotations with
    | nil => exact .nil
    | cons a as ih =>
      have hav := ha a (by simp)
      obtain ⟨v1, v2, v3⟩ := visible_spec ((Span.valid_iff _).2 h3) hav
      have ih := ih fun x hx => ha x (by simp [hx])
      have hov := (C24_predicates a.span o hav ((Span.valid_iff _).2 h3)).1
      cases hp : process1 o a with
      | none =>
        have hvn : visible o a = none := by simpa [process1] using hp
        have : a.span.overlaps o = false := by
          by_contra hc
          obtain ⟨i, hi⟩ := hov.1 (by simpa using hc)
          exact (v2.1 hvn) i hi
        rw [List.filter_cons, this, List.filterMap_cons, hp]
        exact ih
      | some c =>
        obtain ⟨b1, b2, b3, b4⟩ := process1_bounds ((Span.valid_iff _).2 h3) hav hp
        have : a.span.overlaps o = true := by
          refine hov.2 ⟨c.span.start + o.start, ?_⟩
          exact (b4.2.2.2 c.span.start).1 (by rw [Span.containsOffset_iff]; omega)
        rw [List.filter_cons, this, List.filterMap_cons, hp]
        exact .cons b4 ih
  · rw [g2]; exact tagSequence_perm _
  · intro pre t post hp
    have hmem : t ∈ tagSequence (annotations.filterMap (process1 o)) := by
      rw [← g2, hp]; simp [tagsOf]
    rw [g3 pre t post hp, (mem_tagSequence.1 hmem).2]

theorem eraseTags_append (a b : List Piece) : eraseTags (a ++ b) = eraseTags a ++ eraseTags b := by
  simp [eraseTags]

/-- The text between the start tag and the end tag of an annotation is exactly the text of its span within the snippet. -/
theorem C32_text_between (text : Str) (annotations : List AnnotatedSpan) (off : Option Span) (o : Span)
    (ho : GoodOffsets text off o) (ha : ∀ a ∈ annotations, a.span.Valid) (ps pre mid post : List Piece) (c : AnnotatedSpan)
    (i j : Int) (h : pieces text annotations off = .ok ps)
    (hs : ps = pre ++ .tag ⟨c, true, i⟩ :: (mid ++ .tag ⟨c, false, j⟩ :: post)) :
    eraseTags mid = (text.drop c.span.start.toNat).take (c.span.stop - c.span.start).toNat ∧
      ∃ a ∈ annotations, SeenAs o a c := by
  obtain ⟨h1, h2, h3, h4⟩ := ho.facts
  obtain ⟨g1, g2, g3⟩ := emit_good ho ha
  rw [pieces_eq ho ha] at h
  simp only [Except.ok.injEq] at h
  subst h
  have hmem1 : (⟨c, true, i⟩ : Tag) ∈ tagSequence (annotations.filterMap (process1 o)) := by
    rw [← g2, hs]; simp [tagsOf]
  have hmem2 : (⟨c, false, j⟩ : Tag) ∈ tagSequence (annotations.filterMap (process1 o)) := by
    rw [← g2, hs]; simp [tagsOf]
  obtain ⟨hc, hi⟩ := mem_tagSequence.1 hmem1
  obtain ⟨-, hj⟩ := mem_tagSequence.1 hmem2
  simp only [if_true, Bool.false_eq_true, if_false] at hc hi hj
  obtain ⟨a, haa, hp⟩ := List.mem_filterMap.1 hc
  obtain ⟨b1, b2, b3, b4⟩ := process1_bounds ((Span.valid_iff _).2 h3) (ha a haa) hp
  refine ⟨?_, a, haa, b4⟩
  have e1 := g3 pre _ _ hs
  have e2 := g3 (pre ++ .tag ⟨c, true, i⟩ :: mid) ⟨c, false, j⟩ post (by rw [hs]; simp)
  simp only [hi, hj] at e1 e2
  rw [eraseTags_append, e1] at e2
  have e3 : text.take c.span.start.toNat ++ eraseTags mid = text.take c.span.stop.toNat := e2
  have := congrArg (List.drop c.span.start.toNat) e3
  rw [List.drop_append_of_le_length (by simp; omega), List.drop_eq_nil_of_le (by simp), List.nil_append, List.drop_take] at this
  rw [this]
  congr 1
  omega

/-! ## C31 and C33: the order of the tags -/

/-- Strict order in which tags are emitted. -/
def Before (s t : Tag) : Prop :=
  s.offset < t.offset ∨ (s.offset = t.offset ∧
    ((s.isStart = false ∧ t.isStart = true) ∨
     (s.isStart = true ∧ t.isStart = true ∧ t.ann.span.len < s.ann.span.len) ∨
     (s.isStart = false ∧ t.isStart = false ∧ s.ann.span.len < t.ann.span.len)))

theorem span_ext {a b : Span} (h1 : a.start = b.start) (h2 : a.stop = b.stop) : a = b := by
  cases a; cases b; simp_all

theorem nodup_perm_pairwise {as bs : List AnnotatedSpan} (h : (as.map (·.span)).Nodup) (hp : bs.Perm as) :
    bs.Pairwise fun a b => a.span ≠ b.span := by
  have : (bs.map (·.span)).Nodup := (hp.map _).nodup_iff.2 h
  exact List.pairwise_map.1 this

theorem tagSequence_before {as : List AnnotatedSpan} (h : (as.map (·.span)).Nodup) :
    (tagSequence as).Pairwise Before := by
  have hin : (endTags as ++ startTags as).Pairwise fun s t => s.offset = t.offset → Before s t := by
    rw [List.pairwise_append]
    refine ⟨?_, ?_, ?_⟩
    · unfold endTags
      rw [List.pairwise_map]
      have h1 := stableSort_sorted (le := fun a b => pairLe (endKey a) (endKey b)) (fun _ _ => pairLe_total _ _)
        (fun _ _ _ => pairLe_trans _ _ _) as
      have h2 := nodup_perm_pairwise h (stableSort_perm (fun a b => pairLe (endKey a) (endKey b)) as)
      refine (h1.and h2).imp ?_
      rintro a b ⟨hle, hne⟩ hoff
      rw [pairLe_iff] at hle
      simp only [endKey] at hle hoff
      have : ¬ a.span.start = b.span.start := fun hh => hne (span_ext hh hoff)
      refine .inr ⟨hoff, .inr (.inr ⟨rfl, rfl, ?_⟩)⟩
      simp only [Span.len] at hle ⊢
      omega
    · unfold startTags
      rw [List.pairwise_map]
      have h1 := stableSort_sorted (le := fun a b => pairLe (startKey a) (startKey b)) (fun _ _ => pairLe_total _ _)
        (fun _ _ _ => pairLe_trans _ _ _) as
      have h2 := nodup_perm_pairwise h (stableSort_perm (fun a b => pairLe (startKey a) (startKey b)) as)
      refine (h1.and h2).imp ?_
      rintro a b ⟨hle, hne⟩ hoff
      rw [pairLe_iff] at hle
      simp only [startKey] at hle hoff
      have : ¬ a.span.stop = b.span.stop := fun hh => hne (span_ext hoff hh)
      refine .inr ⟨hoff, .inr (.inl ⟨rfl, rfl, ?_⟩)⟩
      simp only [Span.len] at hle ⊢
      omega
    · intro s hs t ht hoff
      obtain ⟨a, -, rfl⟩ := List.mem_map.1 hs
      obtain ⟨b, -, rfl⟩ := List.mem_map.1 ht
      exact .inr ⟨hoff, .inl ⟨rfl, rfl⟩⟩
  have := stableSort_pairwise (le := fun s t : Tag => pairLe (tagKey s) (tagKey t)) (fun _ _ => pairLe_total _ _)
    (fun _ _ _ => pairLe_trans _ _ _) hin
  refine this.imp ?_
  rintro s t ⟨hle, hst⟩
  rw [pairLe_iff] at hle
  rw [pairLe_iff] at hst
  simp only [tagKey] at hle hst
  by_cases hlt : s.offset < t.offset
  · exact .inl hlt
  · have hoff : s.offset = t.offset := by omega
    by_cases hk : s.isStart = t.isStart
    · exact hst (.inr ⟨hoff.symm, by rw [hk]⟩) hoff
    · refine .inr ⟨hoff, .inl ?_⟩
      cases hs : s.isStart <;> cases ht : t.isStart <;> simp_all

theorem Before.asymm {s t : Tag} (h1 : Before s t) (h2 : Before t s) : False := by
  rcases h1 with h1 | ⟨e1, h1⟩ <;> rcases h2 with h2 | ⟨e2, h2⟩ <;> try omega
  rcases h1 with ⟨a, b⟩ | ⟨a, b, c⟩ | ⟨a, b, c⟩ <;> rcases h2 with ⟨a', b'⟩ | ⟨a', b', c'⟩ | ⟨a', b', c'⟩ <;>
    first | (simp_all; done) | omega

theorem perm_eq_of_before {l₁ l₂ : List Tag} (h1 : l₁.Pairwise Before) (h2 : l₂.Pairwise Before) (hp : l₁.Perm l₂) : l₁ = l₂ :=
  hp.eq_of_pairwise (fun _ _ _ _ ha hb => (ha.asymm hb).elim) h1 h2

/-- What remains to be written closes exactly the open tags of the stack (innermost first). -/
inductive Closes : List AnnotatedSpan → List Piece → Prop
  | nil : Closes [] []
  | text {S Q} (s : Str) : Closes S Q → Closes S (.text s :: Q)
  | push {S Q} (a : AnnotatedSpan) (i : Int) : Closes (a :: S) Q → Closes S (.tag ⟨a, true, i⟩ :: Q)
  | pop {S Q} (a : AnnotatedSpan) (i : Int) : Closes S Q → Closes (a :: S) (.tag ⟨a, false, i⟩ :: Q)

/-- The same, as a decomposition. -/
def Decomp : List AnnotatedSpan → List Piece → Prop
  | [], Q => WellNested Q
  | a :: S, Q => ∃ w j Q', WellNested w ∧ Q = w ++ .tag ⟨a, false, j⟩ :: Q' ∧ Decomp S Q'

theorem Decomp.prepend {u : List Piece} (hu : WellNested u) : ∀ {S Q}, Decomp S Q → Decomp S (u ++ Q)
  | [], _, h => .append hu h
  | _ :: _, _, ⟨w, j, Q', hw, e, hd⟩ => ⟨u ++ w, j, Q', .append hu hw, by rw [e]; simp, hd⟩

theorem Closes.decomp {S Q} (h : Closes S Q) : Decomp S Q := by
  induction h with
  | nil => exact .nil
  | text s _ ih => exact Decomp.prepend (.text s) ih
  | push a i _ ih =>
    obtain ⟨w, j, Q', hw, rfl, hd⟩ := ih
    have := Decomp.prepend (.elem a i j hw) hd
    simpa using this
  | pop a i _ ih => exact ⟨[], i, _, .nil, rfl, ih⟩

theorem Closes.wellNested {Q} (h : Closes [] Q) : WellNested Q := h.decomp

/-- The stack invariant for the tag sequence `Q` still to come. -/
structure StackInv (S : List AnnotatedSpan) (Q : List Tag) : Prop where
  closes : ∀ a ∈ S, ∃ j, (⟨a, false, j⟩ : Tag) ∈ Q
  order : S.Pairwise fun b a => Before ⟨a, true, a.span.start⟩ ⟨b, true, b.span.start⟩
  open_first : ∀ a ∈ S, ∀ t ∈ Q, Before ⟨a, true, a.span.start⟩ t
  pending : ∀ t ∈ Q, t.isStart = false → t.ann ∈ S ∨ (⟨t.ann, true, t.ann.span.start⟩ : Tag) ∈ Q
  future : ∀ t ∈ Q, t.isStart = true → ∃ j, (⟨t.ann, false, j⟩ : Tag) ∈ Q
  offsets : ∀ t ∈ Q, t.offset = if t.isStart then t.ann.span.start else t.ann.span.stop
  good : ∀ a, (a ∈ S ∨ ∃ t ∈ Q, t.ann = a) → ∀ b, (b ∈ S ∨ ∃ t ∈ Q, t.ann = b) →
    a.span.start < a.span.stop ∧ (a ≠ b → a.span ≠ b.span ∧ Laminar a.span b.span)
  sorted : Q.Pairwise Before

theorem Before.irrefl {t : Tag} (h : Before t t) : False := h.asymm h

theorem StackInv.step_open {S : List AnnotatedSpan} {a : AnnotatedSpan} {i : Int} {Q : List Tag}
    (h : StackInv S (⟨a, true, i⟩ :: Q)) : StackInv (a :: S) Q := by
  have hs := List.pairwise_cons.1 h.sorted
  have hi : i = a.span.start := by simpa using h.offsets ⟨a, true, i⟩ (by simp)
  subst hi
  refine ⟨?_, ?_, ?_, ?_, ?_, ?_, ?_, hs.2⟩
  · intro b hb
    rcases List.mem_cons.1 hb with rfl | hb
    · obtain ⟨j, hj⟩ := h.future ⟨b, true, b.span.start⟩ (by simp) rfl
      simp only [List.mem_cons, Tag.mk.injEq, Bool.false_eq_true, false_and, and_false, false_or] at hj
      exact ⟨j, hj⟩
    · obtain ⟨j, hj⟩ := h.closes b hb
      simp only [List.mem_cons, Tag.mk.injEq, Bool.false_eq_true, false_and, and_false, false_or] at hj
      exact ⟨j, hj⟩
  · rw [List.pairwise_cons]
    exact ⟨fun b hb => h.open_first b hb _ (by simp), h.order⟩
  · intro b hb t ht
    rcases List.mem_cons.1 hb with rfl | hb
    · exact hs.1 t ht
    · exact h.open_first b hb t (by simp [ht])
  · intro t ht hf
    rcases h.pending t (by simp [ht]) hf with hp | hp
    · exact .inl (by simp [hp])
    · rcases List.mem_cons.1 hp with e | hp
      · simp only [Tag.mk.injEq] at e
        exact .inl (by simp [e.1])
      · exact .inr hp
  · intro t ht hf
    obtain ⟨j, hj⟩ := h.future t (by simp [ht]) hf
    simp only [List.mem_cons, Tag.mk.injEq, Bool.false_eq_true, false_and, and_false, false_or] at hj
    exact ⟨j, hj⟩
  · exact fun t ht => h.offsets t (by simp [ht])
  · have : ∀ b, (b ∈ a :: S ∨ ∃ t ∈ Q, t.ann = b) → (b ∈ S ∨ ∃ t ∈ (⟨a, true, a.span.start⟩ :: Q : List Tag), t.ann = b) := by
      rintro b (hb | ⟨t, ht, rfl⟩)
      · rcases List.mem_cons.1 hb with rfl | hb
        · exact .inr ⟨_, List.mem_cons_self .., rfl⟩
        · exact .inl hb
      · exact .inr ⟨t, by simp [ht], rfl⟩
    exact fun b hb c hc => h.good b (this b hb) c (this c hc)

theorem StackInv.step_close {S : List AnnotatedSpan} {a : AnnotatedSpan} {i : Int} {Q : List Tag}
    (h : StackInv S (⟨a, false, i⟩ :: Q)) : ∃ S', S = a :: S' ∧ StackInv S' Q := by
  have hs := List.pairwise_cons.1 h.sorted
  have hi : i = a.span.stop := by simpa using h.offsets ⟨a, false, i⟩ (by simp)
  subst hi
  have haS : a ∈ S := by
    rcases h.pending ⟨a, false, a.span.stop⟩ (by simp) rfl with hp | hp
    · exact hp
    · exfalso
      simp only [List.mem_cons, Tag.mk.injEq, Bool.true_eq_false, false_and, and_false, false_or] at hp
      have hb := hs.1 _ hp
      have hlt := (h.good a (.inr ⟨_, List.mem_cons_self .., rfl⟩) a (.inr ⟨_, List.mem_cons_self .., rfl⟩)).1
      rcases hb with hb | ⟨hb, -⟩
      · simp only at hb; omega
      · simp only at hb; omega
  cases S with
  | nil => simp at haS
  | cons b S =>
    have hord := List.pairwise_cons.1 h.order
    have hba : b = a := by
      by_contra hne
      have haS' : a ∈ S := by
        rcases List.mem_cons.1 haS with e | e
        · exact absurd e.symm hne
        · exact e
      have h1 := hord.1 a haS'
      have h2 := h.open_first b (by simp) _ (List.mem_cons_self ..)
      obtain ⟨j, hj⟩ := h.closes b (by simp)
      have hj' : (⟨b, false, j⟩ : Tag) ∈ Q := by
        rcases List.mem_cons.1 hj with e | e
        · simp only [Tag.mk.injEq] at e; exact absurd e.1 hne
        · exact e
      have hjo : j = b.span.stop := by simpa using h.offsets _ hj
      subst hjo
      have h3 := hs.1 _ hj'
      obtain ⟨ga, gl⟩ := h.good a (.inl haS) b (.inl (by simp))
      obtain ⟨gb, -⟩ := h.good b (.inl (by simp)) a (.inl haS)
      obtain ⟨gne, glam⟩ := gl fun e => hne e.symm
      have hspan : a.span.start ≠ b.span.start ∨ a.span.stop ≠ b.span.stop := by
        by_contra hc
        simp only [not_or, not_not] at hc
        exact gne (span_ext hc.1 hc.2)
      simp only [Before, Span.len, Bool.true_eq_false, Bool.false_eq_true, false_and, and_false, or_false, false_or,
        true_and, and_true] at h1 h2 h3
      unfold Laminar at glam
      rw [← Bool.not_eq_true, Span.overlaps_iff, Span.containsSpan_iff, Span.containsSpan_iff] at glam
      omega
    subst hba
    have hnot : b ∉ S := fun hm => (hord.1 b hm).irrefl
    refine ⟨S, rfl, ?_, hord.2, ?_, ?_, ?_, ?_, ?_, hs.2⟩
    · intro c hc
      obtain ⟨j, hj⟩ := h.closes c (by simp [hc])
      rcases List.mem_cons.1 hj with e | e
      · simp only [Tag.mk.injEq] at e
        exact absurd (e.1 ▸ hc) hnot
      · exact ⟨j, e⟩
    · exact fun c hc t ht => h.open_first c (by simp [hc]) t (by simp [ht])
    · intro t ht hf
      rcases h.pending t (by simp [ht]) hf with hp | hp
      · rcases List.mem_cons.1 hp with e | e
        · exfalso
          have := h.offsets t (by simp [ht])
          rw [hf] at this
          have ht' : t = ⟨b, false, b.span.stop⟩ := by
            cases t; simp_all
          rw [ht'] at ht
          exact (hs.1 _ ht).irrefl
        · exact .inl e
      · simp only [List.mem_cons, Tag.mk.injEq, Bool.true_eq_false, false_and, and_false, false_or] at hp
        exact .inr hp
    · intro t ht hf
      obtain ⟨j, hj⟩ := h.future t (by simp [ht]) hf
      rcases List.mem_cons.1 hj with e | e
      · exfalso
        simp only [Tag.mk.injEq, true_and] at e
        have h1 := h.open_first b (by simp) t (by simp [ht])
        have hto := h.offsets t (by simp [ht])
        rw [hf] at hto
        have ht' : t = ⟨b, true, b.span.start⟩ := by cases t; simp_all
        rw [ht'] at h1
        exact h1.irrefl
      · exact ⟨j, e⟩
    · exact fun t ht => h.offsets t (by simp [ht])
    · have : ∀ c, (c ∈ S ∨ ∃ t ∈ Q, t.ann = c) → (c ∈ b :: S ∨ ∃ t ∈ (⟨b, false, b.span.stop⟩ :: Q : List Tag), t.ann = c) := by
        rintro c (hc | ⟨t, ht, rfl⟩)
        · exact .inl (by simp [hc])
        · exact .inr ⟨t, by simp [ht], rfl⟩
      exact fun c hc d hd => h.good c (this c hc) d (this d hd)

theorem closes_emit (text : Str) (e : Int) {S : List AnnotatedSpan} {Q : List Tag} (h : StackInv S Q) (last : Int) :
    Closes S (emit text e last Q) := by
  induction Q generalizing S last with
  | nil =>
    have hS : S = [] := by
      cases S with
      | nil => rfl
      | cons a S =>
        obtain ⟨j, hj⟩ := h.closes a (by simp)
        simp at hj
    subst hS
    unfold emit
    split
    · exact .text _ .nil
    · exact .nil
  | cons t Q ih =>
    obtain ⟨a, b, i⟩ := t
    have key : ∀ last', Closes S (.tag ⟨a, b, i⟩ :: emit text e last' Q) := by
      intro last'
      cases b with
      | true => exact .push a i (ih h.step_open last')
      | false =>
        obtain ⟨S', rfl, h'⟩ := h.step_close
        exact .pop a i (ih h' last')
    unfold emit
    split
    · exact .text _ (key _)
    · exact key _

theorem process1_span {o : Span} {a c : AnnotatedSpan} (h : process1 o a = some c) :
    ∃ v, visible o a = some v ∧ c.span = ⟨v.start - o.start, v.stop - o.start⟩ := by
  simp only [process1, Option.map_eq_some_iff] at h
  obtain ⟨v, hv, rfl⟩ := h
  exact ⟨v, hv, rfl⟩

/-- Spans of the processed annotations = visible spans, shifted. -/
theorem processed_spans (o : Span) (as : List AnnotatedSpan) :
    (as.filterMap (process1 o)).map (·.span) =
      (as.filterMap (visible o)).map fun v => ⟨v.start - o.start, v.stop - o.start⟩ := by
  induction as with
  | nil => rfl
  | cons a as ih =>
    cases hv : visible o a with
    | none =>
      have : process1 o a = none := by simp [process1, hv]
      simp [this, hv, ih]
    | some v =>
      have : process1 o a = some { a with span := ⟨v.start - o.start, v.stop - o.start⟩ } := by simp [process1, hv]
      simp [this, hv, ih]

theorem processed_nodup {o : Span} {as : List AnnotatedSpan} (h : (as.filterMap (visible o)).Nodup) :
    ((as.filterMap (process1 o)).map (·.span)).Nodup := by
  rw [processed_spans]
  refine List.pairwise_map.2 (h.imp ?_)
  intro a b hab heq
  simp only [Span.mk.injEq] at heq
  exact hab (span_ext (by omega) (by omega))

/-- If the visible parts of the annotations are pairwise different and pairwise nested or disjoint, the output is properly
nested. -/
theorem C31_well_nested (text : Str) (annotations : List AnnotatedSpan) (off : Option Span) (o : Span)
    (ho : GoodOffsets text off o) (ha : ∀ a ∈ annotations, a.span.Valid)
    (hdistinct : (annotations.filterMap (visible o)).Nodup)
    (hlam : ∀ s ∈ annotations.filterMap (visible o), ∀ t ∈ annotations.filterMap (visible o), Laminar s t) :
    ∃ ps, pieces text annotations off = .ok ps ∧ WellNested ps := by
  refine ⟨_, pieces_eq ho ha, Closes.wellNested (closes_emit _ _ ?_ _)⟩
  obtain ⟨h1, h2, h3, h4⟩ := ho.facts
  have hnd := processed_nodup hdistinct
  have hmem : ∀ t, t ∈ tagSequence (annotations.filterMap (process1 o)) → t.ann ∈ annotations.filterMap (process1 o) :=
    fun t ht => (mem_tagSequence.1 ht).1
  refine ⟨by simp, .nil, by simp, ?_, ?_, fun t ht => (mem_tagSequence.1 ht).2, ?_, tagSequence_before hnd⟩
  · intro t ht _
    exact .inr (mem_tagSequence.2 ⟨hmem t ht, by simp⟩)
  · intro t ht _
    exact ⟨t.ann.span.stop, mem_tagSequence.2 ⟨hmem t ht, by simp⟩⟩
  · have hin : ∀ a, (a ∈ ([] : List AnnotatedSpan) ∨ ∃ t ∈ tagSequence (annotations.filterMap (process1 o)), t.ann = a) →
        a ∈ annotations.filterMap (process1 o) := by
      rintro a (h | ⟨t, ht, rfl⟩)
      · simp at h
      · exact hmem t ht
    intro a hA b hB
    have hA := hin a hA
    have hB := hin b hB
    obtain ⟨a0, ha0, hpa⟩ := List.mem_filterMap.1 hA
    obtain ⟨b0, hb0, hpb⟩ := List.mem_filterMap.1 hB
    obtain ⟨-, bb, -, -⟩ := process1_bounds ((Span.valid_iff _).2 h3) (ha a0 ha0) hpa
    refine ⟨bb, fun hne => ⟨?_, ?_⟩⟩
    · intro heq
      rcases pairwise_mem_cases (List.pairwise_map.1 hnd) hA hB with e | e | e
      · exact hne e
      · exact e heq
      · exact e heq.symm
    · obtain ⟨va, hva, ea⟩ := process1_span hpa
      obtain ⟨vb, hvb, eb⟩ := process1_span hpb
      have := hlam va (List.mem_filterMap.2 ⟨a0, ha0, hva⟩) vb (List.mem_filterMap.2 ⟨b0, hb0, hvb⟩)
      rw [ea, eb]
      unfold Laminar at this ⊢
      rw [← Bool.not_eq_true, Span.overlaps_iff, Span.containsSpan_iff, Span.containsSpan_iff] at this ⊢
      simp only
      omega

/-- Deviation: two annotations with the same span come out crossed. -/
theorem C31_same_span_counterexample :
    annotatedText "ab".toList [⟨"x".toList, ⟨0, 2⟩, []⟩, ⟨"y".toList, ⟨0, 2⟩, []⟩] none = .ok "<x><y>ab</x></y>".toList := by
  decide +kernel

/-! ## C33 -/

/-- If the visible parts are pairwise different, the order of the annotations does not matter. -/
theorem C33_order_irrelevant (text : Str) (as bs : List AnnotatedSpan) (hp : as.Perm bs) (off : Option Span) (o : Span)
    (ho : GoodOffsets text off o) (ha : ∀ a ∈ as, a.span.Valid) (hdistinct : (as.filterMap (visible o)).Nodup) :
    annotatedText text as off = annotatedText text bs off := by
  have hb : ∀ b ∈ bs, b.span.Valid := fun b hb => ha b (hp.mem_iff.2 hb)
  have hd2 : (bs.filterMap (visible o)).Nodup := (hp.filterMap _).nodup_iff.1 hdistinct
  have hp2 := hp.filterMap (process1 o)
  have heq : tagSequence (as.filterMap (process1 o)) = tagSequence (bs.filterMap (process1 o)) := by
    refine perm_eq_of_before (tagSequence_before (processed_nodup hdistinct)) (tagSequence_before (processed_nodup hd2)) ?_
    exact (tagSequence_perm _).trans (((hp2.map _).append (hp2.map _)).trans (tagSequence_perm _).symm)
  simp only [annotatedText, pieces_eq ho ha, pieces_eq ho hb, heq]

/-- A concrete case meeting all hypotheses: nested, touching and clipped annotations. -/
def exAnns : List AnnotatedSpan :=
  [⟨"b".toList, ⟨12, 14⟩, []⟩, ⟨"a".toList, ⟨8, 14⟩, [("k".toList, "v".toList)]⟩, ⟨"c".toList, ⟨14, 15⟩, []⟩, ⟨"z".toList, ⟨0, 3⟩, []⟩]

example : GoodOffsets "hello".toList (some ⟨10, 15⟩) ⟨10, 15⟩ ∧ (∀ a ∈ exAnns, a.span.Valid) ∧
    (exAnns.filterMap (visible ⟨10, 15⟩)).Nodup ∧
    (∀ s ∈ exAnns.filterMap (visible ⟨10, 15⟩), ∀ t ∈ exAnns.filterMap (visible ⟨10, 15⟩), Laminar s t) ∧
    annotatedText "hello".toList exAnns (some ⟨10, 15⟩) = .ok "<a k=\"v\">he<b>ll</b></a><c>o</c>".toList := by
  refine ⟨.snippet _ ⟨10, 15, rfl⟩ (by decide) (by decide), ?_, by decide +kernel, ?_, by decide +kernel⟩
  · intro a h
    rw [Span.valid_iff]
    revert a; decide +kernel
  · unfold Laminar; decide +kernel

end AnnotatedText
end Vista
