import Verif.Spec.PathLists
import Verif.Props.Sinks
import Verif.Props.DocMap

/-!
# C79: lists and maps of paths kept in files
-/
set_option linter.unusedSectionVars false
set_option linter.unusedSimpArgs false
namespace Vista

/-! ## Lines -/

theorem char_of_toNat {c : Char} {n : Nat} (h : c.toNat = n) : c = Char.ofNat n := by rw [← h, Char.ofNat_toNat]

/-- The characters that end a line, as the Python documentation lists them. -/
theorem C79_line_breaks (c : Char) :
    isLineBreak c = true ↔ c ∈ ['\n', '\r', '\x0b', '\x0c', '\x1c', '\x1d', '\x1e', '\u0085', '\u2028', '\u2029'] := by
  constructor
  · intro h
    simp only [isLineBreak, Bool.or_eq_true, Bool.and_eq_true, decide_eq_true_eq, beq_iff_eq] at h
    have : c.toNat = 10 ∨ c.toNat = 11 ∨ c.toNat = 12 ∨ c.toNat = 13 ∨ c.toNat = 28 ∨ c.toNat = 29 ∨ c.toNat = 30 ∨ c.toNat = 0x85 ∨
        c.toNat = 0x2028 ∨ c.toNat = 0x2029 := by omega
    rcases this with h | h | h | h | h | h | h | h | h | h <;> rw [char_of_toNat h] <;> decide
  · intro h
    simp only [List.mem_cons, List.not_mem_nil, or_false] at h
    rcases h with rfl | rfl | rfl | rfl | rfl | rfl | rfl | rfl | rfl | rfl <;> decide

/-- The characters that are stripped: those with `isspace` true. -/
theorem C79_white_space (c : Char) :
    isSpace c = true ↔ c ∈ ['\t', '\n', '\x0b', '\x0c', '\r', '\x1c', '\x1d', '\x1e', '\x1f', ' ', '\u0085', '\u00a0', '\u1680', '\u2000',
      '\u2001', '\u2002', '\u2003', '\u2004', '\u2005', '\u2006', '\u2007', '\u2008', '\u2009', '\u200a', '\u2028', '\u2029', '\u202f',
      '\u205f', '\u3000'] := by
  constructor
  · intro h
    simp only [isSpace, Bool.or_eq_true, Bool.and_eq_true, decide_eq_true_eq, beq_iff_eq] at h
    have : c.toNat ∈ [9, 10, 11, 12, 13, 28, 29, 30, 31, 32, 0x85, 0xA0, 0x1680, 0x2000, 0x2001, 0x2002, 0x2003, 0x2004, 0x2005, 0x2006, 0x2007,
        0x2008, 0x2009, 0x200A, 0x2028, 0x2029, 0x202F, 0x205F, 0x3000] := by
      simp only [List.mem_cons, List.not_mem_nil, or_false]; omega
    generalize hn : c.toNat = n at this
    rw [char_of_toNat hn]
    revert this
    clear h hn c
    revert n
    decide +kernel
  · revert c
    decide +kernel

theorem splitlines_crlf (rest : Str) : splitlines ('\r' :: '\n' :: rest) = [] :: splitlines rest := by rw [splitlines]

theorem splitlines_cons {c : Char} {rest : Str} (h : ¬ (c = '\r' ∧ rest.head? = some '\n')) :
    splitlines (c :: rest) = if isLineBreak c then [] :: splitlines rest
      else match splitlines rest with
        | [] => [[c]]
        | l :: ls => (c :: l) :: ls := by
  rw [splitlines]
  all_goals try rfl
  all_goals
    rintro rest' rfl rfl
    exact h ⟨rfl, rfl⟩

theorem splitlines_pre {l s : Str} {m : Str} {ls : List Str} (h : ∀ c ∈ l, isLineBreak c = false) (hs : splitlines s = m :: ls) :
    splitlines (l ++ s) = (l ++ m) :: ls := by
  induction l with
  | nil => simpa using hs
  | cons c l ih =>
    have hc : isLineBreak c = false := h c (by simp)
    have hcr : ¬ (c = '\r' ∧ (l ++ s).head? = some '\n') := by
      rintro ⟨rfl, -⟩; revert hc; decide
    rw [List.cons_append, splitlines_cons hcr, hc, ih fun c hc => h c (by simp [hc])]
    simp

theorem splitlines_unended {l : Str} (h : ∀ c ∈ l, isLineBreak c = false) (hne : l ≠ []) : splitlines l = [l] := by
  induction l with
  | nil => exact absurd rfl hne
  | cons c l ih =>
    have hc : isLineBreak c = false := h c (by simp)
    have hcr : ¬ (c = '\r' ∧ l.head? = some '\n') := by
      rintro ⟨rfl, -⟩; revert hc; decide
    rw [splitlines_cons hcr, hc]
    by_cases hl : l = []
    · subst hl; simp [splitlines]
    · rw [ih (fun c hc => h c (by simp [hc])) hl]; simp

theorem splitlines_of_brokenAt {s : Str} {ls : List Str} (h : BrokenAt s ls) : splitlines s = ls := by
  induction h with
  | none => rfl
  | unended h hne => exact splitlines_unended h hne
  | @crlf l s ls h _ ih =>
    have := splitlines_pre h (splitlines_crlf s)
    rw [this, ih]; simp
  | line h hc hcr _ ih =>
    have := splitlines_pre h (m := []) (by rw [splitlines_cons hcr, hc, ih]; rfl)
    rw [this]; simp

theorem brokenAt_splitlines (s : Str) : BrokenAt s (splitlines s) := by
  induction hn : s.length using Nat.strong_induction_on generalizing s with
  | _ n ih =>
    subst hn
    match s with
    | [] => exact .none
    | c :: rest =>
      by_cases hcr : c = '\r' ∧ rest.head? = some '\n'
      · obtain ⟨rfl, h⟩ := hcr
        cases rest with
        | nil => simp at h
        | cons d rest =>
          simp only [List.head?_cons, Option.some.injEq] at h
          subst h
          rw [splitlines_crlf]
          exact BrokenAt.crlf (l := []) (by simp) (ih rest.length (by simp; omega) rest rfl)
      · have hrest := ih rest.length (by simp) rest rfl
        rw [splitlines_cons hcr]
        cases hc : isLineBreak c with
        | true => exact BrokenAt.line (l := []) (by simp) hc hcr hrest
        | false =>
          generalize splitlines rest = r at *
          have hall : ∀ {l : Str}, (∀ d ∈ l, isLineBreak d = false) → ∀ d ∈ c :: l, isLineBreak d = false := by
            intro l h d hd
            rcases List.mem_cons.1 hd with rfl | hd
            · exact hc
            · exact h d hd
          cases hrest with
          | none => exact .unended (hall (by simp)) (by simp)
          | unended h hne => exact .unended (hall h) (by simp)
          | crlf h hr => exact BrokenAt.crlf (l := c :: _) (hall h) hr
          | line h h1 h2 hr => exact BrokenAt.line (l := c :: _) (hall h) h1 h2 hr

theorem brokenAt_iff (s : Str) (ls : List Str) : BrokenAt s ls ↔ splitlines s = ls :=
  ⟨splitlines_of_brokenAt, fun h => h ▸ brokenAt_splitlines s⟩

theorem strip_idem (s : Str) : strip (strip s) = strip s := by
  obtain ⟨-, h2, h3⟩ := stripped_strip s
  exact strip_of_stripped ⟨⟨[], [], by simp, by simp, by simp⟩, h2, h3⟩

namespace Params

theorem pathNamed_iff (rel : Option PyPath) (s : Str) (p : PyPath) : PathNamed rel s p ↔ relPath rel s = p := by
  cases rel with
  | none => simp only [PathNamed, relPath, true_and, reduceCtorEq, false_and, exists_false, or_false]; exact eq_comm
  | some r =>
    simp only [PathNamed, relPath, reduceCtorEq, false_and, false_or, Option.some.injEq, exists_eq_left', PyPath.div]
    by_cases h : (PyPath.parse s).root = []
    · simp only [h, ne_eq, not_true_eq_false, false_and, true_and, false_or, if_false]; exact eq_comm
    · simp only [h, ne_eq, not_false_eq_true, false_and, true_and, or_false, if_true]; exact eq_comm

theorem forall₂_named (rel : Option PyPath) (ts : List Str) (ps : List PyPath) :
    List.Forall₂ (PathNamed rel) ts ps ↔ ts.map (relPath rel) = ps := by
  induction ts generalizing ps with
  | nil => simp only [List.forall₂_nil_left_iff, List.map_nil]; exact eq_comm
  | cons t ts ih =>
    rw [List.forall₂_cons_left_iff]
    simp only [pathNamed_iff, ih]
    constructor
    · rintro ⟨_, _, rfl, rfl, rfl⟩; rfl
    · rintro rfl; exact ⟨_, _, rfl, rfl, rfl⟩

theorem forall₂_stripped (ls ts : List Str) : List.Forall₂ Stripped ls ts ↔ ls.map strip = ts := by
  induction ls generalizing ts with
  | nil => simp only [List.forall₂_nil_left_iff, List.map_nil]; exact eq_comm
  | cons t ts ih =>
    rw [List.forall₂_cons_left_iff]
    simp only [stripped_iff, ih]
    constructor
    · rintro ⟨_, _, rfl, rfl, rfl⟩; rfl
    · rintro rfl; exact ⟨_, _, rfl, rfl, rfl⟩

theorem privateGet_of_found {p : Params} (h : p.WF) {name : Str} {v : PVal} (hv : Found p name .none v) :
    p.privateGet name false .none = .ok v := by
  rcases privateGet_found h name .none with ⟨w, hw, hu⟩ | ⟨-, hu⟩
  · rw [hw, (hu v).1 hv]
  · exact absurd ⟨v, hv⟩ hu

theorem pathLines_stripped (text : Str) : (pathLines text).map strip = pathLines text := by
  rw [List.map_congr_left (g := id) (fun t ht => ?_), List.map_id]
  simp only [pathLines, List.mem_filter, List.mem_map] at ht
  obtain ⟨⟨l, -, rfl⟩, -⟩ := ht
  exact strip_idem l

/-- A string parameter: the lines of the file it names that are, once stripped, neither empty nor start with `#`, as paths, in order. -/
theorem C79_path_list_file (cwd : PyPath) (p : Params) (h : p.WF) (param : Str) (rel : Option PyPath) (fs : FS) (l : Loc)
    (hl : PathIs cwd p param l) (text : Str) (hf : fs.node l = some (.file (.data (encodeUtf8 text))))
    (ls ts : List Str) (hls : BrokenAt (universalNewlines text) ls) (hts : List.Forall₂ Stripped ls ts) (ps : List PyPath)
    (hps : List.Forall₂ (PathNamed rel) (ts.filter fun t => decide (t ≠ [] ∧ t.head? ≠ some '#')) ps) :
    pathListFromFile cwd p param rel fs = (.ok ps, fs) := by
  have hex := (C73_existing_file cwd p h param fs).1 l hl ⟨_, hf⟩
  obtain ⟨s, hs, -⟩ := hl
  have hread : fileSource l fs = (.ok (universalNewlines text), fs) := by
    simp [fileSource, readData, readFile, hf, (translatedText_spec _).1 text rfl]
  rw [brokenAt_iff] at hls
  rw [forall₂_stripped] at hts
  rw [forall₂_named] at hps
  simp only [pathListFromFile, Prog.bind_apply, Prog.ofRes_apply, privateGet_of_found h hs, hex, hread, Prog.pure_apply]
  rw [← hps, ← hts, ← hls, show (fun s => relPath rel (strip s)) = relPath rel ∘ strip from rfl, ← List.map_map, pathLines_stripped]
  rfl

/-- A string parameter that does not name a file is a `ParameterError`; a file that is not UTF-8 a `ValueError`. -/
theorem C79_path_list_unreadable (cwd : PyPath) (p : Params) (h : p.WF) (param : Str) (rel : Option PyPath) (fs : FS) (s : Str)
    (hs : Found p param .none (.str s)) :
    ((¬ ∃ c, fs.node (PyPath.resolve cwd (PyPath.parse s)) = some (.file c)) → pathListFromFile cwd p param rel fs = (.error .parameterError, fs)) ∧
    (∀ b, fs.node (PyPath.resolve cwd (PyPath.parse s)) = some (.file (.data b)) → (¬ ∃ t, b = encodeUtf8 t) →
      pathListFromFile cwd p param rel fs = (.error .valueError, fs)) := by
  have hp : PathIs cwd p param (PyPath.resolve cwd (PyPath.parse s)) := ⟨s, hs, rfl⟩
  constructor
  · intro hno
    obtain ⟨e, he, hex⟩ := (C73_existing_file cwd p h param fs).2 (by
      rintro ⟨l, hl, hc⟩
      rw [pathIs_unique h hl hp] at hc
      exact hno hc)
    obtain rfl : e = .parameterError := he.2 (by
      rintro ⟨v, hv, hu⟩
      obtain rfl := (found_unique h hs v).1 hv
      exact not_unprintable rfl hu)
    simp only [pathListFromFile, Prog.bind_apply, Prog.ofRes_apply, privateGet_of_found h hs, hex]
  · intro b hb hno
    have hex := (C73_existing_file cwd p h param fs).1 _ hp ⟨_, hb⟩
    have hread : fileSource (PyPath.resolve cwd (PyPath.parse s)) fs = (.error .valueError, fs) := by
      simp [fileSource, readData, readFile, hb, (translatedText_spec b).2 hno]
    simp only [pathListFromFile, Prog.bind_apply, Prog.ofRes_apply, privateGet_of_found h hs, hex, hread]

theorem pathElements_strings (rel : Option PyPath) (ss : List Str) :
    pathElements rel (ss.map .str) = .ok (ss.map fun s => relPath rel (strip s)) := by
  induction ss with
  | nil => rfl
  | cons s ss ih => simp [pathElements, pathElement, ih, bind, Except.bind]

theorem arbitraryList_of_found {p : Params} (h : p.WF) {name : Str} {vs : List PVal} (hv : Found p name .none (.list vs)) :
    p.arbitraryList name = .ok (.list vs) := ((C47_get p h name .list .none).1 _).2 ⟨hv, rfl⟩

/-- A list parameter: each element, stripped, as a path; no element is left out. -/
theorem C79_path_list_inline (cwd : PyPath) (p : Params) (h : p.WF) (param : Str) (rel : Option PyPath) (fs : FS) (ss ts : List Str)
    (hss : Found p param .none (.list (ss.map .str))) (hts : List.Forall₂ Stripped ss ts) (ps : List PyPath)
    (hps : List.Forall₂ (PathNamed rel) ts ps) : pathListFromFile cwd p param rel fs = (.ok ps, fs) := by
  rw [forall₂_stripped] at hts
  rw [forall₂_named] at hps
  simp only [pathListFromFile, Prog.bind_apply, Prog.ofRes_apply, privateGet_of_found h hss, arbitraryList_of_found h hss, pathElements_strings]
  rw [← hps, ← hts, List.map_map]; rfl

/-- A list with an element that is not a string is an error; a parameter that is neither a string nor a list, or absent, is a
`ParameterError` (see `Refused`).  No error changes anything. -/
theorem C79_path_list_errors (cwd : PyPath) (p : Params) (h : p.WF) (param : Str) (rel : Option PyPath) (fs : FS) :
    (∀ vs, Found p param .none (.list vs) → (∃ v ∈ vs, ∀ s, v ≠ .str s) →
      ∃ e, pathListFromFile cwd p param rel fs = (.error e, fs) ∧ (e = .attributeError ∨ e = .typeError)) ∧
    ((¬ ∃ v, Found p param .none v ∧ ((∃ s, v = .str s) ∨ ∃ vs, v = .list vs)) →
      ∃ e, Refused p param .none e ∧ pathListFromFile cwd p param rel fs = (.error e, fs)) := by
  constructor
  · intro vs hvs hbad
    have : ∃ e, pathElements rel vs = .error e ∧ (e = .attributeError ∨ e = .typeError) := by
      clear hvs
      induction vs with
      | nil => simp at hbad
      | cons v vs ih =>
        simp only [pathElements, bind, Except.bind]
        cases hv : pathElement rel v with
        | error e =>
          refine ⟨e, rfl, ?_⟩
          cases v <;> simp_all [pathElement]
        | ok q =>
          have hs : ∃ s, v = .str s := by cases v <;> simp_all [pathElement]
          obtain ⟨s, rfl⟩ := hs
          obtain ⟨e, he, he'⟩ := ih (by
            obtain ⟨w, hw, hw'⟩ := hbad
            rcases List.mem_cons.1 hw with rfl | hw
            · exact absurd rfl (hw' s)
            · exact ⟨w, hw, hw'⟩)
          exact ⟨e, by simp only [he], he'⟩
    obtain ⟨e, he, he'⟩ := this
    refine ⟨e, ?_, he'⟩
    simp only [pathListFromFile, Prog.bind_apply, Prog.ofRes_apply, privateGet_of_found h hvs, arbitraryList_of_found h hvs, he]
  · intro hno
    rcases privateGet_found h param .none with ⟨w, hw, hu⟩ | ⟨hw, hu⟩
    · have hf := (hu w).2 rfl
      have harb : ∃ e, Refused p param .none e ∧ p.arbitraryList param = .error e := by
        cases ha : p.arbitraryList param with
        | error e => exact ⟨e, (C47_get p h param .list .none).2 e ha, rfl⟩
        | ok v =>
          obtain ⟨a1, a2⟩ := ((C47_get p h param .list .none).1 v).1 ha
          refine absurd ⟨v, a1, .inr ?_⟩ hno
          clear a1 hno hu ha
          cases v <;> simp_all [isinstance]
      have hns : ∀ s, w ≠ .str s := fun s hs => hno ⟨w, hf, .inl ⟨s, hs⟩⟩
      have hlist : ∀ vs, w ≠ .list vs := fun s hs => hno ⟨w, hf, .inr ⟨s, hs⟩⟩
      obtain ⟨e, he, harb⟩ := harb
      refine ⟨e, he, ?_⟩
      simp only [pathListFromFile, Prog.bind_apply, Prog.ofRes_apply, hw]
      cases w <;> first | exact absurd rfl (hns _) | simp only [Prog.bind_apply, Prog.ofRes_apply, harb]
    · exact ⟨_, refused_none hu, by simp only [pathListFromFile, Prog.bind_apply, Prog.ofRes_apply, hw]⟩

/-! ## Maps -/

theorem pathMapItems_spec (rel : Option PyPath) (ls : List Str) :
    (∀ items, List.Forall₂ (fun l e => ∃ a b, TwoFields l a b ∧ e.1 = a ∧ PathNamed rel b e.2) ls items → pathMapItems rel ls = .ok items) ∧
    ((∃ l ∈ ls, ¬ ∃ a b, TwoFields l a b) → pathMapItems rel ls = .error .ioError) := by
  induction ls with
  | nil =>
    refine ⟨fun items h => ?_, by simp⟩
    rw [List.forall₂_nil_left_iff] at h
    subst h; rfl
  | cons l ls ih =>
    obtain ⟨ih1, ih2⟩ := ih
    constructor
    · intro items h
      rw [List.forall₂_cons_left_iff] at h
      obtain ⟨⟨k, q⟩, r, ⟨a, b, htf, rfl, hq⟩, hr, rfl⟩ := h
      obtain ⟨x, y, h1, rfl, rfl⟩ := (twoFields_iff _ _ _).1 htf
      rw [pathNamed_iff] at hq
      simp only at hq
      subst hq
      simp [pathMapItems, h1, ih1 r hr, bind, Except.bind]
    · intro hbad
      by_cases htwo : ∃ a b, splitOn '\t' l = [a, b]
      · obtain ⟨a, b, hab⟩ := htwo
        have htf : TwoFields l (strip a) (strip b) := (twoFields_iff _ _ _).2 ⟨a, b, hab, rfl, rfl⟩
        have := ih2 (by
          obtain ⟨l', hl', hno⟩ := hbad
          rcases List.mem_cons.1 hl' with rfl | hl'
          · exact absurd ⟨_, _, htf⟩ hno
          · exact ⟨l', hl', hno⟩)
        simp [pathMapItems, hab, this, bind, Except.bind]
      · rw [pathMapItems]
        split
        · rename_i a b hab; exact absurd ⟨a, b, hab⟩ htwo
        · rfl

/-- A map: if each line of the file has two fields, the mapping of the stripped first fields to the paths named by the stripped second
fields, where the last line of a key counts; otherwise `IOError`. -/
theorem C79_path_map (cwd : PyPath) (p : Params) (h : p.WF) (param : Str) (rel : Option PyPath) (fs : FS) (l : Loc)
    (hl : PathIs cwd p param l) (text : Str) (hf : fs.node l = some (.file (.data (encodeUtf8 text))))
    (ls : List Str) (hls : IsLines (universalNewlines text) ls) :
    (∀ items, List.Forall₂ (fun l e => ∃ a b, TwoFields l a b ∧ e.1 = a ∧ PathNamed rel b e.2) ls items →
      ∃ m, pathMapFromFile cwd p param rel fs = (.ok m, fs) ∧ (m.map (·.1)).Nodup ∧
        ∀ k q, (k, q) ∈ m ↔ ∃ before after, items = before ++ (k, q) :: after ∧ k ∉ after.map (·.1)) ∧
    ((∃ l ∈ ls, ¬ ∃ a b, TwoFields l a b) → pathMapFromFile cwd p param rel fs = (.error .ioError, fs)) := by
  have hex := (C73_existing_file cwd p h param fs).1 l hl ⟨_, hf⟩
  have hread : fileSource l fs = (.ok (universalNewlines text), fs) := by
    simp [fileSource, readData, readFile, hf, (translatedText_spec _).1 text rfl]
  rw [isLines_iff] at hls
  obtain ⟨h1, h2⟩ := pathMapItems_spec rel ls
  constructor
  · intro items hitems
    refine ⟨dictOf items, ?_, nodup_dictOf _, fun k q => ?_⟩
    · simp only [pathMapFromFile, Prog.bind_apply, Prog.ofRes_apply, hex, hread, hls, h1 items hitems, Prog.pure_apply]
    · rw [mem_dictOf]
      simp only [List.mem_map, not_exists, not_and, ne_eq]
  · intro hbad
    simp only [pathMapFromFile, Prog.bind_apply, Prog.ofRes_apply, hex, hread, hls, h2 hbad]

/-- Maps and pickled objects: a parameter that does not name a file is a `ParameterError` (see `Refused`); a map that is not UTF-8 is a `ValueError`; a
pickled object is what unpickling the content of the file gives. -/
theorem C79_files (cwd : PyPath) (p : Params) (h : p.WF) (param : Str) (rel : Option PyPath) {α : Type} (unpickle : Bytes → Res α) (fs : FS) :
    ((¬ ∃ l, PathIs cwd p param l ∧ ∃ c, fs.node l = some (.file c)) →
      ∃ e, Refused p param .none e ∧ pathMapFromFile cwd p param rel fs = (.error e, fs) ∧
        pickledObjectFromFile unpickle cwd p param fs = (.error e, fs)) ∧
    ∀ l b, PathIs cwd p param l → fs.node l = some (.file (.data b)) →
      ((¬ ∃ t, b = encodeUtf8 t) → pathMapFromFile cwd p param rel fs = (.error .valueError, fs)) ∧
      pickledObjectFromFile unpickle cwd p param fs = (unpickle b, fs) := by
  constructor
  · intro hno
    obtain ⟨e, he, hex⟩ := (C73_existing_file cwd p h param fs).2 hno
    exact ⟨e, he, by simp only [pathMapFromFile, pickledObjectFromFile, Prog.bind_apply, hex, and_self]⟩
  · intro l b hl hb
    have hex := (C73_existing_file cwd p h param fs).1 l hl ⟨_, hb⟩
    constructor
    · intro hno
      have hread : fileSource l fs = (.error .valueError, fs) := by
        simp [fileSource, readData, readFile, hb, (translatedText_spec b).2 hno]
      simp only [pathMapFromFile, Prog.bind_apply, hex, hread]
    · have hread : readData l fs = (.ok b, fs) := by simp [readData, readFile, hb]
      simp only [pickledObjectFromFile, Prog.bind_apply, hex, hread, Prog.ofRes_apply]

/-! ## A list written line by line -/

/-- Text that is one line of a list of paths: it has no line break and no white space at its ends, is not empty and does not start
with `#`. -/
structure ListLine (s : Str) : Prop where
  breaks : ∀ c ∈ s, isLineBreak c = false
  nonempty : s ≠ []
  hash : s.head? ≠ some '#'
  head : ∀ c, s.head? = some c → isSpace c = false
  last : ∀ c, s.getLast? = some c → isSpace c = false

theorem brokenAt_join (ss : List Str) (hs : ∀ s ∈ ss, ListLine s) : BrokenAt (joinWith '\n' ss) ss := by
  induction ss with
  | nil => exact .none
  | cons s ss ih =>
    have h := hs s (by simp)
    cases ss with
    | nil => exact .unended h.breaks h.nonempty
    | cons s' ss =>
      have : joinWith '\n' (s :: s' :: ss) = s ++ '\n' :: joinWith '\n' (s' :: ss) := by simp [joinWith]
      rw [this]
      exact .line h.breaks (by decide) (by rintro ⟨h, -⟩; revert h; decide) (ih fun x hx => hs x (by simp [hx]))

/-- A file with one path per line gives those paths. -/
theorem C79_path_list_lines (cwd : PyPath) (p : Params) (h : p.WF) (param : Str) (fs : FS) (l : Loc)
    (hl : PathIs cwd p param l) (qs : List PyPath) (hq : ∀ q ∈ qs, q.Normal ∧ ListLine q.render)
    (hf : fs.node l = some (.file (.data (encodeUtf8 (joinWith '\n' (qs.map PyPath.render)))))) :
    pathListFromFile cwd p param none fs = (.ok qs, fs) := by
  have hlines : ∀ s ∈ qs.map PyPath.render, ListLine s := by
    intro s hs
    obtain ⟨q, hq', rfl⟩ := List.mem_map.1 hs
    exact (hq q hq').2
  have hb := brokenAt_join _ hlines
  have hcr : '\r' ∉ joinWith '\n' (qs.map PyPath.render) := by
    intro hmem
    obtain ⟨s, hs, hc⟩ | hc : (∃ s ∈ qs.map PyPath.render, '\r' ∈ s) ∨ ('\r' : Char) = '\n' := by
      generalize qs.map PyPath.render = ss at hmem
      clear hlines hb hf
      induction ss with
      | nil => simp [joinWith] at hmem
      | cons s ss ih =>
        cases ss with
        | nil => exact .inl ⟨s, by simp, by simpa [joinWith] using hmem⟩
        | cons s' ss =>
          rw [show joinWith '\n' (s :: s' :: ss) = s ++ '\n' :: joinWith '\n' (s' :: ss) by simp [joinWith]] at hmem
          rcases List.mem_append.1 hmem with hm | hm
          · exact .inl ⟨s, by simp, hm⟩
          · rcases List.mem_cons.1 hm with hm | hm
            · exact .inr hm
            · rcases ih hm with ⟨x, hx, hx'⟩ | h
              · exact .inl ⟨x, by simp [hx], hx'⟩
              · exact .inr h
    · have := (hlines s hs).breaks _ hc
      revert this; decide
    · revert hc; decide
  refine C79_path_list_file cwd p h param none fs l hl _ hf (qs.map PyPath.render) (qs.map PyPath.render)
    (by rw [universalNewlines_of_no_cr hcr]; exact hb) ?_ qs ?_
  · rw [List.forall₂_same]
    intro s hs
    exact ⟨⟨[], [], by simp, by simp, by simp⟩, (hlines s hs).head, (hlines s hs).last⟩
  · rw [List.filter_eq_self.2 (fun s hs => by simpa using ⟨(hlines s hs).nonempty, (hlines s hs).hash⟩), forall₂_named, List.map_map]
    conv_rhs => rw [← List.map_id qs]
    exact List.map_congr_left fun q hq' => PyPath.parse_render (hq q hq').1

/-! ## Examples -/

namespace PathListExample
def home : PyPath := ⟨['/'], ["home".toList]⟩
def par : Params := ⟨[], [("list".toList, .str "l".toList), ("inline".toList, .list [.str " x ".toList, .str "#y".toList, .str [] ]),
  ("map".toList, .str "m".toList)]⟩
def fs : FS := [(["home".toList], .dir), (["home".toList, "l".toList], .file (.data (encodeUtf8 "a/b\n\n  # no\r\n /c \u2028d".toList))),
  (["home".toList, "m".toList], .file (.data (encodeUtf8 "k\t/x\nj\ty\nk\tz".toList)))]
def listOf (r : Res (List PyPath) × FS) : List Str := match r.1 with | .ok s => s.map PyPath.render | .error _ => ["error".toList]
def mapOf (r : Res (List (Str × PyPath)) × FS) : List (Str × Str) :=
  match r.1 with | .ok m => m.map fun e => (e.1, e.2.render) | .error _ => [("error".toList, [])]

example : listOf (pathListFromFile home par "list".toList none fs) = ["a/b".toList, "/c".toList, "d".toList] := by decide +kernel
example : listOf (pathListFromFile home par "list".toList (some home) fs) = ["/home/a/b".toList, "/c".toList, "/home/d".toList] := by decide +kernel
/-- Comment and blank elements of a list given directly are kept. -/
theorem C79_inline_comment_counterexample :
    listOf (pathListFromFile home par "inline".toList none fs) = ["x".toList, "#y".toList, ".".toList] := by decide +kernel
example : mapOf (pathMapFromFile home par "map".toList (some home) fs) = [("k".toList, "/home/z".toList), ("j".toList, "/home/y".toList)] := by
  decide +kernel
end PathListExample

end Params
end Vista
