import Verif.Model.SmallScripts
import Verif.Props.Sinks

/-!
# Properties of small scripts and string helpers (C71, C80)
-/
set_option linter.unusedSimpArgs false
namespace Vista

theorem endsWith_iff (s e : Str) : endsWith s e = true ↔ ∃ b, s = b ++ e := by
  simp only [endsWith, decide_eq_true_eq]
  constructor
  · intro h
    exact ⟨s.take (s.length - e.length), by conv_lhs => rw [← List.take_append_drop (s.length - e.length) s, h]⟩
  · rintro ⟨b, rfl⟩; simp

theorem take_ext (b e : Str) : (b ++ e).take ((b ++ e).length - e.length) = b := by simp

/-! ## C71 -/

/-- The output name: `.tar` and `.tgz` are replaced by `.zip`; a name with none of the endings gets `.zip`. -/
theorem C71_output_name (b : Str) :
    outputName (b ++ ".tar".toList) = b ++ ".zip".toList ∧
    outputName (b ++ ".tgz".toList) = b ++ ".zip".toList ∧
    ((¬ ∃ c, b = c ++ ".tar".toList ∨ b = c ++ ".tgz".toList ∨ b = c ++ "tar.gz".toList) → outputName b = b ++ ".zip".toList) := by
  have e1 : endsWith (b ++ ".tar".toList) ".tar".toList = true := (endsWith_iff _ _).2 ⟨b, rfl⟩
  have e2 : endsWith (b ++ ".tgz".toList) ".tgz".toList = true := (endsWith_iff _ _).2 ⟨b, rfl⟩
  have e3 : endsWith (b ++ ".tgz".toList) ".tar".toList = false := by
    rw [Bool.eq_false_iff, ne_eq, endsWith_iff]
    rintro ⟨c, hc⟩
    have := congrArg List.getLast? hc
    simp at this
  refine ⟨?_, ?_, fun h => ?_⟩
  · rw [outputName, cutExtension, if_pos e1, take_ext]
  · rw [outputName, cutExtension, e3, if_neg (by simp), cutExtension, if_pos e2, take_ext]
  · have h1 : endsWith b ".tar".toList = false := by
      rw [Bool.eq_false_iff, ne_eq, endsWith_iff]; rintro ⟨c, hc⟩; exact h ⟨c, .inl hc⟩
    have h2 : endsWith b ".tgz".toList = false := by
      rw [Bool.eq_false_iff, ne_eq, endsWith_iff]; rintro ⟨c, hc⟩; exact h ⟨c, .inr (.inl hc)⟩
    have h3 : endsWith b "tar.gz".toList = false := by
      rw [Bool.eq_false_iff, ne_eq, endsWith_iff]; rintro ⟨c, hc⟩; exact h ⟨c, .inr (.inr hc)⟩
    simp only [outputName, cutExtension, h1, h2, h3, Bool.false_eq_true, if_false]

theorem output_gz (b : Str) : outputName (b ++ "tar.gz".toList) = b ++ ".zip".toList := by
  have e1 : endsWith (b ++ "tar.gz".toList) "tar.gz".toList = true := (endsWith_iff _ _).2 ⟨b, rfl⟩
  have e2 : endsWith (b ++ "tar.gz".toList) ".tar".toList = false := by
    rw [Bool.eq_false_iff, ne_eq, endsWith_iff]
    rintro ⟨c, hc⟩
    have := congrArg List.getLast? hc
    simp at this
  have e3 : endsWith (b ++ "tar.gz".toList) ".tgz".toList = false := by
    rw [Bool.eq_false_iff, ne_eq, endsWith_iff]
    rintro ⟨c, hc⟩
    have := congrArg (fun l => l.reverse.take 4) hc
    simp at this
  rw [outputName, cutExtension, e2, if_neg (by simp), cutExtension, e3, if_neg (by simp), cutExtension, if_pos e1, take_ext]

/-- The output is never the input itself, and ends in `.zip`. -/
theorem C71_output_differs (f : Str) : outputName f ≠ f ∧ ∃ b, outputName f = b ++ ".zip".toList := by
  refine ⟨fun h => ?_, ⟨_, rfl⟩⟩
  by_cases h' : ∃ c, f = c ++ ".tar".toList ∨ f = c ++ ".tgz".toList ∨ f = c ++ "tar.gz".toList
  · obtain ⟨c, rfl | rfl | rfl⟩ := h'
    · rw [(C71_output_name c).1] at h; simp at h
    · rw [(C71_output_name c).2.1] at h; simp at h
    · rw [output_gz] at h; simp at h
  · rw [(C71_output_name f).2.2 h'] at h
    simp at h

/-- The ending `.tar.gz` is not replaced as documented: a dot too many stays. -/
theorem C71_tar_gz_counterexample (b : Str) :
    outputName (b ++ ".tar.gz".toList) = b ++ "..zip".toList ∧ outputName (b ++ ".tar.gz".toList) ≠ b ++ ".zip".toList := by
  have : outputName (b ++ ".tar.gz".toList) = b ++ "..zip".toList := by
    have := output_gz (b ++ ".".toList)
    simpa using this
  refine ⟨this, ?_⟩
  rw [this]
  simp

/-- For offsets within the text, exactly the characters between them are printed, without a warning. -/
theorem C71_text_at_offsets (l : Loc) (text : Str) (fs : FS) (h : fs.node l = some (.file (.data (encodeUtf8 text)))) (start stop : Int)
    (h0 : 0 ≤ start) (h1 : start < stop) (h2 : stop ≤ text.length) :
    ∃ t, textAtOffsets l start stop fs = (.ok ⟨false, false, t⟩, fs) ∧ (t.length : Int) = stop - start ∧
      ∃ before after, text = before ++ t ++ after ∧ (before.length : Int) = start := by
  have hread : readData l fs = (.ok (encodeUtf8 text), fs) := by simp [readData, readFile, h]
  obtain ⟨a, rfl⟩ := Int.eq_ofNat_of_zero_le h0
  obtain ⟨b, rfl⟩ := Int.eq_ofNat_of_zero_le (a := stop) (by omega)
  refine ⟨(text.take b).drop a, ?_, ?_, text.take a, text.drop b, ?_, ?_⟩
  · simp only [textAtOffsets, Prog.bind_apply, hread, Prog.ofRes_apply, decodeUtf8_encode, Prog.pure_apply, printOffsets, pySlice, sliceBound]
    have e1 : ¬ ((a : Int) < 0 ∨ (a : Int) ≥ text.length) := by omega
    have e2 : ¬ ((b : Int) ≤ (a : Int) ∨ (b : Int) > text.length) := by omega
    have e3 : ¬ (a : Int) < 0 := by omega
    have e4 : ¬ (b : Int) < 0 := by omega
    rw [if_neg e3, if_neg e4]
    have e5 : min (Int.toNat a) text.length = a := by omega
    have e6 : min (Int.toNat b) text.length = b := by omega
    simp only [e1, e2, decide_false, e5, e6]
  · simp only [List.length_drop, List.length_take]; omega
  · have h3 : text.take a ++ (text.take b).drop a = text.take b := by
      have : text.take a = (text.take b).take a := by rw [List.take_take]; congr 1; omega
      rw [this, List.take_append_drop]
    rw [h3, List.take_append_drop]
  · simp only [List.length_take]; omega

/-- Otherwise there is a warning, but some text is printed all the same. -/
theorem C71_out_of_bounds (l : Loc) (text : Str) (fs : FS) (h : fs.node l = some (.file (.data (encodeUtf8 text)))) (start stop : Int) :
    ∃ p, textAtOffsets l start stop fs = (.ok p, fs) ∧ (p.badStart = true ↔ ¬ (0 ≤ start ∧ start < text.length)) ∧
      (p.badEnd = true ↔ ¬ (start < stop ∧ stop ≤ text.length)) := by
  have hread : readData l fs = (.ok (encodeUtf8 text), fs) := by simp [readData, readFile, h]
  refine ⟨printOffsets text start stop, ?_, ?_, ?_⟩
  · simp only [textAtOffsets, Prog.bind_apply, hread, Prog.ofRes_apply, decodeUtf8_encode, Prog.pure_apply]
  · simp only [printOffsets, decide_eq_true_eq]; omega
  · simp only [printOffsets, decide_eq_true_eq]; omega

/-- A missing file, or one that is not UTF-8, is an error. -/
theorem C71_unreadable (l : Loc) (start stop : Int) (fs : FS) :
    ((¬ ∃ c, fs.node l = some (.file c)) → textAtOffsets l start stop fs = (.error .ioError, fs)) ∧
    (∀ b, fs.node l = some (.file (.data b)) → (¬ ∃ s, b = encodeUtf8 s) → textAtOffsets l start stop fs = (.error .valueError, fs)) := by
  constructor
  · intro h
    have hread : readData l fs = (.error .ioError, fs) := by
      unfold readData
      rw [Prog.bind_apply]
      unfold readFile
      split
      · rename_i c hc
        split at hc
        · rename_i c' hc'; exact absurd ⟨_, hc'⟩ h
        · simp at hc
      · rename_i e fs' he
        split at he
        · rename_i c' hc'; exact absurd ⟨_, hc'⟩ h
        · simpa using he.symm
    simp only [textAtOffsets, Prog.bind_apply, hread]
  · intro b hb hno
    have hread : readData l fs = (.ok b, fs) := by simp [readData, readFile, hb]
    have hd : decodeUtf8 b = .error .valueError := by
      cases hd : decodeUtf8 b with
      | ok s => exact absurd ⟨s, (encodeUtf8_of_decode hd).symm⟩ hno
      | error e =>
        unfold decodeUtf8 at hd
        split at hd
        · simp at hd
        · rw [← hd]
    simp only [textAtOffsets, Prog.bind_apply, hread, Prog.ofRes_apply, hd]

/-- Carriage returns count as characters (they are not translated): the last character of `"a\r\nb"` is at offset 3. -/
example : printOffsets "a\r\nb".toList 3 4 = ⟨false, false, ['b']⟩ := by decide +kernel
example : outputName "corpus.tgz".toList = "corpus.zip".toList := by decide +kernel
/-- Offsets that are out of bounds are reported, but text is printed: here all but the last character. -/
theorem C71_out_of_bounds_counterexample : printOffsets "abc".toList 0 (-1) = ⟨false, true, ['a', 'b']⟩ := by decide +kernel

/-! ## C80 -/

/-- Exactly the last dot and what follows it are removed. -/
theorem C80_strip_extension (a b : Str) :
    ('.' ∉ b → stripExtension (a ++ '.' :: b) = a) ∧ ('.' ∉ a → stripExtension a = a) := by
  constructor
  · intro h
    have hi : (a ++ '.' :: b).reverse.idxOf '.' = b.length := by
      simp only [List.reverse_append, List.reverse_cons, List.append_assoc, List.singleton_append]
      rw [List.idxOf_append]
      rw [if_neg (by simpa using h)]
      simp
    have hr : rfindDot (a ++ '.' :: b) = a.length := by
      rw [rfindDot, if_pos (by simp), hi]
      simp only [List.length_append, List.length_cons]; omega
    rw [stripExtension, hr, if_pos (by omega)]
    simp only [pySlice, sliceBound]
    rw [if_neg (by omega), if_neg (by omega)]
    simp
  · intro h
    rw [stripExtension, rfindDot, if_neg h, if_neg (by omega)]

/-- One level of nesting is removed: the items of the first list, then those of the rest. -/
theorem C80_flatten {α : Type} (xs : List α) (xss : List (List α)) :
    flattenOnce ([] : List (List α)) = [] ∧ flattenOnce (xs :: xss) = xs ++ flattenOnce xss := by
  simp [flattenOnce]

theorem joinComma_eq (ws : List Str) : joinComma ws = List.intercalate ", ".toList ws := by
  induction ws with
  | nil => rfl
  | cons w ws ih =>
    cases ws with
    | nil => simp [joinComma]
    | cons w' ws => simp only [joinComma, ih]; simp

/-- The text of a list of at most `limit` items is that of the list; of a longer one, the first `limit` items and the number of the
others; a negative limit is a `ValueError`. -/
theorem C80_str_list (shown rest : List Str) :
    (∀ limit : Int, shown.length ≤ limit → strListLimited shown limit = .ok ('[' :: List.intercalate ", ".toList shown ++ [']'])) ∧
    (rest ≠ [] → strListLimited (shown ++ rest) shown.length =
      .ok ('[' :: List.intercalate ", ".toList shown ++ " and ".toList ++ (toString rest.length).toList ++ " more".toList ++ [']'])) ∧
    (∀ limit : Int, limit < 0 → strListLimited shown limit = .error .valueError) := by
  rw [← joinComma_eq]
  refine ⟨fun limit h => ?_, fun h => ?_, fun limit h => by rw [strListLimited, if_pos h]⟩
  · rw [strListLimited, if_neg (by omega), if_pos h]
  · have hpos : 0 < rest.length := List.length_pos_of_ne_nil h
    rw [strListLimited, if_neg (by omega), if_neg (by simp only [List.length_append]; omega)]
    have h1 : pySlice (shown ++ rest) 0 (shown.length : Int) = shown := by
      simp only [pySlice, sliceBound]
      rw [if_neg (by omega), if_neg (by omega)]
      simp
    have h2 : (((shown ++ rest).length : Int) - (shown.length : Int)) = (rest.length : Int) := by
      simp only [List.length_append]; omega
    have h3 : toString (rest.length : Int) = toString rest.length := rfl
    rw [h1, h2, h3]

/-- A path stays as it is; a string becomes the path it stands for. -/
theorem C80_pathify (p : PyPath) (s : Str) (hp : p.Normal) : pathify (.inl p) = p ∧ pathify (.inr s) = PyPath.parse s ∧ pathify (.inr p.render) = p :=
  ⟨rfl, rfl, PyPath.parse_render hp⟩

example : stripExtension "a.b.txt".toList = "a.b".toList := by decide +kernel
example : strListLimited ["'a'".toList, "2".toList, "3".toList] 1 = .ok "['a' and 2 more]".toList := by decide +kernel

end Vista
