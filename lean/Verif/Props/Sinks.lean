import Verif.Props.DocMap
import Verif.Props.Zip

/-!
# C69: sources and sinks
-/
set_option linter.unusedSectionVars false
set_option linter.unusedSimpArgs false
namespace Vista

/-! ## Sinks in memory -/

section
variable {β : Type} [Append β]

/-- The number of buffers opened. -/
def opensIn : List (MemOp β) → Nat
  | [] => 0
  | .openBuffer :: rest => opensIn rest + 1
  | _ :: rest => opensIn rest

/-- What is written to the `i`-th buffer. -/
def writesTo (i : Nat) : List (MemOp β) → List β
  | [] => []
  | .write j x :: rest => if j = i then x :: writesTo i rest else writesTo i rest
  | _ :: rest => writesTo i rest

/-- The operation leaves a buffer. -/
def IsLeave : MemOp β → Prop
  | .leave _ => True
  | _ => False

/-- The operation leaves or closes the `i`-th buffer. -/
def Ends (i : Nat) : MemOp β → Prop
  | .leave j => j = i
  | .close j => j = i
  | _ => False

theorem run_append (e : β) (s : MemSink β) (xs ys : List (MemOp β)) : s.run e (xs ++ ys) = (s.run e xs).run e ys := by
  simp [MemSink.run, List.foldl_append]

theorem run_cons (e : β) (s : MemSink β) (x : MemOp β) (ys : List (MemOp β)) : s.run e (x :: ys) = (s.step e x).1.run e ys := rfl

theorem step_length (e : β) (s : MemSink β) (op : MemOp β) : (s.step e op).1.buffers.length = s.buffers.length + opensIn [op] := by
  cases op with
  | openBuffer => simp [MemSink.step, opensIn]
  | write i x => simp only [MemSink.step, opensIn]; split <;> [split; skip] <;> simp
  | leave i => simp only [MemSink.step, opensIn]; split <;> [split; skip] <;> simp
  | close i => simp only [MemSink.step, opensIn]; split <;> simp

theorem run_length (e : β) (s : MemSink β) (ops : List (MemOp β)) : (s.run e ops).buffers.length = s.buffers.length + opensIn ops := by
  induction ops generalizing s with
  | nil => simp [MemSink.run, opensIn]
  | cons op ops ih =>
    rw [run_cons, ih, step_length]
    cases op <;> simp [opensIn] <;> omega

theorem step_last (e : β) (s : MemSink β) (op : MemOp β) (h : ¬ IsLeave op) : (s.step e op).1.last = s.last := by
  cases op with
  | openBuffer => rfl
  | write i x => simp only [MemSink.step]; split <;> [split; skip] <;> rfl
  | leave i => exact absurd trivial h
  | close i => simp only [MemSink.step]; split <;> rfl

theorem run_last (e : β) (s : MemSink β) (ops : List (MemOp β)) (h : ∀ op ∈ ops, ¬ IsLeave op) : (s.run e ops).last = s.last := by
  induction ops generalizing s with
  | nil => rfl
  | cons op ops ih => rw [run_cons, ih _ fun o ho => h o (by simp [ho]), step_last e s op (h op (by simp))]

/-- A buffer that is not left or closed stays open, and gains what is written to it. -/
theorem run_buffer (e : β) (i : Nat) (ops : List (MemOp β)) (h : ∀ op ∈ ops, ¬ Ends i op) (s : MemSink β) (c : β)
    (hb : s.buffers[i]? = some ⟨c, true⟩) : (s.run e ops).buffers[i]? = some ⟨(writesTo i ops).foldl (· ++ ·) c, true⟩ := by
  induction ops generalizing s c with
  | nil => simpa [MemSink.run, writesTo] using hb
  | cons op ops ih =>
    have hlen : i < s.buffers.length := by
      obtain ⟨h', -⟩ := List.getElem?_eq_some_iff.1 hb; exact h'
    have hrest : ∀ o ∈ ops, ¬ Ends i o := fun o ho => h o (by simp [ho])
    have hop := h op (by simp)
    rw [run_cons]
    cases op with
    | openBuffer =>
      refine ih hrest _ c ?_
      simp only [MemSink.step]
      rw [List.getElem?_append_left hlen, hb]
    | write j x =>
      simp only [writesTo]
      by_cases hj : j = i
      · subst hj
        rw [if_pos rfl, List.foldl_cons]
        refine ih hrest _ _ ?_
        simp only [MemSink.step, hb, if_true]
        rw [List.getElem?_set_self hlen]
      · rw [if_neg hj]
        refine ih hrest _ c ?_
        simp only [MemSink.step]
        split <;> [split; skip]
        · rw [List.getElem?_set_ne hj, hb]
        · exact hb
        · exact hb
    | leave j =>
      have hj : j ≠ i := hop
      refine ih hrest _ c ?_
      simp only [MemSink.step]
      split <;> [split; skip]
      · simp only []; rw [List.getElem?_set_ne hj, hb]
      · exact hb
      · exact hb
    | close j =>
      have hj : j ≠ i := hop
      refine ih hrest _ c ?_
      simp only [MemSink.step]
      split
      · rw [List.getElem?_set_ne hj, hb]
      · exact hb

/-- Before anything has been left, there is no last string (or bytes); after a buffer was left it is what had been written to that
buffer, in order, and nothing else: whatever happens to other buffers before and after, until one is left again. -/
theorem C69_memory (empty : β) :
    (∀ ops : List (MemOp β), (∀ op ∈ ops, ¬ IsLeave op) → (MemSink.new.run empty ops).last = none) ∧
    ∀ (before between after : List (MemOp β)) (i : Nat), i = opensIn before → (∀ op ∈ between, ¬ Ends i op) → (∀ op ∈ after, ¬ IsLeave op) →
      ((MemSink.new.run empty (before ++ .openBuffer :: between)).step empty (.leave i)).2 = .ok () ∧
      (MemSink.new.run empty (before ++ .openBuffer :: between ++ .leave i :: after)).last =
        some ((writesTo i between).foldl (· ++ ·) empty) := by
  refine ⟨fun ops h => by rw [run_last _ _ _ h]; rfl, fun before between after i hi hb ha => ?_⟩
  have h0 : ((MemSink.new.run empty before).step empty .openBuffer).1.buffers[i]? = some ⟨empty, true⟩ := by
    have hl := run_length empty (MemSink.new (β := β)) before
    simp only [MemSink.new, List.length_nil, Nat.zero_add] at hl
    simp only [MemSink.step]
    rw [hi, ← hl]
    simp [MemSink.new]
  have h1 : (MemSink.new.run empty (before ++ .openBuffer :: between)).buffers[i]? = some ⟨(writesTo i between).foldl (· ++ ·) empty, true⟩ := by
    rw [run_append, run_cons]
    exact run_buffer empty i between hb _ _ h0
  constructor
  · simp [MemSink.step, h1]
  · rw [run_append, run_cons, run_last _ _ _ ha]
    simp [MemSink.step, h1]

/-- `write(x)`, on a sink with any history: the last string is `x`. -/
theorem C69_memory_write (empty : β) (hempty : ∀ x : β, empty ++ x = x) (s : MemSink β) (x : β) :
    (s.run empty [.openBuffer, .write s.buffers.length x, .leave s.buffers.length]).last = some x := by
  simp [MemSink.run, MemSink.step, hempty]

/-- Writing to or leaving a buffer that has been closed raises `ValueError` and changes nothing. -/
theorem C69_memory_closed (empty : β) (s : MemSink β) (i : Nat) (c : β) (h : s.buffers[i]? = some ⟨c, false⟩) (x : β) :
    s.step empty (.write i x) = (s, .error .valueError) ∧ s.step empty (.leave i) = (s, .error .valueError) := by
  simp [MemSink.step, h]

/-- Leaving a buffer closes it. -/
theorem C69_memory_leave (empty : β) (s : MemSink β) (i : Nat) (c : β) (h : s.buffers[i]? = some ⟨c, true⟩) :
    (s.step empty (.leave i)).1.buffers[i]? = some ⟨c, false⟩ ∧ (s.step empty (.close i)).1.buffers[i]? = some ⟨c, false⟩ := by
  obtain ⟨hlen, -⟩ := List.getElem?_eq_some_iff.1 h
  simp [MemSink.step, h, List.getElem?_set_self hlen]

end

/-- For strings, what was written is the concatenation. -/
theorem C69_string_sink (before between after : List (MemOp Str)) (i : Nat) (hi : i = opensIn before) (hb : ∀ op ∈ between, ¬ Ends i op)
    (ha : ∀ op ∈ after, ¬ IsLeave op) :
    (MemSink.new.run [] (before ++ .openBuffer :: between ++ .leave i :: after)).last = some (writesTo i between).flatten := by
  rw [((C69_memory ([] : Str)).2 before between after i hi hb ha).2]
  have : ∀ (l : List Str) (a : Str), l.foldl (· ++ ·) a = a ++ l.flatten := by
    intro l
    induction l with
    | nil => simp
    | cons x l ih => intro a; rw [List.foldl_cons, ih]; simp
  rw [this]; rfl

/-! ## Sources -/

theorem rstripNewline_no {l : Str} (h : '\n' ∉ l) : rstripNewline l = l := by
  unfold rstripNewline
  rw [dropWhile_eq_self_of_head, List.reverse_reverse]
  intro c hc
  have : c ∈ l := List.mem_reverse.1 (List.mem_of_mem_head? hc)
  simp only [beq_eq_false_iff_ne, ne_eq]
  rintro rfl; exact h this

theorem rstripNewline_one {l : Str} (h : '\n' ∉ l) : rstripNewline (l ++ ['\n']) = l := by
  have := rstripNewline_no h
  unfold rstripNewline at this ⊢
  rw [List.reverse_append, List.reverse_singleton, List.singleton_append, List.dropWhile_cons]
  simpa using this

theorem unended_lines {s : Str} {ls : List Str} (h : IsLines s ls) : List.Forall₂ Unended ls (ls.map rstripNewline) := by
  induction h with
  | none => exact .nil
  | unended h _ => exact .cons (by rw [rstripNewline_no h]; exact ⟨h, .inl rfl⟩) .nil
  | line h _ ih => exact .cons (by rw [rstripNewline_one h]; exact ⟨h, .inr rfl⟩) ih

theorem unended_unique {l r r' : Str} (h : Unended l r) (h' : Unended l r') : r = r' := by
  rcases h with ⟨h1, rfl | rfl⟩ <;> rcases h' with ⟨h1', h | h⟩
  · exact h
  · exact absurd (h ▸ (by simp : '\n' ∈ r' ++ ['\n'])) h1
  · exact absurd (h ▸ (by simp : '\n' ∈ r ++ ['\n'])) h1'
  · simpa using h

/-- What `read_all`, `readlines` and `is_empty` give for a source with this text: the text; its lines, without their line feeds; and
whether it is empty. -/
theorem C69_source (src : TextSource) (s : Str) (fs : FS) (h : src fs = (.ok s, fs)) :
    readAll src fs = (.ok s, fs) ∧
    (∀ ls rs, IsLines s ls → List.Forall₂ Unended ls rs → readlines src fs = (.ok rs, fs)) ∧
    isEmptySource src fs = (.ok (decide (s = [])), fs) := by
  refine ⟨h, fun ls rs h1 h2 => ?_, ?_⟩
  · have hrs : rs = ls.map rstripNewline := by
      have h3 := unended_lines h1
      clear h1
      generalize ls.map rstripNewline = ts at h3
      induction h2 generalizing ts with
      | nil => cases h3; rfl
      | cons a _ ih =>
        cases h3 with
        | cons b h3 => rw [unended_unique a b, ih _ h3]
    rw [isLines_iff] at h1
    simp [readlines, h, h1, hrs]
  · simp only [isEmptySource, Prog.bind_apply, h, Prog.pure_apply]
    cases s <;> simp

/-- Every text has lines, so `readlines` succeeds. -/
theorem C69_lines_exist (s : Str) : ∃ ls rs, IsLines s ls ∧ List.Forall₂ Unended ls rs :=
  ⟨_, _, isLines_textLines s, unended_lines (isLines_textLines s)⟩

/-- A string source has exactly its string, an empty source nothing; if reading fails, so do the three functions. -/
theorem C69_string_source (s : Str) (fs : FS) (src : TextSource) (e : Exc) :
    stringSource s fs = (.ok s, fs) ∧ nowhereSource fs = (.ok [], fs) ∧
    (src fs = (.error e, fs) → readAll src fs = (.error e, fs) ∧ readlines src fs = (.error e, fs) ∧ isEmptySource src fs = (.error e, fs)) := by
  refine ⟨rfl, rfl, fun h => ⟨h, ?_, ?_⟩⟩ <;> simp [readlines, isEmptySource, h]

theorem encodeUtf8_of_decode {b : Bytes} {s : Str} (h : decodeUtf8 b = .ok s) : encodeUtf8 s = b := by
  unfold decodeUtf8 at h
  split at h
  · rename_i a ha
    simp only [Except.ok.injEq] at h
    subst h
    have : b.utf8Decode?.isSome = true := by rw [ha]; rfl
    have key := ByteArray.utf8Encode_get_utf8Decode? (b := b) (h := this)
    simp only [ha, Option.get_some] at key
    unfold encodeUtf8
    simpa using key
  · simp at h

theorem translatedText_spec (b : Bytes) :
    (∀ s, b = encodeUtf8 s → translatedText b = .ok (universalNewlines s)) ∧
    ((¬ ∃ s, b = encodeUtf8 s) → translatedText b = .error .valueError) := by
  constructor
  · rintro s rfl; simp [translatedText, bind, Except.bind, decodeUtf8_encode]
  · intro h
    have : decodeUtf8 b = .error .valueError := by
      cases hd : decodeUtf8 b with
      | ok s => exact absurd ⟨s, (encodeUtf8_of_decode hd).symm⟩ h
      | error e =>
        unfold decodeUtf8 at hd
        split at hd
        · simp at hd
        · simpa using hd.symm
    simp [translatedText, bind, Except.bind, this]

/-- A file source (also through bytes, a zip entry or a compressed file): if the bytes are the UTF-8 encoding of a text, that text with
`\r\n` and `\r` turned into `\n`; otherwise `UnicodeDecodeError` (a `ValueError`).  A file is empty exactly if its text is.  From a
`.tar.gz` archive, the text as it is. -/
theorem C69_file_source (l : Loc) (b : Bytes) (fs : FS) (h : fs.node l = some (.file (.data b))) :
    (∀ s, b = encodeUtf8 s → fileSource l fs = (.ok (universalNewlines s), fs) ∧ isEmptyFile l fs = (.ok (decide (s = [])), fs) ∧
      wrappingSource (readData l) fs = (.ok (universalNewlines s), fs) ∧
      tgzSource (do let d ← readData l; Prog.pure (some d)) fs = (.ok s, fs)) ∧
    ((¬ ∃ s, b = encodeUtf8 s) → fileSource l fs = (.error .valueError, fs)) ∧
    (∀ gunzip s, gunzip b = .ok (encodeUtf8 s) → gzipSource gunzip l fs = (.ok (universalNewlines s), fs)) := by
  have hread : readData l fs = (.ok b, fs) := by simp [readData, readFile, h]
  obtain ⟨h1, h2⟩ := translatedText_spec b
  refine ⟨fun s hs => ⟨?_, ?_, ?_, ?_⟩, fun hno => ?_, fun gunzip s hg => ?_⟩
  · simp only [fileSource, Prog.bind_apply, hread, Prog.ofRes_apply, h1 s hs]
  · simp only [isEmptyFile, Prog.bind_apply, hread, Prog.pure_apply, hs]
    have := Zip.encodeUtf8_size s
    by_cases he : s = []
    · have : (encodeUtf8 s).size = 0 := this.2 he
      rw [this, he]; rfl
    · have : (encodeUtf8 s).size ≠ 0 := fun h' => he (this.1 h')
      simp [he, this]
  · simp only [wrappingSource, Prog.bind_apply, hread, Prog.ofRes_apply, h1 s hs]
  · simp only [tgzSource, Prog.bind_apply, hread, Prog.pure_apply, Prog.ofRes_apply, hs, decodeUtf8_encode]
  · simp only [fileSource, Prog.bind_apply, hread, Prog.ofRes_apply, h2 hno]
  · simp only [gzipSource, Prog.bind_apply, hread, Prog.ofRes_apply, hg, (translatedText_spec _).1 s rfl]

/-- A text in a tar archive: a member that is not a file raises `OSError`, a missing member what the standard library raises. -/
theorem C69_tgz (extract : Prog (Option Bytes)) (fs : FS) :
    (∀ s, extract fs = (.ok (some (encodeUtf8 s)), fs) → tgzSource extract fs = (.ok s, fs)) ∧
    (extract fs = (.ok none, fs) → tgzSource extract fs = (.error .ioError, fs)) ∧
    ∀ e, extract fs = (.error e, fs) → tgzSource extract fs = (.error e, fs) := by
  refine ⟨fun s h => ?_, fun h => ?_, fun e h => ?_⟩
  · simp only [tgzSource, Prog.bind_apply, h, Prog.ofRes_apply, decodeUtf8_encode]
  · simp only [tgzSource, Prog.bind_apply, h, Prog.raise_apply]
  · simp only [tgzSource, Prog.bind_apply, h]

/-- `is_empty` of a compressed file and of a file in a tar archive agree with what reading gives, if decompressing one byte gives the
first byte, and if the archive states the size of the member. -/
theorem C69_is_empty (l : Loc) (b : Bytes) (fs : FS) (h : fs.node l = some (.file (.data b))) :
    (∀ gunzip gunzipFirst s, gunzip b = .ok (encodeUtf8 s) → gunzipFirst b = .ok ((encodeUtf8 s).extract 0 1) →
      ∃ t, gzipSource gunzip l fs = (.ok t, fs) ∧ isEmptyGzip gunzipFirst l fs = (.ok (decide (t = [])), fs)) ∧
    (∀ extract size s, extract fs = (.ok (some (encodeUtf8 s)), fs) → size fs = (.ok (encodeUtf8 s).size, fs) →
      tgzSource extract fs = (.ok s, fs) ∧ isEmptyTgz size fs = (.ok (decide (s = [])), fs)) := by
  have hread : readData l fs = (.ok b, fs) := by simp [readData, readFile, h]
  refine ⟨fun gunzip gf s hg hf => ⟨universalNewlines s, ?_, ?_⟩, fun extract size s he hs => ⟨(C69_tgz extract fs).1 s he, ?_⟩⟩
  · exact (C69_file_source l b fs h).2.2 gunzip s hg
  · have hz := Zip.encodeUtf8_size s
    have hu : universalNewlines s = [] ↔ s = [] := by
      constructor
      · intro hn
        cases s with
        | nil => rfl
        | cons c s =>
          exfalso
          revert hn
          unfold universalNewlines
          split
          · rename_i hh; exact absurd hh (by simp)
          · simp
          · simp
      · rintro rfl; rfl
    simp only [isEmptyGzip, Prog.bind_apply, hread, Prog.ofRes_apply, hf, Prog.pure_apply, Prod.mk.injEq, Except.ok.injEq, and_true]
    rw [Bool.eq_iff_iff]
    simp only [beq_iff_eq, decide_eq_true_eq, hu, ← hz, ByteArray.size_extract]
    omega
  · have hz := Zip.encodeUtf8_size s
    simp only [isEmptyTgz, Prog.bind_apply, hs, Prog.pure_apply, Prod.mk.injEq, Except.ok.injEq, and_true]
    rw [Bool.eq_iff_iff]
    simp only [beq_iff_eq, decide_eq_true_eq, hz]

/-- A member that is not a file, such as a directory, is stated to have size 0: `is_empty` says so, although it cannot be read. -/
theorem C69_tgz_directory_counterexample : ∃ (extract : Prog (Option Bytes)) (size : Prog Nat) (fs : FS),
    isEmptyTgz size fs = (.ok true, fs) ∧ readAll (tgzSource extract) fs = (.error .ioError, fs) :=
  ⟨Prog.pure none, Prog.pure 0, [], rfl, rfl⟩

theorem readEntry_absent (a : Zip.Archive) (n : Str) (h : n ∉ a.map (·.1)) : Zip.readEntry a n = .error .keyError := by
  induction a with
  | nil => rfl
  | cons x a ih =>
    simp only [List.map_cons, List.mem_cons, not_or] at h
    simp only [Zip.readEntry, ih h.2, Ne.symm h.1, if_false]

/-- A text in a zip archive, given as a path or already open: the text of the last entry of that name, with line ends translated for
text; `KeyError` if there is none; and an archive that has been closed cannot be read any more. -/
theorem C69_zip_source (l : Loc) (a : Zip.Archive) (name : Str) (fs : FS) (h : fs.node l = some (.file (.zip a))) :
    (∀ before b after, a = before ++ (name, b) :: after → name ∉ after.map (·.1) → zipEntrySource l name fs = (.ok b, fs) ∧ openZipSource a true name fs = (.ok b, fs) ∧
      (∀ s, b = encodeUtf8 s → zipTextSource l name fs = (.ok (universalNewlines s), fs)) ∧
      ((¬ ∃ s, b = encodeUtf8 s) → zipTextSource l name fs = (.error .valueError, fs))) ∧
    (name ∉ a.map (·.1) → zipEntrySource l name fs = (.error .keyError, fs) ∧
      openZipSource a true name fs = (.error .keyError, fs) ∧ zipTextSource l name fs = (.error .keyError, fs)) ∧
    openZipSource a false name fs = (.error .valueError, fs) := by
  refine ⟨fun before b after ha hn => ?_, fun hn => ?_, rfl⟩
  · have hb : Zip.readEntry a name = .ok b := by
      rw [ha]
      clear ha
      induction before with
      | nil => simp [Zip.readEntry, readEntry_absent _ _ hn]
      | cons x before ih => simp only [List.cons_append, Zip.readEntry, ih]
    have hz : zipEntrySource l name fs = (.ok b, fs) := by simp [zipEntrySource, readFile, h, hb]
    refine ⟨hz, by simp [openZipSource, hb], fun s hs => ?_, fun hno => ?_⟩
    · simp only [zipTextSource, wrappingSource, Prog.bind_apply, hz, Prog.ofRes_apply, (translatedText_spec b).1 s hs]
    · simp only [zipTextSource, wrappingSource, Prog.bind_apply, hz, Prog.ofRes_apply, (translatedText_spec b).2 hno]
  · have he := readEntry_absent _ _ hn
    have hz : zipEntrySource l name fs = (.error .keyError, fs) := by simp [zipEntrySource, readFile, h, he]
    refine ⟨hz, by simp [openZipSource, he], ?_⟩
    simp only [zipTextSource, wrappingSource, Prog.bind_apply, hz]

/-- The translation is the identity exactly for texts without carriage return, and its result has none. -/
theorem C69_newlines (s : Str) : (universalNewlines s = s ↔ '\r' ∉ s) ∧ '\r' ∉ universalNewlines s :=
  ⟨⟨fun h => h ▸ no_cr_universalNewlines s, universalNewlines_of_no_cr⟩, no_cr_universalNewlines s⟩

theorem newlines_crlf (a b : Str) (h : '\r' ∉ a) :
    universalNewlines (a ++ '\r' :: '\n' :: b) = a ++ '\n' :: universalNewlines b ∧
    (b.head? ≠ some '\n' → universalNewlines (a ++ '\r' :: b) = a ++ '\n' :: universalNewlines b) := by
  induction a with
  | nil =>
    refine ⟨by simp [universalNewlines], fun hb => ?_⟩
    cases b with
    | nil => simp [universalNewlines]
    | cons c b =>
      have : c ≠ '\n' := by simpa using hb
      simp only [List.nil_append]
      rw [universalNewlines]
      · simp
      · intro r _ hr
        simp only [List.cons.injEq] at hr
        exact this hr.1
  | cons c a ih =>
    simp only [List.mem_cons, not_or] at h
    obtain ⟨i1, i2⟩ := ih h.2
    have hc : c ≠ '\r' := fun h' => h.1 h'.symm
    constructor
    · rw [List.cons_append, universalNewlines]
      · rw [i1]; simp [hc]
      · rintro _ rfl; exact absurd rfl hc
    · intro hb
      rw [List.cons_append, universalNewlines]
      · rw [i2 hb]; simp [hc]
      · rintro _ rfl; exact absurd rfl hc

/-- What the translation does: each `\r\n`, and each `\r` not followed by `\n`, becomes `\n`; nothing else changes. -/
theorem C69_newlines_rule (a b : Str) (h : '\r' ∉ a) :
    universalNewlines (a ++ '\r' :: '\n' :: b) = a ++ '\n' :: universalNewlines b ∧
    (b.head? ≠ some '\n' → universalNewlines (a ++ '\r' :: b) = a ++ '\n' :: universalNewlines b) := newlines_crlf a b h

/-! ## Sinks to files -/

section
variable {cwd P : PyPath}

/-- Writing a file: unless a file is in the way of its directory, or it is a directory itself, the directories above it are created,
the file has exactly the content, and nothing else changes; otherwise `OSError` without any change. -/
theorem C69_file_sink (fs : FS) (h : fs.Tree) (k : Str) (hk : k ≠ ['.', '.']) (b : Bytes) :
    (¬ fs.Blocked (PyPath.resolve cwd P) → fs.node (PyPath.resolve cwd P ++ [k]) ≠ some .dir →
      ∃ fs', writeBytesTo cwd ⟨P.root, P.parts ++ [k]⟩ b fs = (.ok (), fs') ∧ fs'.Tree ∧
        fs'.node (PyPath.resolve cwd P ++ [k]) = some (.file (.data b)) ∧ (∀ q, q <+: PyPath.resolve cwd P → fs'.node q = some .dir) ∧
        ∀ q, ¬ q <+: PyPath.resolve cwd P ++ [k] → fs'.node q = fs.node q) ∧
    (fs.Blocked (PyPath.resolve cwd P) ∨ fs.node (PyPath.resolve cwd P ++ [k]) = some .dir →
      ∃ fs', writeBytesTo cwd ⟨P.root, P.parts ++ [k]⟩ b fs = (.error .ioError, fs') ∧ ∀ q, fs'.node q = fs.node q) := by
  have hpre : ¬ PyPath.resolve cwd P ++ [k] <+: PyPath.resolve cwd P := by
    intro h'; have := h'.length_le; simp at this; omega
  constructor
  · intro hb hd
    obtain ⟨fs1, a1, a2, a3⟩ := (mkdirs_spec h (PyPath.resolve cwd P)).1 hb
    obtain ⟨fs2, b1, b2, b3⟩ := (writeFile_spec a3 (PyPath.resolve cwd P ++ [k]) (.data b)).1 (by simp)
      (by rw [List.dropLast_concat, a2.1 _ (List.prefix_refl _)]) (by rw [a2.2 _ hpre]; exact hd)
    refine ⟨fs2, by simp [writeBytesTo, parent_snoc, a1, resolve_snoc k hk, b1], b3, b2.1, fun q hq => ?_, fun q hq => ?_⟩
    · rw [b2.2 q (fun h' => hpre (h' ▸ hq)), a2.1 q hq]
    · rw [b2.2 q (fun h' => hq (h' ▸ List.prefix_refl _)), a2.2 q fun h' => hq (h'.trans (List.prefix_append _ _))]
  · intro hor
    by_cases hb : fs.Blocked (PyPath.resolve cwd P)
    · exact ⟨fs, by simp [writeBytesTo, parent_snoc, (mkdirs_spec h _).2 hb], fun q => rfl⟩
    · have hd := hor.resolve_left hb
      have hpar : fs.node (PyPath.resolve cwd P) = some .dir := h.parents _ k (by rw [hd]; simp)
      obtain ⟨fs1, a1, a2, a3⟩ := mkdirs_existing h hpar
      refine ⟨fs1, ?_, a2⟩
      have := (writeFile_spec a3 (PyPath.resolve cwd P ++ [k]) (.data b)).2 (fun h' => h'.2.2 (by rw [a2]; exact hd))
      simp [writeBytesTo, parent_snoc, a1, resolve_snoc k hk, this]

/-- Text written to a file and read from it: with its line ends translated, so exactly if it has no carriage return. -/
theorem C69_file_roundtrip (fs : FS) (h : fs.Tree) (k : Str) (hk : k ≠ ['.', '.']) (s : Str) (hb : ¬ fs.Blocked (PyPath.resolve cwd P))
    (hd : fs.node (PyPath.resolve cwd P ++ [k]) ≠ some .dir) :
    ∃ fs', writeTextTo cwd ⟨P.root, P.parts ++ [k]⟩ s fs = (.ok (), fs') ∧
      fileSource (PyPath.resolve cwd ⟨P.root, P.parts ++ [k]⟩) fs' = (.ok (universalNewlines s), fs') := by
  obtain ⟨fs', h1, -, h2, -⟩ := (C69_file_sink (cwd := cwd) (P := P) fs h k hk (encodeUtf8 s)).1 hb hd
  refine ⟨fs', h1, ?_⟩
  rw [resolve_snoc k hk]
  exact ((C69_file_source _ _ fs' h2).1 s rfl).1

end

/-- Writing an entry of a zip file (which is created if need be) and reading it: exactly the bytes; other entries stay as they were. -/
theorem C69_zip_entry (fs : FS) (h : fs.Tree) (l : Loc) (hl : l ≠ []) (hpar : fs.node l.dropLast = some .dir) (name : Str) (hn : '\x00' ∉ name)
    (b : Bytes) (hat : fs.node l = none ∨ ∃ a, fs.node l = some (.file (.zip a))) :
    ∃ fs', writeZipEntry l name b fs = (.ok (), fs') ∧ fs'.Tree ∧ (∀ q, q ≠ l → fs'.node q = fs.node q) ∧
      zipEntrySource l name fs' = (.ok b, fs') ∧
      ∀ other, other ≠ name → (zipEntrySource l other fs').1 =
        if fs.node l = none then .error .keyError else (zipEntrySource l other fs).1 := by
  rcases hat with hat | ⟨a, hat⟩
  · obtain ⟨fs', b1, b2, b3⟩ := (writeFile_spec h l (.zip (Zip.writestr [] name b))).1 hl hpar (by rw [hat]; simp)
    refine ⟨fs', by simp [writeZipEntry, hat, b1], b3, b2.2, ?_, fun other ho => ?_⟩
    · simp [zipEntrySource, readFile, b2.1, Zip.readEntry_writestr _ _ hn]
    · simp [zipEntrySource, readFile, b2.1, Zip.readEntry_writestr _ _ hn, ho.symm, hat, Zip.readEntry]
  · obtain ⟨fs', b1, b2, b3⟩ := (writeFile_spec h l (.zip (Zip.writestr a name b))).1 hl hpar (by rw [hat]; simp)
    refine ⟨fs', by simp [writeZipEntry, hat, b1], b3, b2.2, ?_, fun other ho => ?_⟩
    · simp [zipEntrySource, readFile, b2.1, Zip.readEntry_writestr _ _ hn]
    · simp [zipEntrySource, readFile, b2.1, Zip.readEntry_writestr _ _ hn, ho.symm, hat]

/-! ## `file_lines_to_set` -/

theorem firstOccurrences_distinct (xs : List Str) : FirstOccurrences xs (distinct xs) := by
  refine ⟨Zip.distinct_nodup xs, Zip.distinct_mem xs, ?_⟩
  induction xs with
  | nil => simp [distinct]
  | cons x xs ih =>
    rw [distinct]
    refine List.Pairwise.cons ?_ ?_
    · intro y hy
      have hyx : y ≠ x := by simpa using (List.mem_filter.1 hy).2
      simp [List.idxOf_cons, hyx.symm]
    · refine List.Pairwise.imp_of_mem (fun {a b} ha hb hab => ?_) (ih.filter _)
      have ha' : a ≠ x := by simpa using (List.mem_filter.1 ha).2
      have hb' : b ≠ x := by simpa using (List.mem_filter.1 hb).2
      simp [List.idxOf_cons, ha'.symm, hb'.symm, hab]

theorem splitOn_lines {s : Str} {ls : List Str} (h : IsLines s ls) :
    (splitOn '\n' s).filter (fun l => decide (l ≠ [])) = (ls.map rstripNewline).filter fun l => decide (l ≠ []) := by
  induction h with
  | none => simp [splitOn]
  | @unended l hn hne =>
    rw [splitOn_of_not_mem hn]
    simp [rstripNewline_no hn]
  | @line l s ls hn _ ih =>
    rw [splitOn_append_sep, splitOn_of_not_mem hn, List.singleton_append, List.map_cons, List.filter_cons, List.filter_cons, ih, rstripNewline_one hn]

/-- `file_lines_to_set`: the lines that are not blank, each once, in the order of their first occurrence. -/
theorem C69_file_lines (l : Loc) (s : Str) (fs : FS) (h : fs.node l = some (.file (.data (encodeUtf8 s)))) (ls rs : List Str)
    (h1 : IsLines (universalNewlines s) ls) (h2 : List.Forall₂ Unended ls rs) :
    ∃ r, fileLinesToSet l fs = (.ok r, fs) ∧ FirstOccurrences (rs.filter fun r => decide (r ≠ [])) r := by
  have hrs : rs = ls.map rstripNewline := by
    have h3 := unended_lines h1
    clear h1
    generalize ls.map rstripNewline = ts at h3
    induction h2 generalizing ts with
    | nil => cases h3; rfl
    | cons a _ ih =>
      cases h3 with
      | cons b h3 => rw [unended_unique a b, ih _ h3]
  refine ⟨distinct ((splitOn '\n' (universalNewlines s)).filter fun line => decide (line ≠ [])), ?_, ?_⟩
  · simp only [fileLinesToSet, Prog.bind_apply, ((C69_file_source _ _ fs h).1 s rfl).1, Prog.pure_apply]
  · rw [splitOn_lines h1, hrs]
    exact firstOccurrences_distinct _

/-! ## Examples and counterexamples -/

-- two buffers open at the same time; the one left last counts
example : (MemSink.new.run [] [.openBuffer, .write 0 "a".toList, .openBuffer, .write 1 "b".toList, .write 0 "c".toList, .leave 1,
    .write 0 "d".toList, .leave 0, .openBuffer, .write 2 "e".toList] : MemSink Str).last = some "acd".toList := by decide +kernel
/-- The hypotheses of `C69_string_sink` hold of that history. -/
example : (∀ op ∈ ([.write 0 "a".toList, .openBuffer, .write 1 "b".toList, .write 0 "c".toList, .leave 1, .write 0 "d".toList] : List (MemOp Str)),
    ¬ Ends 0 op) ∧ ∀ op ∈ ([.openBuffer, .write 2 "e".toList] : List (MemOp Str)), ¬ IsLeave op := by
  constructor <;> simp [Ends, IsLeave]
-- closing without leaving does not count
example : (MemSink.new.run [] [.openBuffer, .write 0 "a".toList, .close 0] : MemSink Str).last = none := by decide +kernel
example : IsLines "a\n\nb".toList ["a\n".toList, "\n".toList, "b".toList] := by rw [isLines_iff]; decide +kernel
example : textLines "a\n\nb".toList = ["a\n".toList, "\n".toList, "b".toList] := by decide +kernel
example : universalNewlines "a\r\nb\rc\n".toList = "a\nb\nc\n".toList := by decide +kernel
example : distinct ["b".toList, "a".toList, "b".toList] = ["b".toList, "a".toList] := by decide +kernel
/-- The hypotheses of `C69_file_sink` hold for a file below a directory that is yet to be made. -/
example : ¬ DocMapExample.fs.Blocked (PyPath.resolve DocMapExample.home ⟨[], ["x".toList]⟩) := by
  rintro ⟨q, c, hq, hc⟩
  have hmem := (FS.node_ne_none_iff DocMapExample.fs q).1 (by rw [hc]; simp)
  rcases hmem with rfl | hmem
  · simp at hc
  · simp only [DocMapExample.fs, List.map_cons, List.map_nil, List.mem_cons, List.not_mem_nil, or_false] at hmem
    have hd : DocMapExample.fs.isDir q = true := by rcases hmem with rfl | rfl <;> decide +kernel
    rw [(FS.isDir_iff _ _).1 hd] at hc
    simp at hc

/-- The hypotheses of `C69_zip_source` hold of an archive in which the name occurs twice: the later entry counts. -/
example : (zipEntrySource [['z']] ['n'] [([['z']], .file (.zip [(['n'], encodeUtf8 ['1']), (['m'], encodeUtf8 ['2']), (['n'], encodeUtf8 ['3'])]))]).1 =
    .ok (encodeUtf8 ['3']) := by
  have h := ((C69_zip_source [['z']] [(['n'], encodeUtf8 ['1']), (['m'], encodeUtf8 ['2']), (['n'], encodeUtf8 ['3'])] ['n']
    [([['z']], .file (.zip [(['n'], encodeUtf8 ['1']), (['m'], encodeUtf8 ['2']), (['n'], encodeUtf8 ['3'])]))] rfl).1
    [(['n'], encodeUtf8 ['1']), (['m'], encodeUtf8 ['2'])] (encodeUtf8 ['3']) [] rfl (by simp)).1
  rw [h]

/-- `readlines` removes the line ends, although its documentation says that it does not. -/
theorem C69_readlines_counterexample (fs : FS) :
    readlines (stringSource "a\n".toList) fs = (.ok ["a".toList], fs) ∧ readlines (stringSource "a\n".toList) fs ≠ (.ok ["a\n".toList], fs) := by
  have h : readlines (stringSource "a\n".toList) fs = (.ok ["a".toList], fs) := rfl
  refine ⟨h, ?_⟩
  rw [h]
  intro h'
  simp only [Prod.mk.injEq, Except.ok.injEq, and_true] at h'
  exact absurd h' (by decide +kernel)

end Vista
