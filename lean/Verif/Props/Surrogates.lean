import Verif.Spec.Surrogates
import Verif.Props.SinkBlocks
import Verif.Props.DirKeys
import Verif.Props.ZipLife

/-!
# C111: text that UTF-8 cannot encode
-/
set_option linter.unusedSectionVars false
set_option linter.unusedSimpArgs false
namespace Vista
namespace Surrogates
open DirKeys
variable {cwd P : PyPath}

theorem toStr_map (s : Str) : toStr (s.map UChar.char) = some s := by
  induction s with
  | nil => rfl
  | cons c s ih => simp [toStr, ih]

theorem toStr_some {t : UText} {s : Str} : toStr t = some s ↔ IsStr t s := by
  unfold IsStr
  constructor
  · induction t generalizing s with
    | nil => intro h; simp only [toStr, Option.some.injEq] at h; subst h; rfl
    | cons c t ih =>
      cases c with
      | surrogate n => intro h; simp [toStr] at h
      | char c =>
        intro h
        simp only [toStr, Option.map_eq_some_iff] at h
        obtain ⟨s', h', rfl⟩ := h
        rw [ih h']; rfl
  · rintro rfl; exact toStr_map s

theorem toStr_none {t : UText} : toStr t = none ↔ Lone t := by
  unfold Lone
  induction t with
  | nil => simp [toStr]
  | cons c t ih =>
    cases c with
    | surrogate n => simp only [toStr, true_iff]; exact ⟨n, by simp⟩
    | char c => simp [toStr, Option.map_eq_none_iff, ih]

theorem not_lone_map (s : Str) : ¬ Lone (s.map UChar.char) := by
  rintro ⟨n, hn⟩; simp at hn

theorem str_or_lone (t : UText) : (∃ s : Str, t = s.map UChar.char) ∨ Lone t := by
  cases h : toStr t with
  | some s => exact .inl ⟨s, toStr_some.1 h⟩
  | none => exact .inr (toStr_none.1 h)

theorem written_good (ss : List Str) (rest : List UText) :
    written (ss.map (·.map UChar.char) ++ rest) = (ss.flatten ++ (written rest).1, (written rest).2) := by
  induction ss with
  | nil => simp
  | cons s ss ih => simp [written, toStr_map, ih, List.append_assoc]

theorem written_lone {t : UText} (h : Lone t) (rest : List UText) : written (t :: rest) = ([], .error .valueError) := by
  simp [written, toStr_none.2 h]

/-- `encode("utf-8")` raises, and then `ValueError`, exactly on text with a surrogate; the bytes of other text can be decoded to it. -/
theorem C111_encode (t : UText) :
    (Lone t → encode t = .error .valueError) ∧ (¬ Lone t → ∃ s b, IsStr t s ∧ encode t = .ok b ∧ decodeUtf8 b = .ok s) := by
  constructor
  · intro h; simp [encode, toStr_none.2 h]
  · intro h
    obtain ⟨s, rfl⟩ := (str_or_lone t).resolve_right h
    exact ⟨s, encodeUtf8 s, rfl, by simp [encode, toStr_map], decodeUtf8_encode s⟩

/-- Every list of texts is of the form considered in `C111_file`. -/
theorem C111_file_all (texts : List UText) :
    ∃ (ss : List Str) (tail : List UText), texts = ss.map (·.map UChar.char) ++ tail ∧ (tail = [] ∨ ∃ t more, tail = t :: more ∧ Lone t) := by
  induction texts with
  | nil => exact ⟨[], [], rfl, .inl rfl⟩
  | cons t texts ih =>
    rcases str_or_lone t with ⟨s, rfl⟩ | h
    · obtain ⟨ss, tail, rfl, h⟩ := ih
      exact ⟨s :: ss, tail, rfl, h⟩
    · exact ⟨[], t :: texts, rfl, .inr ⟨t, texts, rfl, h⟩⟩

/-- Writing texts to a file, one after the other: unless something is in the way, the file then has exactly the texts before the first
with a surrogate (whatever it had before, and none of that text); with such a text it raises `ValueError`, else not. The directories
above the file exist, and nothing else has changed.  If something is in the way: `OSError`, and nothing has changed, whatever the texts. -/
theorem C111_file (ss : List Str) (tail : List UText) (k : Str) (hk : k ≠ ['.', '.']) (fs : FS) (hfs : fs.Tree)
    (htail : tail = [] ∨ ∃ t more, tail = t :: more ∧ Lone t) :
    (¬ fs.Blocked (PyPath.resolve cwd P) → fs.node (PyPath.resolve cwd P ++ [k]) ≠ some .dir →
      ∃ r fs', writeTexts cwd ⟨P.root, P.parts ++ [k]⟩ (ss.map (·.map UChar.char) ++ tail) fs = (r, fs') ∧
        (tail = [] → r = .ok ()) ∧ (tail ≠ [] → r = .error .valueError) ∧ fs'.Tree ∧
        fs'.node (PyPath.resolve cwd P ++ [k]) = some (.file (.data (encodeUtf8 ss.flatten))) ∧
        (∀ q, q <+: PyPath.resolve cwd P → fs'.node q = some .dir) ∧
        ∀ q, ¬ q <+: PyPath.resolve cwd P ++ [k] → fs'.node q = fs.node q) ∧
    (fs.Blocked (PyPath.resolve cwd P) ∨ fs.node (PyPath.resolve cwd P ++ [k]) = some .dir →
      ∃ fs', writeTexts cwd ⟨P.root, P.parts ++ [k]⟩ (ss.map (·.map UChar.char) ++ tail) fs = (.error .ioError, fs') ∧
        ∀ q, fs'.node q = fs.node q) := by
  have hw : ∃ r, written (ss.map (·.map UChar.char) ++ tail) = (ss.flatten, r) ∧ (tail = [] → r = .ok ()) ∧ (tail ≠ [] → r = .error .valueError) := by
    rw [written_good]
    rcases htail with rfl | ⟨t, more, rfl, h⟩
    · exact ⟨.ok (), by simp [written], by simp, by simp⟩
    · exact ⟨.error .valueError, by simp [written_lone h], by simp, by simp⟩
  obtain ⟨r, hw, h1, h2⟩ := hw
  obtain ⟨c1, c2⟩ := C69_file_sink (cwd := cwd) (P := P) fs hfs k hk (encodeUtf8 ss.flatten)
  constructor
  · intro hb hd
    obtain ⟨fs', a1, a2, a3, a4, a5⟩ := c1 hb hd
    refine ⟨r, fs', ?_, h1, h2, a2, a3, a4, a5⟩
    simp only [writeTexts, hw, Prog.bind_apply, a1, Prog.ofRes_apply]
  · intro h
    obtain ⟨fs', a1, a2⟩ := c2 h
    exact ⟨fs', by simp only [writeTexts, hw, Prog.bind_apply, a1], a2⟩

/-- A `StringCharSink` takes the texts as they are. -/
theorem C111_string (texts : List UText) : stringSink texts = texts.flatten := rfl

/-! ## Directories -/

/-- What is left in the file. -/
def left (t : UText) : Str := (toStr t).getD []

/-- The calls as if the ones that raise put nothing at all. -/
def attempts (calls : List (Str × UText)) : List (Str × Bytes) := calls.map fun e => (e.1, encodeUtf8 (left e.2))

/-- The keys of calls that do not raise. -/
def kept (calls : List (Str × UText)) : List Str := (calls.filter fun e => (toStr e.2).isSome).map (·.1)

/-- The outcome of a call. -/
def outcome (t : UText) : Res Unit := if (toStr t).isSome then .ok () else .error .valueError

theorem writeTexts_one (cwd p : PyPath) (t : UText) :
    writeText cwd p t = (do writeBytesTo cwd p (encodeUtf8 (left t)); Prog.ofRes (outcome t) : Prog Unit) := by
  unfold writeText writeTexts left outcome
  cases h : toStr t <;> simp [written, h]

theorem put_path {s g : DirSink} (h : s.path = g.path) {k : Str} {b : Bytes} {g' : DirSink} {fs fs' : FS}
    (hg : g.put cwd k b fs = (.ok g', fs')) : writeBytesTo cwd (s.path.div (PyPath.parse k)) b fs = (.ok (), fs') := by
  rw [h]
  simp only [DirSink.put, Prog.bind_apply] at hg
  rcases hr : writeBytesTo cwd (g.path.div (PyPath.parse k)) b fs with ⟨_ | _, fs1⟩
  · rw [hr] at hg; simp at hg
  · rw [hr] at hg
    simp at hg
    rw [hg.2]

/-- The state of a session: what the file system and a sink in which no call raised are like, and the sink itself. -/
structure Inv (cwd P : PyPath) (fs : FS) (calls : List (Str × UText)) (s : DirSink) (fs' : FS) : Prop where
  ghost : ∃ g, State cwd P fs (attempts calls) g fs'
  path : s.path = P
  nodup : (s.idToFile.map (·.1)).Nodup
  map : ∀ k p, (k, p) ∈ s.idToFile ↔ k ∈ kept calls ∧ p = ⟨P.root, P.parts ++ names k⟩

theorem kept_concat (calls : List (Str × UText)) (k : Str) (t : UText) :
    kept (calls ++ [(k, t)]) = if (toStr t).isSome then kept calls ++ [k] else kept calls := by
  unfold kept
  by_cases h : (toStr t).isSome = true <;> simp [h]

theorem putText_step {fs fs' : FS} {calls : List (Str × UText)} {s : DirSink} (hst : Inv cwd P fs calls s fs') {k : Str} (hk : PathKey k)
    (t : UText) (hno : ∀ k' ∈ calls.map (·.1), ¬ Clash k k') :
    ∃ s' fs'', putText cwd s k t fs' = ((s', outcome t), fs'') ∧ Inv cwd P fs (calls ++ [(k, t)]) s' fs'' := by
  obtain ⟨g, hg⟩ := hst.ghost
  obtain ⟨g', fs'', h1, h2⟩ := (put_step hg hk (encodeUtf8 (left t))).1 (by
    intro k' hk'
    refine hno k' ?_
    simpa [attempts, List.map_map] using hk')
  have hw := put_path (s := s) (hst.path.trans hg.path.symm) h1
  have hd : s.path.div (PyPath.parse k) = ⟨P.root, P.parts ++ names k⟩ := by rw [hst.path, div_key hk]
  have hghost : ∃ g, State cwd P fs (attempts (calls ++ [(k, t)])) g fs'' := ⟨g', by simpa [attempts] using h2⟩
  unfold putText
  simp only [writeTexts_one, Prog.bind_apply, hw, Prog.ofRes_apply]
  rcases hT : toStr t with _ | v
  · refine ⟨s, fs'', by simp [outcome, hT], hghost, hst.path, hst.nodup, ?_⟩
    intro k' p
    rw [kept_concat, hT]
    simpa using hst.map k' p
  · refine ⟨{ s with idToFile := dictSet k ⟨P.root, P.parts ++ names k⟩ s.idToFile }, fs'', by simp [outcome, hT, hd], hghost, hst.path,
      nodup_dictSet _ _ hst.nodup, ?_⟩
    intro k' p
    rw [kept_concat, hT]
    rw [← dictGet_iff (nodup_dictSet _ _ hst.nodup), dictGet_dictSet]
    by_cases hkk : k' = k
    · subst hkk; simp [eq_comm]
    · simp [hkk, dictGet_iff hst.nodup, hst.map]

theorem putTexts_spec {fs : FS} (rest : List (Str × UText)) : ∀ (calls : List (Str × UText)) (s : DirSink) (fs' : FS), Inv cwd P fs calls s fs' →
    (∀ e ∈ rest, PathKey e.1) → NoClash ((calls ++ rest).map (·.1)) →
    ∃ s' fs'', putTexts cwd s rest fs' = ((s', rest.map fun e => outcome e.2), fs'') ∧ Inv cwd P fs (calls ++ rest) s' fs'' := by
  induction rest with
  | nil => intro calls s fs' h _ _; exact ⟨s, fs', rfl, by simpa using h⟩
  | cons e rest ih =>
    obtain ⟨k, t⟩ := e
    intro calls s fs' h hkeys hno
    obtain ⟨s1, fs1, h1, h2⟩ := putText_step h (hkeys (k, t) (by simp)) t (fun k' hk' => hno k (by simp) k' (by
      rw [List.map_append]; exact List.mem_append_left _ hk'))
    obtain ⟨s2, fs2, h3, h4⟩ := ih _ s1 fs1 h2 (fun e he => hkeys e (by simp [he])) (by simpa using hno)
    refine ⟨s2, fs2, ?_, by simpa using h4⟩
    simp only [putTexts, h1, h3, List.map_cons]

theorem outcome_spec (t : UText) : Outcome t (outcome t) := by
  rcases str_or_lone t with ⟨s, rfl⟩ | h
  · simp only [outcome, toStr_map]; exact .fine s
  · simp only [outcome, toStr_none.2 h]; exact .raises t h

theorem left_spec (t : UText) : Leaves t (left t) := by
  rcases str_or_lone t with ⟨s, rfl⟩ | h
  · simp only [left, toStr_map]; exact .fine s
  · simp only [left, toStr_none.2 h]; exact .raises t h

/-- What is served. -/
def served (calls : List (Str × UText)) (k : Str) : Option Str :=
  if k ∈ kept calls then lastInFile (calls.map fun e => (e.1, left e.2)) k else none

theorem mem_kept {calls : List (Str × UText)} {k : Str} : k ∈ kept calls ↔ ∃ s : Str, (k, s.map UChar.char) ∈ calls := by
  unfold kept
  simp only [List.mem_map, List.mem_filter]
  constructor
  · rintro ⟨⟨k', t⟩, ⟨h, ht⟩, rfl⟩
    obtain ⟨s, hs⟩ := Option.isSome_iff_exists.1 ht
    exact ⟨s, by rw [← show t = _ from toStr_some.1 hs]; exact h⟩
  · rintro ⟨s, h⟩
    exact ⟨(k, s.map UChar.char), ⟨h, by simp [toStr_map]⟩, rfl⟩

theorem served_kept (calls : List (Str × UText)) : Kept calls (served calls) := by
  constructor
  · intro k h
    unfold served
    rw [if_neg]
    intro hk
    obtain ⟨s, hs⟩ := mem_kept.1 hk
    exact not_lone_map s (h _ hs)
  · intro k s before k' t after hmem he hn hafter
    refine ⟨left t, left_spec t, ?_⟩
    unfold served
    rw [if_pos (mem_kept.2 ⟨s, hmem⟩), he]
    unfold lastInFile
    have hnone : (after.map fun e => (e.1, left e.2)).reverse.find? (fun e => decide (names e.1 = names k)) = none := by
      rw [List.find?_eq_none]
      intro e hm
      obtain ⟨e', he', rfl⟩ := List.mem_map.1 (List.mem_reverse.1 hm)
      simpa using hafter e' he'
    simp [List.map_append, List.find?_append, hn, ← List.map_reverse] at hnone ⊢
    rw [List.find?_eq_none.2 (by simpa using hnone)]
    simp [hn]

/-- A session on a directory sink for text in an empty directory, in which each call of `put` is in a `try` block: exactly the calls with
a text that has a surrogate raise, and then `ValueError`.  What a source made from the index serves is `Kept`: the keys of the calls that
did not raise, but each with what the last call for its file left there, and one that raised leaves the empty string. -/
theorem C111_directory (hcwd : cwd.Normal) (hroot : cwd.root ≠ []) (hP : P.Normal) (hsafe : ∀ w ∈ (PyPath.absolute cwd P).parts, TextSafe w)
    (fs : FS) (ht : fs.Tree) (hname : ∃ n, P.parts.getLast? = some n ∧ n ≠ ['.', '.']) (hempty : fs.EmptyDir (PyPath.resolve cwd P))
    (calls : List (Str × UText)) (hkeys : ∀ e ∈ calls, PathKey e.1) (hno : NoClash (calls.map (·.1))) :
    ∃ outcomes fs', session cwd (DirSink.new P) calls fs = (.ok outcomes, fs') ∧ List.Forall₂ (fun e r => Outcome e.2 r) calls outcomes ∧
      fs'.Tree ∧ (∀ q, ¬ PyPath.resolve cwd P <+: q → fs'.node q = fs.node q) ∧
      ∃ M m, Kept calls M ∧ docMapEntries cwd (P.div (PyPath.parse "_index".toList)) fs' = (.ok m, fs') ∧
        Zip.Serves (docMapSource readTextFile cwd m fs') (fun _ => True) (fun k => (M k).map universalNewlines) := by
  obtain ⟨fs1, henter, hst0⟩ := enter_state fs ht hname hempty
  obtain ⟨s2, fs2, hputs, hinv⟩ := putTexts_spec (P := P) calls [] (DirSink.new P) fs1
    ⟨⟨_, by simpa [attempts] using hst0⟩, rfl, by simp [DirSink.new], by simp [DirSink.new, kept]⟩ hkeys (by simpa using hno)
  rw [List.nil_append] at hinv
  obtain ⟨g, hg⟩ := hinv.ghost
  have hsub : ∀ k ∈ kept calls, k ∈ calls.map (·.1) := by
    intro k hk
    obtain ⟨s, hs⟩ := mem_kept.1 hk
    exact List.mem_map.2 ⟨_, hs, rfl⟩
  have hall : ∀ k ∈ calls.map (·.1), PathKey k := by
    intro k hk
    obtain ⟨e, he, rfl⟩ := List.mem_map.1 hk
    exact hkeys e he
  have hatt : (attempts calls).map (·.1) = calls.map (·.1) := by simp [attempts, List.map_map, Function.comp_def]
  have hfree : fs2.node (PyPath.resolve cwd P ++ ["_index".toList]) ≠ some .dir := by
    intro hc
    rcases hg.onlyDirs _ hc with h | ⟨k, hk, ⟨r, hr⟩, -⟩
    · simp at h
    · exact (hall k (hatt ▸ hk)).index (by rw [← hr]; rfl)
  have hlast : ∀ k ∈ kept calls, ∃ v, served calls k = some v ∧ lastInFile (attempts calls) k = some (encodeUtf8 v) := by
    intro k hk
    obtain ⟨v, hv⟩ := Option.isSome_iff_exists.1 ((lastInFile_isSome (calls.map fun e => (e.1, left e.2)) k).2
      ⟨k, by simpa [List.map_map, Function.comp_def] using hsub k hk, rfl⟩)
    refine ⟨v, by rw [served, if_pos hk, hv], ?_⟩
    have := lastInFile_map encodeUtf8 (calls.map fun e => (e.1, left e.2)) k
    rw [hv, List.map_map] at this
    exact this
  obtain ⟨fs3, hexit, d1, d2, -, m, e1, e2, e3, e4⟩ := leave_spec hcwd hroot hP hsafe hg.tree hinv.path hinv.nodup (kept calls)
    (fun k hk => hall k (hsub k hk)) hinv.map hg.dir hfree (lastInFile (attempts calls)) (fun k hk => by
      obtain ⟨v, -, hv⟩ := hlast k hk
      exact ⟨_, hv, hg.files k _ hv⟩)
  refine ⟨calls.map fun e => outcome e.2, fs3, ?_, ?_, d1, ?_, served calls, m, served_kept calls, e1, ?_⟩
  · simp [session, henter, hputs, hexit]
  · rw [List.forall₂_map_right_iff]
    exact List.forall₂_same.2 fun e _ => outcome_spec e.2
  · intro q hq
    rw [d2 q (fun h => hq (h ▸ List.prefix_append _ _)), hg.outside q hq]
  · have hsome : ∀ k, (served calls k).isSome = true ↔ k ∈ kept calls := by
      intro k
      constructor
      · intro h
        by_contra hk
        rw [served, if_neg hk] at h; simp at h
      · intro hk
        obtain ⟨v, hv, -⟩ := hlast k hk
        rw [hv]; rfl
    refine ⟨⟨m.map (·.1), rfl, e2, fun k => by rw [e3, Option.isSome_map, hsome]⟩, ?_, ?_⟩
    · intro k v hv
      obtain ⟨w, hw, rfl⟩ := Option.map_eq_some_iff.1 hv
      have hk : k ∈ kept calls := (hsome k).1 (by rw [hw]; rfl)
      obtain ⟨⟨k', p⟩, hp, rfl⟩ := List.mem_map.1 ((e3 k).2 hk)
      obtain ⟨b, hb, hf⟩ := e4 _ _ hp
      obtain ⟨w', hw', hl⟩ := hlast _ hk
      simp only at hw hb hw' hl
      rw [hw', Option.some.injEq] at hw
      subst hw
      rw [hl, Option.some.injEq] at hb
      have hget := (dictGet_iff e2 _ _).2 hp
      simp only at hget ⊢
      simp [docMapSource, pathMapping, hget, readTextFile, hf, ← hb, bind, Except.bind, decodeUtf8_encode]
    · intro k _ hk
      have : dictGet m k = none := by
        rw [dictGet_none_iff, e3, ← hsome]; simp only [Option.map_eq_none_iff] at hk; rw [hk]; simp
      simp [docMapSource, pathMapping, this]

/-- Up to the first call that raises, stopping there makes no difference. -/
theorem putUntil_spec {fs : FS} (good : List (Str × Str)) : ∀ (calls : List (Str × UText)) (s : DirSink) (fs' : FS) (tail : List (Str × UText)),
    Inv cwd P fs calls s fs' →
    (∀ e ∈ good, PathKey e.1) → NoClash ((calls ++ good.map fun e => (e.1, e.2.map UChar.char)).map (·.1)) →
    ∃ s' fs'', putTexts cwd s (good.map fun e => (e.1, e.2.map UChar.char)) fs' = ((s', good.map fun _ => .ok ()), fs'') ∧
      Inv cwd P fs (calls ++ good.map fun e => (e.1, e.2.map UChar.char)) s' fs'' ∧
      putUntil cwd s ((good.map fun e => (e.1, e.2.map UChar.char)) ++ tail) fs' = putUntil cwd s' tail fs'' := by
  induction good with
  | nil => intro calls s fs' tail h _ _; exact ⟨s, fs', rfl, by simpa using h, rfl⟩
  | cons e good ih =>
    obtain ⟨k, v⟩ := e
    intro calls s fs' tail h hkeys hno
    obtain ⟨s1, fs1, h1, h2⟩ := putText_step h (hkeys (k, v) (by simp)) (v.map UChar.char) (fun k' hk' => hno k (by simp) k' (by
      rw [List.map_append]; exact List.mem_append_left _ hk'))
    obtain ⟨s2, fs2, h3, h4, h5⟩ := ih _ s1 fs1 tail h2 (fun e he => hkeys e (by simp [he])) (by simpa using hno)
    have ho : outcome (v.map UChar.char) = .ok () := by simp [outcome, toStr_map]
    rw [ho] at h1
    refine ⟨s2, fs2, ?_, by simpa using h4, ?_⟩
    · simp only [List.map_cons, putTexts, h1, h3]
    · simp only [List.map_cons, List.cons_append, putUntil, h1, h5]

theorem until_spec (fs : FS) (ht : fs.Tree) (hname : ∃ n, P.parts.getLast? = some n ∧ n ≠ ['.', '.'])
    (hempty : fs.EmptyDir (PyPath.resolve cwd P)) (good : List (Str × Str)) (hkeys : ∀ e ∈ good, PathKey e.1) :
    (∀ k t more, PathKey k → Lone t → NoClash ((good.map (·.1)) ++ [k]) →
      let upTo : List (Str × UText) := (good.map fun e => (e.1, e.2.map UChar.char)) ++ [(k, t)]
      (∃ o, (session cwd (DirSink.new P) upTo fs).1 = .ok o) →
      sessionUntil cwd (DirSink.new P) (upTo ++ more) fs = (.error .valueError, (session cwd (DirSink.new P) upTo fs).2)) ∧
    (NoClash (good.map (·.1)) →
      let all : List (Str × UText) := good.map fun e => (e.1, e.2.map UChar.char)
      (∃ o, (session cwd (DirSink.new P) all fs).1 = .ok o) →
      sessionUntil cwd (DirSink.new P) all fs = (.ok (), (session cwd (DirSink.new P) all fs).2)) := by
  obtain ⟨fs1, henter, hst0⟩ := enter_state fs ht hname hempty
  have hinv0 : Inv cwd P fs [] (DirSink.new P) fs1 := ⟨⟨_, by simpa [attempts] using hst0⟩, rfl, by simp [DirSink.new], by simp [DirSink.new, kept]⟩
  have hmap : (good.map fun e => (e.1, e.2.map UChar.char)).map (·.1) = good.map (·.1) := by simp [List.map_map, Function.comp_def]
  constructor
  · intro k t more hk hlone hno upTo hs
    obtain ⟨s2, fs2, h1, h2, h3⟩ := putUntil_spec good [] (DirSink.new P) fs1 ((k, t) :: more) hinv0 hkeys (by
      rw [List.nil_append, hmap]
      exact fun a ha b hb => hno a (by simp [ha]) b (by simp [hb]))
    obtain ⟨s3, fs3, h4, h5⟩ := putText_step h2 hk t (fun k' hk' => hno k (by simp) k' (by
      rw [List.nil_append, hmap] at hk'; exact List.mem_append_left _ hk'))
    have ho : outcome t = .error .valueError := by simp [outcome, toStr_none.2 hlone]
    have happ : ∀ (a b : List (Str × UText)) (s : DirSink) (fs : FS), putTexts cwd s (a ++ b) fs =
        (((putTexts cwd (putTexts cwd s a fs).1.1 b (putTexts cwd s a fs).2).1.1, (putTexts cwd s a fs).1.2 ++
          (putTexts cwd (putTexts cwd s a fs).1.1 b (putTexts cwd s a fs).2).1.2), (putTexts cwd (putTexts cwd s a fs).1.1 b (putTexts cwd s a fs).2).2) := by
      intro a
      induction a with
      | nil => intro b s fs; simp [putTexts]
      | cons e a ih => intro b s fs; simp only [List.cons_append, putTexts, ih]
    have hput : putTexts cwd (DirSink.new P) upTo fs1 = ((s3, (good.map fun _ => .ok ()) ++ [.error .valueError]), fs3) := by
      rw [happ, h1]
      simp only [putTexts, h4, ho]
    have huntil : putUntil cwd (DirSink.new P) (upTo ++ more) fs1 = ((s3, .error .valueError), fs3) := by
      have : upTo ++ more = (good.map fun e => (e.1, e.2.map UChar.char)) ++ ((k, t) :: more) := by simp [upTo]
      rw [this, h3, putUntil, h4, ho]
    simp only [session, henter, hput] at hs ⊢
    simp only [sessionUntil, henter, huntil]
    rcases hx : s3.exit cwd fs3 with ⟨_ | _, fs4⟩
    · obtain ⟨o, hs⟩ := hs
      rw [hx] at hs; cases hs
    · rfl
  · intro hno all hs
    obtain ⟨s2, fs2, h1, h2, h3⟩ := putUntil_spec good [] (DirSink.new P) fs1 [] hinv0 hkeys (by rw [List.nil_append, hmap]; exact hno)
    rw [List.append_nil] at h3
    simp only [session, henter, all, h1] at hs ⊢
    simp only [sessionUntil, henter, h3, putUntil]
    rcases hx : s2.exit cwd fs2 with ⟨_ | _, fs4⟩
    · obtain ⟨o, hs⟩ := hs
      rw [hx] at hs; cases hs
    · rfl

/-- A session without `try` blocks: it ends with the first call whose text has a surrogate, and raises `ValueError`; without such a call
it raises nothing.  What is served in the end is the same as if the calls up to that one, and no others, had been made in `try` blocks. -/
theorem C111_directory_until (hcwd : cwd.Normal) (hroot : cwd.root ≠ []) (hP : P.Normal) (hsafe : ∀ w ∈ (PyPath.absolute cwd P).parts, TextSafe w)
    (fs : FS) (ht : fs.Tree) (hname : ∃ n, P.parts.getLast? = some n ∧ n ≠ ['.', '.']) (hempty : fs.EmptyDir (PyPath.resolve cwd P))
    (good : List (Str × Str)) (upTo more : List (Str × UText)) (hkeys : ∀ e ∈ upTo, PathKey e.1) (hno : NoClash (upTo.map (·.1))) (r : Res Unit)
    (hr : (r = .ok () ∧ upTo = (good.map fun e => (e.1, e.2.map UChar.char)) ∧ more = []) ∨
      (r = .error .valueError ∧ ∃ k t, upTo = (good.map fun e => (e.1, e.2.map UChar.char)) ++ [(k, t)] ∧ Lone t)) :
    ∃ fs', sessionUntil cwd (DirSink.new P) (upTo ++ more) fs = (r, fs') ∧
      fs'.Tree ∧ (∀ q, ¬ PyPath.resolve cwd P <+: q → fs'.node q = fs.node q) ∧
      ∃ M m, Kept upTo M ∧ docMapEntries cwd (P.div (PyPath.parse "_index".toList)) fs' = (.ok m, fs') ∧
        Zip.Serves (docMapSource readTextFile cwd m fs') (fun _ => True) (fun k => (M k).map universalNewlines) := by
  obtain ⟨outcomes, fs', h1, -, h3⟩ := C111_directory hcwd hroot hP hsafe fs ht hname hempty upTo hkeys hno
  have hmap : (good.map fun e => (e.1, e.2.map UChar.char)).map (·.1) = good.map (·.1) := by simp [List.map_map, Function.comp_def]
  refine ⟨fs', ?_, h3⟩
  have hgood : ∀ e ∈ good, PathKey e.1 := by
    intro e he
    have hm : (e.1, e.2.map UChar.char) ∈ good.map fun e => (e.1, e.2.map UChar.char) := List.mem_map.2 ⟨e, he, rfl⟩
    rcases hr with ⟨-, rfl, -⟩ | ⟨-, k, t, rfl, -⟩
    · exact hkeys _ hm
    · exact hkeys _ (List.mem_append_left _ hm)
  obtain ⟨u1, u2⟩ := until_spec (P := P) fs ht hname hempty good hgood
  rcases hr with ⟨rfl, rfl, rfl⟩ | ⟨rfl, k, t, rfl, hlone⟩
  · rw [hmap] at hno
    rw [List.append_nil, u2 hno ⟨outcomes, by rw [h1]⟩, h1]
  · rw [List.map_append, hmap] at hno
    rw [u1 k t more (hkeys (k, t) (by simp)) hlone hno ⟨outcomes, by rw [h1]⟩, h1]

/-- Every list of calls is of this form. -/
theorem C111_directory_until_all (calls : List (Str × UText)) :
    ∃ (good : List (Str × Str)) (upTo more : List (Str × UText)) (r : Res Unit), calls = upTo ++ more ∧
      ((r = .ok () ∧ upTo = (good.map fun e => (e.1, e.2.map UChar.char)) ∧ more = []) ∨
        (r = .error .valueError ∧ ∃ k t, upTo = (good.map fun e => (e.1, e.2.map UChar.char)) ++ [(k, t)] ∧ Lone t)) := by
  induction calls with
  | nil => exact ⟨[], [], [], .ok (), rfl, .inl ⟨rfl, rfl, rfl⟩⟩
  | cons e calls ih =>
    obtain ⟨k, t⟩ := e
    rcases str_or_lone t with ⟨s, rfl⟩ | h
    · obtain ⟨good, upTo, more, r, rfl, ⟨rfl, rfl, rfl⟩ | ⟨rfl, k', t', rfl, h⟩⟩ := ih
      · exact ⟨(k, s) :: good, _, [], _, rfl, .inl ⟨rfl, rfl, rfl⟩⟩
      · exact ⟨(k, s) :: good, _, more, _, rfl, .inr ⟨rfl, k', t', rfl, h⟩⟩
    · exact ⟨[], [(k, t)], calls, _, rfl, .inr ⟨rfl, k, t, rfl, h⟩⟩

/-- If the directory is not there or not empty, either session raises `OSError`, and nothing changes. -/
theorem C111_directory_occupied (fs : FS) (ht : fs.Tree) (hempty : ¬ fs.EmptyDir (PyPath.resolve cwd P)) (calls : List (Str × UText)) :
    session cwd (DirSink.new P) calls fs = (.error .ioError, fs) ∧ sessionUntil cwd (DirSink.new P) calls fs = (.error .ioError, fs) := by
  have hr : DirSink.rmdirPath cwd P fs = (.error .ioError, fs) := by
    unfold DirSink.rmdirPath
    split
    · rfl
    · exact (rmdir_spec ht _).2 fun h => hempty h.2
  have : (DirSink.new P).enter cwd fs = (.error .ioError, fs) := by simp [DirSink.enter, DirSink.new, hr]
  simp [session, sessionUntil, this]

/-! ## Zip files -/

open Zip (Codec Sink Op Arg Event Life Store Settings Naming AtPath NoEmptyKey Considered AllConsidered happen happenAll)

/-- The text as an argument of the machine of C97. -/
def arg (t : UText) : Arg Str :=
  match toStr t with
  | some s => .value s
  | none => .unsuitable

theorem callAll_happenAll (cd : Codec Str) (ops : List (Event Str)) (f : Event Str → Op)
    (hf : ∀ e ∈ ops, ∀ disk s, happen cd disk s e = s.call disk (f e)) : ∀ disk s, callAll disk s (ops.map f) = happenAll cd disk s ops := by
  induction ops with
  | nil => intro disk s; rfl
  | cons e ops ih =>
    intro disk s
    simp only [List.map_cons, callAll, happenAll, hf e (by simp), ih (fun e he => hf e (by simp [he]))]

/-- The events of a session. -/
def events (calls : List (Str × UText)) : List (Event Str) := .enter :: calls.map (fun e => .put e.1 (arg e.2)) ++ [.exit]

theorem zipSession_events (cd : Codec Str) (hcd : ∀ s, cd.value s = .str s) (disk : Zip.Disk) (s : Sink) (calls : List (Str × UText)) :
    zipSession disk s calls = happenAll cd disk s (events calls) := by
  let f : Event Str → Op := fun
    | .enter => .enter
    | .put k x => .put k (x.toValue cd)
    | .exit => .exit
    | .replaced _ _ => .exit
  have h := callAll_happenAll cd (events calls) f (by
    intro e he disk s
    simp only [events, List.cons_append, List.mem_cons, List.mem_append, List.mem_map, List.not_mem_nil, or_false] at he
    rcases he with rfl | ⟨e, -, rfl⟩ | rfl <;> rfl) disk s
  rw [← h]
  have hv : ∀ t, (arg t).toValue cd = zipValue t := by
    intro t
    unfold arg zipValue
    cases toStr t <;> simp [Arg.toValue, hcd]
  have hc : (f ∘ fun e : Str × UText => Event.put e.1 (arg e.2)) = fun e => Op.put e.1 (zipValue e.2) := by funext e; simp [f, hv]
  simp only [zipSession, events, List.map_append, List.map_cons, List.map_map, List.map_nil, hc]
  rfl

variable {allowed : Str → Prop} {order : List Str → List Str}

theorem run_append (S : Settings) : ∀ (es fs : List (Event Str)) (l : Life Str),
    l.run S (es ++ fs) = (((l.run S es).1.run S fs).1, (l.run S es).2 ++ ((l.run S es).1.run S fs).2)
  | [], _, _ => rfl
  | e :: es, fs, l => by simp only [List.cons_append, Life.run, run_append S es fs]

theorem life_puts (cd : Codec Str) (S : Settings) (hN : Naming S.filename allowed) (hempty : ¬ allowed []) (rest : List (Str × UText)) :
    ∀ (l : Life Str) (calls : List (Str × UText)), l.phase = .entered → (∀ k, l.refused k = true ↔ k ∈ calls.map (·.1)) →
      (∀ (k v : Str), l.current.value k = some v ↔ (k, v.map UChar.char) ∈ calls) → (∀ e ∈ rest, allowed e.1) →
      ((calls ++ rest).map (·.1)).Nodup →
      AllConsidered cd allowed S l (rest.map fun e => .put e.1 (arg e.2)) ∧
      ∃ l', l.run S (rest.map fun e => .put e.1 (arg e.2)) = (l', rest.map fun e => outcome e.2) ∧ l'.phase = .entered ∧ l'.file = l.file ∧
        (∀ k, l'.refused k = true ↔ k ∈ (calls ++ rest).map (·.1)) ∧
        ∀ (k v : Str), l'.current.value k = some v ↔ (k, v.map UChar.char) ∈ calls ++ rest := by
  induction rest with
  | nil => intro l calls hp hr hc _ _; exact ⟨trivial, l, rfl, hp, rfl, by simpa using hr, by simpa using hc⟩
  | cons e rest ih =>
    obtain ⟨k, t⟩ := e
    intro l calls hp hr hc hall hnd
    have hk : allowed k := hall (k, t) (by simp)
    obtain ⟨n, hn, -⟩ := hN.names k hk
    have hnew : k ∉ calls.map (·.1) := by
      rw [List.map_append, List.nodup_append] at hnd
      exact fun h => hnd.2.2 k h k (by simp) rfl
    have href : l.refused k = false := by
      rw [← Bool.not_eq_true, hr]; exact hnew
    have hnv : ∀ v : Str, (k, v.map UChar.char) ∉ calls := fun v h => hnew (List.mem_map.2 ⟨_, h, rfl⟩)
    have hstep : ∃ l', l.after S (.put k (arg t)) = (l', outcome t) ∧ l'.phase = .entered ∧ l'.file = l.file ∧
        (∀ j, l'.refused j = true ↔ j ∈ (calls ++ [(k, t)]).map (·.1)) ∧
        ∀ (j v : Str), l'.current.value j = some v ↔ (j, v.map UChar.char) ∈ calls ++ [(k, t)] := by
      unfold arg outcome
      rcases str_or_lone t with ⟨s, rfl⟩ | ht
      · simp only [toStr_map, Life.after, hp, href, hn, Bool.false_eq_true, if_false]
        refine ⟨_, rfl, rfl, rfl, ?_, ?_⟩
        · intro j
          simp [hr]
        · intro j v
          by_cases hj : j = k
          · subst hj
            have hinj : Function.Injective UChar.char := fun a b h => by cases h; rfl
            simp [hnv, List.map_injective_iff.2 hinj |>.eq_iff, eq_comm]
          · simp [hj, hc]
      · simp only [toStr_none.2 ht, Life.after, hp, href, hn, Bool.false_eq_true, if_false]
        refine ⟨_, rfl, rfl, rfl, ?_, ?_⟩
        · intro j
          simp [hr]
        · intro j v
          have : t ≠ v.map UChar.char := fun h => not_lone_map v (h ▸ ht)
          simp [hc, this.symm]
    obtain ⟨l1, h1, h2, h3, h4, h5⟩ := hstep
    obtain ⟨i1, l2, i2, i3, i4, i5, i6⟩ := ih l1 (calls ++ [(k, t)]) h2 h4 h5 (fun e he => hall e (by simp [he])) (by simpa using hnd)
    refine ⟨⟨⟨fun h => hempty (h ▸ hk), hN.lines k hk, .inl hk⟩, by rw [h1]; exact i1⟩, l2, ?_, i3, i4.trans h3, by simpa using i5, by simpa using i6⟩
    simp only [List.map_cons, Life.run, h1, i2]

/-- A session on a new overwriting zip sink for text, with keys put once each, in which each call of `put` is in a `try` block: exactly
the calls with a text that has a surrogate raise, and then `ValueError`.  The file then has the values of the others, but lists the keys of
all. -/
theorem C111_zip (cd : Codec Str) (hcd : ∀ s, cd.value s = .str s) (fn : Str → Res Str) (hN : Naming fn allowed) (horder : ∀ l, (order l).Perm l)
    (hempty : ¬ allowed []) (disk : Zip.Disk) (file : Option (Store Str)) (hdisk : AtPath cd fn allowed disk file) (h0 : NoEmptyKey file)
    (calls : List (Str × UText)) (hall : ∀ e ∈ calls, allowed e.1) (hnd : (calls.map (·.1)).Nodup) :
    ∃ sink outcomes L M, Sink.create (Zip.defaultConfig order fn true) = .ok sink ∧
      (zipSession disk sink calls).2 = .ok () :: outcomes ++ [.ok ()] ∧ List.Forall₂ (fun e r => Outcome e.2 r) calls outcomes ∧
      AtPath cd fn allowed (zipSession disk sink calls).1.1 (some ⟨M, some L⟩) ∧
      (∀ k, L k = true ↔ ∃ t, (k, t) ∈ calls) ∧ ∀ (k v : Str), M k = some v ↔ (k, v.map UChar.char) ∈ calls := by
  let S : Settings := ⟨fn, true, true, true⟩
  obtain ⟨h1, l, h2, h3, h4, h5, h6⟩ := life_puts (allowed := allowed) cd S hN hempty calls ((Life.start file).after S .enter).1 [] rfl
    (by intro k; simp [Life.after, Life.start, Life.opened, Store.nothing, S]) (by intro k v; simp [Life.after, Life.opened, Store.nothing, S])
    hall (by simpa using hnd)
  rw [List.nil_append] at h5 h6
  have hrun : (Life.start file).run S (events calls) =
      ((l.after S .exit).1, .ok () :: (calls.map fun e => outcome e.2) ++ [(l.after S .exit).2]) := by
    rw [events, List.cons_append, Life.run, run_append, h2]
    rfl
  have hcons : AllConsidered cd allowed S (.start file) (events calls) := by
    refine ⟨by simp [Considered, Life.start], ?_⟩
    refine Zip.considered_append S _ _ _ h1 ?_
    exact ⟨trivial, trivial⟩
  obtain ⟨sink, a1, a2, a3⟩ := Zip.C97_life (order := order) cd S hN horder (fun _ => rfl) disk file hdisk h0 (events calls) hcons
  rw [hrun] at a2 a3
  have hex : l.after S .exit = ({ l with phase := .left, file := some { l.current with listed := some l.refused } }, .ok ()) := by
    simp [Life.after, h3, S]
  rw [hex] at a2 a3
  refine ⟨sink, calls.map fun e => outcome e.2, l.refused, l.current.value, a1, ?_, ?_, ?_, ?_, h6⟩
  · rw [zipSession_events cd hcd, a2]
  · rw [List.forall₂_map_right_iff]
    exact List.forall₂_same.2 fun e _ => outcome_spec e.2
  · rw [zipSession_events cd hcd]
    exact a3 (by simp)
  · intro k
    rw [h5]
    simp

/-! ## Examples and counterexamples -/

namespace SurrogatesExample
open DocMapExample
open DirKeysExample (dataAt)

def lone : UText := [.char 'x', .surrogate 0]
def plain (s : String) : UText := s.toList.map UChar.char

example : Lone lone := ⟨0, by decide⟩
example : ¬ Lone (plain "x") := not_lone_map _

def isValueError {α : Type} (r : Res α) : Bool := match r with | .ok _ => false | .error e => decide (e = .valueError)

/-- Writing a text with a surrogate to a file raises, and the text that was in the file is lost. -/
theorem _root_.Vista.Surrogates.C111_lost_counterexample :
    dataAt DirKeysExample.fs' ["home".toList, "e".toList] = some "mine".toList ∧
    isValueError (writeText home ⟨[], ["e".toList]⟩ lone DirKeysExample.fs').1 = true ∧
    dataAt (writeText home ⟨[], ["e".toList]⟩ lone DirKeysExample.fs').2 ["home".toList, "e".toList] = some [] := by decide +kernel

/-- The hypotheses of `C111_file`, with two texts before the one with a surrogate and one after it. -/
example :
    isValueError (writeTexts home ⟨[], ["d".toList, "n".toList]⟩ ([plain "1", plain "2"] ++ [lone, plain "3"]) fs).1 = true ∧
    dataAt (writeTexts home ⟨[], ["d".toList, "n".toList]⟩ ([plain "1", plain "2"] ++ [lone, plain "3"]) fs).2
      ["home".toList, "d".toList, "n".toList] = some "12".toList := by decide +kernel

def calls : List (Str × UText) :=
  [("a".toList, plain "1"), ("b/c".toList, plain "2"), ("a".toList, lone), ("e".toList, lone), ("b/./c".toList, plain "3")]

theorem calls_keys : ∀ e ∈ calls, PathKey e.1 := by
  intro e he
  simp only [calls, List.mem_cons, List.not_mem_nil, or_false] at he
  rcases he with rfl | rfl | rfl | rfl | rfl <;> exact DirKeysExample.pathKey_of _ (by decide +kernel)

theorem calls_noClash : NoClash (calls.map (·.1)) := by
  have : ∀ k ∈ calls.map (·.1), ∀ k' ∈ calls.map (·.1), ¬ (names k ≠ names k' ∧ (names k <+: names k' ∨ names k' <+: names k)) := by decide +kernel
  exact this

/-- The hypotheses of `C111_directory` hold of this session. -/
example := C111_directory (cwd := home) (P := dir) ⟨by decide, by decide⟩ (by decide) ⟨by decide, by decide⟩ (by unfold TextSafe; decide +kernel) fs
  fs_tree ⟨"d".toList, by decide, by decide⟩ fs_empty calls calls_keys calls_noClash

/-- The hypotheses of `C111_file` hold of this file system. -/
example := (C111_file (cwd := home) (P := ⟨[], ["d".toList]⟩) ["1".toList, "2".toList] [lone, plain "3"] "n".toList (by decide) fs fs_tree
  (.inr ⟨lone, [plain "3"], rfl, ⟨0, by decide⟩⟩)).1

def looked (calls : List (Str × UText)) (k : Str) : Option Str :=
  let fs' := (session home (DirSink.new dir) calls fs).2
  match docMapEntries home (dir.div (PyPath.parse "_index".toList)) fs' with
  | (.ok m, _) => (match (docMapSource readTextFile home m fs').getItem k with | .ok v => some v | .error _ => none)
  | (.error _, _) => none

/-- A value that was written is lost when a second value for its key cannot be encoded: the key then has the empty string, and that
without any error when it is read. -/
theorem _root_.Vista.Surrogates.C111_silent_counterexample :
    looked calls "a".toList = some [] ∧ looked calls "b/c".toList = some "3".toList ∧ looked calls "e".toList = none := by decide +kernel

/-- Without `try` blocks: the third call raises, and so does the session; the fifth is not made. -/
example :
    let r := sessionUntil home (DirSink.new dir) calls fs
    isValueError r.1 = true ∧ dataAt r.2 ["home".toList, "d".toList, "a".toList] = some [] ∧
    dataAt r.2 ["home".toList, "d".toList, "b".toList, "c".toList] = some "2".toList := by decide +kernel

/-- A directory of the name `_index`: the session raises. -/
example : isIOError (session home (DirSink.new dir) [("_index/a".toList, plain "1")] fs) = true ∧
    isIOError (sessionUntil home (DirSink.new dir) [("_index/a".toList, plain "1")] fs) = true := by decide +kernel

/-- A directory that is not empty. -/
example : ¬ DirKeysExample.fs'.EmptyDir (PyPath.resolve ⟨['/'], []⟩ home) := fun h => absurd (h.2 "d".toList) (by decide +kernel)

/-- A zip file lists a key that has no value: `source[key]` raises `KeyError` for one of its own keys. -/
theorem _root_.Vista.Surrogates.C111_zip_counterexample :
    ∃ sink src, Sink.create (Zip.defaultConfig id Zip.Example.ident true) = .ok sink ∧
      (Zip.Source.create ⟨Zip.Example.ident, some Zip.readKeysFile, Zip.charCodec.process⟩).enter
        (zipSession none sink [("a".toList, lone), ("b".toList, plain "1")]).1.1 = .ok src ∧
      (∃ ks, src.asSource.keys = .ok (some ks) ∧ "a".toList ∈ ks) ∧ src.asSource.getItem "a".toList = .error .keyError ∧
      src.asSource.getItem "b".toList = .ok "1".toList := by
  have hp : ∀ k : Str, k = "a".toList ∨ k = "b".toList → Zip.Example.plainKey k := by
    rintro k (rfl | rfl) <;> (unfold Zip.Example.plainKey; decide)
  obtain ⟨sink, outcomes, L, M, h1, -, -, ⟨src, h2, h3⟩, h4, h5⟩ := C111_zip (order := id) Zip.charCodec (fun _ => rfl) Zip.Example.ident
    Zip.Example.naming (fun l => List.Perm.refl l) (by unfold Zip.Example.plainKey; simp) none none ⟨rfl, fun _ => rfl⟩ (fun _ _ h => by cases h)
    [("a".toList, lone), ("b".toList, plain "1")] (by
      intro e he
      simp only [List.mem_cons, List.not_mem_nil, or_false] at he
      rcases he with rfl | rfl
      · exact hp _ (.inl rfl)
      · exact hp _ (.inr rfl)) (by decide)
  refine ⟨sink, src, h1, h2, ?_, ?_, ?_⟩
  · obtain ⟨ks, e1, -, e2⟩ := h3.listed L rfl
    exact ⟨ks, e1, (e2 _).2 ((h4 _).2 ⟨lone, by simp⟩)⟩
  · refine (h3.absent _ (hp _ (.inl rfl)) ?_).1
    rw [Option.eq_none_iff_forall_ne_some]
    intro v hv
    have := (h5 _ _).1 hv
    simp only [List.mem_cons, Prod.mk.injEq, List.not_mem_nil, or_false, true_and] at this
    rcases this with h | ⟨h, -⟩
    · exact not_lone_map v ⟨0, by rw [h]; decide⟩
    · exact absurd h (by decide)
  · exact (h3.present _ _ (hp _ (.inr rfl)) ((h5 _ _).2 (by simp [plain]))).1

end SurrogatesExample

end Surrogates
end Vista
