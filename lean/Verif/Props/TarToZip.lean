import Verif.Spec.TarToZip
import Verif.Props.SmallScripts
import Verif.Proofs.FileSystem
import Verif.Props.DirToStore
import Verif.Proofs.Examples

/-!
# C84: converting a tar file to a zip file
-/
set_option linter.unusedSectionVars false
set_option linter.unusedSimpArgs false
namespace Vista
namespace TarToZip
open Params (PlainName parse_join resolve_steps)

/-! ## The place of the output -/

theorem output_cut (f : Str) : ∃ c e, f = c ++ e ∧ outputName f = c ++ ".zip".toList ∧ '/' ∉ e := by
  by_cases h' : ∃ c, f = c ++ ".tar".toList ∨ f = c ++ ".tgz".toList ∨ f = c ++ "tar.gz".toList
  · obtain ⟨c, rfl | rfl | rfl⟩ := h'
    · exact ⟨c, _, rfl, (C71_output_name c).1, by decide⟩
    · exact ⟨c, _, rfl, (C71_output_name c).2.1, by decide⟩
    · exact ⟨c, _, rfl, output_gz c, by decide⟩
  · exact ⟨f, [], by simp, (C71_output_name f).2.2 h', by simp⟩

theorem parts_append (a b : Str) : (PyPath.parse (a ++ '/' :: b)).parts = (PyPath.parse a).parts ++ (PyPath.parse b).parts := by
  simp only [PyPath.parse, splitOn_append_sep, List.filter_append]

/-- The last part of a name, after the last slash. -/
theorem last_part (s : Str) : ∃ pre last : Str, '/' ∉ last ∧ (s = last ∧ pre = [] ∨ s = pre ++ '/' :: last) := by
  rcases DirToStore.last_dot '/' s with h | ⟨a, e, rfl, h⟩
  · exact ⟨[], s, h, .inl ⟨rfl, rfl⟩⟩
  · exact ⟨a, e, h, .inr rfl⟩

theorem rootOf_ne (s : Str) : PyPath.rootOf s ≠ [] ↔ s.head? = some '/' := by
  cases s with
  | nil => simp [PyPath.rootOf]
  | cons c s =>
    by_cases hc : c = '/'
    · subst hc
      simp only [List.head?_cons, iff_true]
      unfold PyPath.rootOf
      split <;> simp_all
    · simp only [List.head?_cons, Option.some.injEq, hc, iff_false, not_not]
      unfold PyPath.rootOf
      split <;> simp_all

theorem parse_last {x : Str} (h : '/' ∉ x) : (PyPath.parse x).parts = if x ≠ [] ∧ x ≠ ['.'] then [x] else [] := by
  simp only [PyPath.parse, splitOn_of_not_mem h, List.filter_cons, List.filter_nil, decide_eq_true_eq]

/-- A name in a directory given by the text before the slash, if any. -/
def inDir : Option Str → Str → Str
  | some a, z => a ++ '/' :: z
  | none, z => z

theorem resolve_inDir (cwd : PyPath) (pre : Option Str) :
    ∃ R : Loc, ∀ z, '/' ∉ z → PyPath.resolve cwd (PyPath.parse (inDir pre z)) = (PyPath.parse z).parts.foldl resolveStep R := by
  cases pre with
  | none =>
    refine ⟨cwd.parts.foldl resolveStep [], fun z hz => ?_⟩
    have hr : ¬ (PyPath.parse z).root ≠ [] := by
      show ¬ PyPath.rootOf z ≠ []
      rw [rootOf_ne]
      intro h
      cases z with
      | nil => simp at h
      | cons a z => simp only [List.head?_cons, Option.some.injEq] at h; exact hz (by rw [h]; simp)
    rw [inDir, PyPath.resolve, PyPath.absolute, if_neg hr, List.foldl_append]
  | some a =>
    have hroot : ∀ z, (PyPath.parse (inDir (some a) z)).root ≠ [] ↔ (a ++ ['/']).head? = some '/' := by
      intro z
      show PyPath.rootOf _ ≠ [] ↔ _
      rw [rootOf_ne]
      cases a <;> simp [inDir]
    by_cases hr : (a ++ ['/']).head? = some '/'
    · refine ⟨(PyPath.parse a).parts.foldl resolveStep [], fun z _ => ?_⟩
      rw [PyPath.resolve, PyPath.absolute, if_pos ((hroot z).2 hr), inDir, parts_append, List.foldl_append]
    · refine ⟨(cwd.parts ++ (PyPath.parse a).parts).foldl resolveStep [], fun z _ => ?_⟩
      rw [PyPath.resolve, PyPath.absolute, if_neg (fun h => hr ((hroot z).1 h)), inDir, parts_append, ← List.append_assoc, List.foldl_append]

/-- Two names that differ only after the last slash: the places. -/
theorem resolve_siblings (cwd : PyPath) (pre : Option Str) (x : Str) (hx : '/' ∉ x) (hx0 : x ≠ [] ∧ x ≠ ['.'] ∧ x ≠ ['.', '.']) :
    ∃ R : Loc, PyPath.resolve cwd (PyPath.parse (inDir pre x)) = R ++ [x] ∧
      ∀ y : Str, '/' ∉ y → y ≠ x → PyPath.resolve cwd (PyPath.parse (inDir pre y)) ≠ R ++ [x] := by
  obtain ⟨R, hres⟩ := resolve_inDir cwd pre
  refine ⟨R, ?_, fun y hy hne => ?_⟩
  · rw [hres x hx, parse_last hx, if_pos ⟨hx0.1, hx0.2.1⟩]
    simp [resolveStep, hx0.2.2]
  · rw [hres y hy, parse_last hy]
    split
    · simp only [List.foldl_cons, List.foldl_nil, resolveStep]
      split
      · intro h
        have := congrArg List.length h
        simp at this
      · intro h
        simp at h
        exact hne h
    · simp only [List.foldl_nil]
      intro h
      have := congrArg List.length h
      simp at this

/-- The zip file is never the tar file itself. -/
theorem C84_places (cwd : PyPath) (args : Args) : zipPlace cwd args ≠ tarPlace cwd args ∧ zipPlace cwd args ≠ [] := by
  obtain ⟨c, e, hf, ho, he⟩ := output_cut args.tarFileName
  obtain ⟨pre, last, hl, hc⟩ := last_part c
  have hne : e ≠ ".zip".toList := by
    rintro rfl
    exact (C71_output_differs args.tarFileName).1 (ho.trans hf.symm)
  have hx : '/' ∉ last ++ ".zip".toList := by
    rw [List.mem_append]; rintro (h | h)
    · exact hl h
    · exact absurd h (by decide)
  have hy : '/' ∉ last ++ e := by
    rw [List.mem_append]; rintro (h | h)
    · exact hl h
    · exact he h
  have hx0 : last ++ ".zip".toList ≠ [] ∧ last ++ ".zip".toList ≠ ['.'] ∧ last ++ ".zip".toList ≠ ['.', '.'] := by
    refine ⟨?_, ?_, ?_⟩ <;> intro h <;> have := congrArg List.length h <;> simp at this
  have hyx : last ++ e ≠ last ++ ".zip".toList := fun h => hne (List.append_cancel_left h)
  unfold zipPlace tarPlace
  rw [ho, hf]
  rcases hc with ⟨rfl, -⟩ | rfl
  · obtain ⟨R, r1, r2⟩ := resolve_siblings cwd none _ hx hx0
    simp only [inDir] at r1 r2
    rw [r1]
    exact ⟨(r2 _ hy hyx).symm, by simp⟩
  · obtain ⟨R, r1, r2⟩ := resolve_siblings cwd (some pre) _ hx hx0
    simp only [inDir] at r1 r2
    rw [List.append_assoc, List.cons_append, r1, List.append_assoc, List.cons_append]
    exact ⟨(r2 _ hy hyx).symm, by simp⟩

/-! ## Files -/

theorem removeExisting_spec {fs : FS} {l : Loc} (hl : l ≠ []) (h : Writable fs l) :
    ∃ fs1, removeExisting l fs = (.ok (), fs1) ∧ fs1.node l = none ∧ (∀ q, q ≠ l → fs1.node q = fs.node q) ∧ fs1.Tree := by
  cases hn : fs.node l with
  | none => exact ⟨fs, by simp only [removeExisting, Prog.call, hn], hn, fun _ _ => rfl, h.tree⟩
  | some nd =>
    cases nd with
    | dir => exact absurd hn h.free
    | file c =>
      refine ⟨fs.eraseTree l, by simp only [removeExisting, Prog.call, hn], by rw [FS.node_eraseTree _ _ hl, if_pos (List.prefix_refl _)],
        fun q hq => ?_, FS.tree_eraseTree h.tree hl⟩
      rw [FS.node_eraseTree _ _ hl]
      split
      · rename_i hpre
        by_contra hne
        have := h.tree.dir_of_prefix hpre hq.symm (Ne.symm hne)
        rw [hn] at this; simp at this
      · rfl

theorem createZip_spec {fs : FS} {l : Loc} (hl : l ≠ []) (ht : fs.Tree) (hpar : fs.node l.dropLast = some .dir) (hn : fs.node l = none) :
    ∃ fs1, createZip l fs = (.ok (), fs1) ∧ fs.WithFile l (.data .empty) fs1 ∧ fs1.Tree := by
  refine ⟨fs.set l (.file (.data .empty)), ?_, FS.WithFile.of_set hl _, FS.tree_set ht hl hpar _ (.inr fun m => ?_)⟩
  · simp only [createZip, Prog.call, hl, if_false, FS.walk_of_parent ht hpar, hn]
  · exact ht.none_of_prefix (List.prefix_append _ _) hn

theorem dropLast_ne {l : Loc} (hl : l ≠ []) : l.dropLast ≠ l := by
  intro h
  have := congrArg List.length h
  have := List.length_pos_of_ne_nil hl
  simp at *
  omega

/-- Up to the point where the tar file is opened. -/
theorem main_start (untar : Bytes → Res (List Member × Option Exc)) (cwd : PyPath) (args : Args) {fs : FS} (h : Writable fs (zipPlace cwd args)) :
    ∃ fs1, fs.WithFile (zipPlace cwd args) (.data .empty) fs1 ∧ fs1.Tree ∧ main untar cwd args fs = (do
      let (a, e) ← convert untar cwd args (tarPlace cwd args)
      writeFile (zipPlace cwd args) (.zip a)
      match e with
      | some e => Prog.raise e
      | none => Prog.pure () : Prog Unit) fs1 := by
  have hl := (C84_places cwd args).2
  obtain ⟨fs1, a1, a2, a3, a4⟩ := removeExisting_spec hl h
  obtain ⟨fs2, b1, b2, b3⟩ := createZip_spec hl a4 (by rw [a3 _ (dropLast_ne hl)]; exact h.parent) a2
  refine ⟨fs2, ⟨b2.1, fun q hq => by rw [b2.2 q hq, a3 q hq]⟩, b3, ?_⟩
  have e1 : removeExisting (PyPath.resolve cwd (PyPath.parse (outputName args.tarFileName))) fs = (.ok (), fs1) := a1
  have e2 : createZip (PyPath.resolve cwd (PyPath.parse (outputName args.tarFileName))) fs1 = (.ok (), fs2) := b1
  simp only [main, Prog.bind_apply, e1, e2]
  rfl

/-- The end: the archive is written. -/
theorem main_end {fs1 fs2 : FS} {l : Loc} (hl : l ≠ []) {c : Content} (hn : fs2.node l = some (.file c)) (ht : fs2.Tree)
    (untar : Bytes → Res (List Member × Option Exc)) (cwd : PyPath) (args : Args) (tar : Loc) {a : Zip.Archive} {e : Option Exc}
    (hc : convertAt untar cwd args tar fs1 = ((a, e), fs2)) :
    ∃ fs', (do
      let (a, e) ← convert untar cwd args tar
      writeFile l (.zip a)
      match e with
      | some e => Prog.raise e
      | none => Prog.pure () : Prog Unit) fs1 = (outcome e, fs') ∧ fs2.WithFile l (.zip a) fs' := by
  have hpar : fs2.node l.dropLast = some .dir := by
    rcases nil_or_snoc l with h | ⟨r, n, rfl⟩
    · exact absurd h hl
    · rw [List.dropLast_concat]; exact ht.parents r n (by rw [hn]; simp)
  obtain ⟨fs', b1, b2, b3⟩ := (writeFile_spec ht l (.zip a)).1 hl hpar (by rw [hn]; simp)
  refine ⟨fs', ?_, b2⟩
  simp only [Prog.bind_apply, convert, hc, b1]
  cases e <;> rfl

/-! ## Streaming -/

variable {untar : Bytes → Res (List Member × Option Exc)} {cwd : PyPath} {args : Args} {fs : FS} {ms : List Member} {fin : Option Exc}

theorem openTar_ok {l : Loc} (h : IsTar untar fs l ms fin) : openTar untar l fs = (.ok (ms, fin), fs) := by
  obtain ⟨b, h1, h2⟩ := h
  simp only [openTar, Prog.bind_apply, DirToStore.readData_data h1, Prog.ofRes_apply, h2]

theorem isTar_other {fs1 : FS} {l z : Loc} {c : Content} (hz : z ≠ l) (hw : fs.WithFile z c fs1) (h : IsTar untar fs l ms fin) : IsTar untar fs1 l ms fin := by
  obtain ⟨b, h1, h2⟩ := h
  exact ⟨b, by rw [hw.2 l hz.symm]; exact h1, h2⟩

theorem stream_all (ms : List Member) (hn : ∀ m ∈ ms, '\x00' ∉ m.name) (hr : ∀ m ∈ ms, Kept args m → ∃ b, m.data = .ok b) (a : Zip.Archive) :
    ∃ A, (∀ tail fin', streamMembers args.omitLargeFiles (args.largeFileCutoff * 1000000000) fin' (ms ++ tail) a =
      streamMembers args.omitLargeFiles (args.largeFileCutoff * 1000000000) fin' tail (a ++ A)) ∧ Copies (ms.filter (Kept args)) A := by
  induction ms generalizing a with
  | nil => exact ⟨[], by simp, .nil⟩
  | cons m ms ih =>
    have hn' : ∀ m ∈ ms, '\x00' ∉ m.name := fun x hx => hn x (by simp [hx])
    have hr' : ∀ m ∈ ms, Kept args m → ∃ b, m.data = .ok b := fun x hx => hr x (by simp [hx])
    by_cases hk : Kept args m
    · obtain ⟨b, hb⟩ := hr m (by simp) hk
      obtain ⟨A, h1, h2⟩ := ih hn' hr' (a ++ [(m.name, b)])
      refine ⟨(m.name, b) :: A, fun tail fin' => ?_, ?_⟩
      · have hc : ¬ (args.omitLargeFiles = true ∧ (m.size : Rat) > args.largeFileCutoff * 1000000000) := by
          rintro ⟨c1, c2⟩
          have := hk.2 c1
          norm_num at this
          exact absurd c2 (not_lt.2 this)
        rw [List.cons_append, streamMembers, if_pos hk.1, if_neg hc, hb]
        simp only [Zip.writestr, Zip.entryName_id (hn m (by simp)), h1, List.append_assoc, List.singleton_append]
      · rw [List.filter_cons_of_pos (by simpa using hk)]
        exact .cons ⟨rfl, hb⟩ h2
    · obtain ⟨A, h1, h2⟩ := ih hn' hr' a
      refine ⟨A, fun tail fin' => ?_, ?_⟩
      · rw [List.cons_append, streamMembers]
        by_cases hf : m.isFile = true
        · have hc : args.omitLargeFiles = true ∧ (m.size : Rat) > args.largeFileCutoff * 1000000000 := by
            by_contra hc
            refine hk ⟨hf, fun c1 => ?_⟩
            norm_num
            by_contra c2
            exact hc ⟨c1, not_le.1 c2⟩
          rw [if_pos hf, if_pos hc, h1]
        · rw [if_neg hf, h1]
      · rw [List.filter_cons_of_neg (by simpa using hk)]
        exact h2

/-- Streaming: what the script leaves. -/
theorem stream_main (hs : args.dontStream = false) (hw : Writable fs (zipPlace cwd args)) (ht : IsTar untar fs (tarPlace cwd args) ms fin)
    {a : Zip.Archive} {e : Option Exc} (he : streamMembers args.omitLargeFiles (args.largeFileCutoff * 1000000000) fin ms [] = (a, e)) :
    ∃ fs', main untar cwd args fs = (outcome e, fs') ∧ fs.WithFile (zipPlace cwd args) (.zip a) fs' := by
  have hp := C84_places cwd args
  obtain ⟨fs1, a1, a2, a3⟩ := main_start untar cwd args hw
  have hopen := openTar_ok (isTar_other hp.1 a1 ht)
  have hconv : convertAt untar cwd args (tarPlace cwd args) fs1 = ((a, e), fs1) := by
    rw [← he]
    simp only [convertAt, hopen, hs, Bool.false_eq_true, if_false]
  obtain ⟨fs', b1, b2⟩ := main_end hp.2 a1.1 a2 untar cwd args _ hconv
  exact ⟨fs', by rw [a3, b1], b2.1, fun q hq => by rw [b2.2 q hq, a1.2 q hq]⟩

/-- Streaming.  If all members to be transferred can be read, they are: the archive has exactly one entry for each of them, in their order,
with their contents; only the zip file changes.  If the tar file turns out to be damaged, by an exception after the last member or from
reading a member, this is what is raised, and the archive has the members before. -/
theorem C84_stream (hs : args.dontStream = false) (hw : Writable fs (zipPlace cwd args)) (ht : IsTar untar fs (tarPlace cwd args) ms fin)
    (hn : ∀ m ∈ ms, '\x00' ∉ m.name) :
    ((∀ m ∈ ms, Kept args m → ∃ b, m.data = .ok b) →
      ∃ fs' A, main untar cwd args fs = (outcome fin, fs') ∧ fs.WithFile (zipPlace cwd args) (.zip A) fs' ∧ Copies (ms.filter (Kept args)) A) ∧
    (∀ pre m post e, ms = pre ++ m :: post → (∀ x ∈ pre, Kept args x → ∃ b, x.data = .ok b) → Kept args m → m.data = .error e →
      ∃ fs' A, main untar cwd args fs = (.error e, fs') ∧ fs.WithFile (zipPlace cwd args) (.zip A) fs' ∧ Copies (pre.filter (Kept args)) A) := by
  have key : ∀ a e, streamMembers args.omitLargeFiles (args.largeFileCutoff * 1000000000) fin ms [] = (a, e) →
      ∃ fs', main untar cwd args fs = (outcome e, fs') ∧ fs.WithFile (zipPlace cwd args) (.zip a) fs' := fun a e he => stream_main hs hw ht he
  constructor
  · intro hr
    obtain ⟨A, h1, h2⟩ := stream_all ms hn hr []
    have := h1 [] fin
    simp only [List.append_nil, List.nil_append, streamMembers] at this
    obtain ⟨fs', b1, b2⟩ := key _ _ this
    exact ⟨fs', A, b1, b2, h2⟩
  · rintro pre m post e rfl hr hk he
    obtain ⟨A, h1, h2⟩ := stream_all pre (fun x hx => hn x (by simp [hx])) hr []
    have := h1 (m :: post) fin
    have hc : ¬ (args.omitLargeFiles = true ∧ (m.size : Rat) > args.largeFileCutoff * 1000000000) := by
      rintro ⟨c1, c2⟩
      have := hk.2 c1
      norm_num at this
      exact absurd c2 (not_lt.2 this)
    simp only [List.nil_append, streamMembers, hk.1, if_true, if_neg hc, he] at this
    obtain ⟨fs', b1, b2⟩ := key _ _ this
    exact ⟨fs', A, b1, b2, h2⟩

theorem readEntry_none {A : Zip.Archive} (h : Copies ms A) (n : Str) : (∃ e, Zip.readEntry A n = .error e) ↔ ∀ x ∈ ms, x.name ≠ n := by
  induction h with
  | nil => simp [Zip.readEntry]
  | @cons m e ms A hme _ ih =>
    obtain ⟨en, eb⟩ := e
    obtain ⟨rfl, hd⟩ := hme
    simp only [Zip.readEntry, List.mem_cons, forall_eq_or_imp, ← ih]
    cases Zip.readEntry A n with
    | ok b => simp
    | error e => by_cases hmn : m.name = n <;> simp [hmn]

/-- Reading the archive by name: the contents of the last member of that name. -/
theorem C84_reading {A : Zip.Archive} (h : Copies ms A) (n : Str) (b : Bytes) :
    Zip.readEntry A n = .ok b ↔ ∃ pre m post, ms = pre ++ m :: post ∧ m.name = n ∧ m.data = .ok b ∧ ∀ x ∈ post, x.name ≠ n := by
  induction h with
  | nil => simp [Zip.readEntry]
  | @cons m e ms A hme hA ih =>
    obtain ⟨en, eb⟩ := e
    obtain ⟨rfl, hd⟩ := hme
    have hno := readEntry_none hA n
    simp only at hd
    simp only [Zip.readEntry]
    cases hrest : Zip.readEntry A n with
    | ok b' =>
      rw [hrest] at ih hno
      rw [ih]
      constructor
      · rintro ⟨pre, x, post, rfl, h1⟩
        exact ⟨m :: pre, x, post, rfl, h1⟩
      · rintro ⟨pre, x, post, h0, h1, h2, h3⟩
        cases pre with
        | nil =>
          simp only [List.nil_append, List.cons.injEq] at h0
          obtain ⟨rfl, rfl⟩ := h0
          exact absurd (hno.2 h3) (by simp)
        | cons y pre =>
          simp only [List.cons_append, List.cons.injEq] at h0
          exact ⟨pre, x, post, h0.2, h1, h2, h3⟩
    | error e =>
      have hno' := hno.1 ⟨e, hrest⟩
      constructor
      · intro hb
        by_cases hmn : m.name = n
        · simp only [hmn, if_true, Except.ok.injEq] at hb
          subst hb
          exact ⟨[], m, ms, rfl, hmn, hd, hno'⟩
        · simp [hmn] at hb
      · rintro ⟨pre, x, post, h0, h1, h2, h3⟩
        cases pre with
        | nil =>
          simp only [List.nil_append, List.cons.injEq] at h0
          obtain ⟨rfl, rfl⟩ := h0
          rw [hd] at h2
          simp only [Except.ok.injEq] at h2
          simp [h1, h2]
        | cons y pre =>
          simp only [List.cons_append, List.cons.injEq] at h0
          exact absurd h1 (hno' x (by rw [h0.2]; simp))

/-! ## What can go wrong before -/

/-- The tar file cannot be opened (it is not there, or not a tar file): the exception, but an empty archive has replaced what was at the
place of the output. -/
theorem C84_no_tar (hw : Writable fs (zipPlace cwd args)) :
    (fs.node (tarPlace cwd args) = none ∨ fs.node (tarPlace cwd args) = some .dir →
      ∃ fs', main untar cwd args fs = (.error .ioError, fs') ∧ fs.WithFile (zipPlace cwd args) (.zip []) fs') ∧
    (∀ b e, fs.node (tarPlace cwd args) = some (.file (.data b)) → untar b = .error e →
      ∃ fs', main untar cwd args fs = (.error e, fs') ∧ fs.WithFile (zipPlace cwd args) (.zip []) fs') := by
  have hp := C84_places cwd args
  obtain ⟨fs1, a1, a2, a3⟩ := main_start untar cwd args hw
  have key : ∀ e, openTar untar (tarPlace cwd args) fs1 = (.error e, fs1) → 
      ∃ fs', main untar cwd args fs = (.error e, fs') ∧ fs.WithFile (zipPlace cwd args) (.zip []) fs' := by
    intro e he
    have : convertAt untar cwd args (tarPlace cwd args) fs1 = (([], some e), fs1) := by simp only [convertAt, he]
    obtain ⟨fs', b1, b2⟩ := main_end hp.2 a1.1 a2 untar cwd args _ this
    exact ⟨fs', by rw [a3, b1]; rfl, b2.1, fun q hq => by rw [b2.2 q hq, a1.2 q hq]⟩
  have hnode := a1.2 (tarPlace cwd args) hp.1.symm
  constructor
  · intro h
    refine key .ioError ?_
    rcases h with h | h <;> rw [← hnode] at h <;> simp only [openTar, readData, readFile, Prog.bind_apply, h]
  · intro b e h he
    rw [← hnode] at h
    exact key e (by simp only [openTar, Prog.bind_apply, DirToStore.readData_data h, Prog.ofRes_apply, he])

/-- The place of the output is a directory, or its directory is missing: an `OSError`, and nothing changes. -/
theorem C84_bad_output (ht : fs.Tree) (h : fs.node (zipPlace cwd args) = some .dir ∨ fs.node (zipPlace cwd args).dropLast ≠ some .dir) :
    main untar cwd args fs = (.error .ioError, fs) := by
  have hl := (C84_places cwd args).2
  by_cases hd : fs.node (zipPlace cwd args) = some .dir
  · have : removeExisting (zipPlace cwd args) fs = (.error .ioError, fs) := by simp only [removeExisting, Prog.call, hd]
    show (do removeExisting (zipPlace cwd args); _ : Prog Unit) fs = _
    simp only [Prog.bind_apply, this]
  · have hpar := h.resolve_left hd
    have hn : fs.node (zipPlace cwd args) = none := by
      rcases nil_or_snoc (zipPlace cwd args) with h0 | ⟨r, n, h0⟩
      · exact absurd h0 hl
      · rw [h0] at hpar ⊢
        rw [List.dropLast_concat] at hpar
        by_contra hne
        exact hpar (ht.parents r n hne)
    have h1 : removeExisting (zipPlace cwd args) fs = (.ok (), fs) := by simp only [removeExisting, Prog.call, hn]
    have h2 : createZip (zipPlace cwd args) fs = (.error .ioError, fs) := by
      have hwk : ∃ e, fs.walk [] (zipPlace cwd args).dropLast = .error e := by
        cases hwk : fs.walk [] (zipPlace cwd args).dropLast with
        | error e => exact ⟨e, rfl⟩
        | ok u => exact absurd (FS.parent_of_walk hwk) hpar
      obtain ⟨e, he⟩ := hwk
      simp only [createZip, Prog.call, hl, if_false, he]
    show (do removeExisting (zipPlace cwd args); createZip (zipPlace cwd args); _ : Prog Unit) fs = _
    simp only [Prog.bind_apply, h1, h2]

/-! ## Without streaming -/

theorem rel_place {m : Member} {r : List Str} (h : Rel m r) : ∃ p : Loc, p ≠ [] ∧ memberPlace cwd m = p ∧ arcName m.name = m.name ∧ '\x00' ∉ m.name := by
  have hpl : ∀ w ∈ r, PlainName w := fun w hw => ⟨(h.plain w hw).1, (h.plain w hw).2.1, (h.plain w hw).2.2.1, (h.plain w hw).2.2.2.1⟩
  have hparts := (parse_join r hpl).1
  have hroot : ¬ (PyPath.parse m.name).root ≠ [] := by
    show ¬ PyPath.rootOf _ ≠ []
    rw [rootOf_ne, h.name]
    intro hh
    cases r with
    | nil => exact h.ne rfl
    | cons w r =>
      obtain ⟨hw, -, -, hs, -⟩ := h.plain w (by simp)
      cases w with
      | nil => exact hw rfl
      | cons c w =>
        have : c = '/' := by cases r <;> simpa [joinWith] using hh
        exact hs (by simp [this])
  refine ⟨_, ?_, rfl, ?_, ?_⟩
  · rw [memberPlace, PyPath.resolve, PyPath.absolute, if_neg hroot, List.foldl_append]
    simp only [h.name, hparts]
    rw [resolve_steps _ r hpl]
    simp [h.ne]
  · rw [arcName, h.name, hparts, PyPath.resolve, PyPath.absolute]
    simp only [ne_eq, List.cons_ne_nil, not_false_eq_true, if_true]
    rw [resolve_steps [] r hpl]
    rfl
  · intro hh
    rw [h.name] at hh
    rcases mem_joinWith hh with hh | ⟨w, hw, hh⟩
    · exact absurd hh (by decide)
    · exact (h.plain w hw).2.2.2.2 hh

/-- What extracting the members does. -/
structure Extracted (cwd : PyPath) (ms : List Member) (fs fs' : FS) : Prop where
  files : ∀ m ∈ ms, ∃ b, m.data = .ok b ∧ fs'.node (memberPlace cwd m) = some (.file (.data b))
  dirs : ∀ m ∈ ms, ∀ q, q <+: memberPlace cwd m → q ≠ memberPlace cwd m → fs'.node q = some .dir
  others : ∀ q, (∀ m ∈ ms, ¬ q <+: memberPlace cwd m) → fs'.node q = fs.node q

theorem prefix_snoc {q r : Loc} {n : Str} : q <+: r ++ [n] ↔ q <+: r ∨ q = r ++ [n] := by
  rw [List.prefix_concat_iff]
  tauto

theorem extract_spec {zip : Loc} (h : Extractable cwd fs zip ms) (ht : fs.Tree) :
    ∃ fs', extractAll cwd none ms fs = (.ok (), fs') ∧ Extracted cwd ms fs fs' ∧ fs'.Tree := by
  induction ms generalizing fs with
  | nil => exact ⟨fs, rfl, ⟨by simp, by simp, by simp⟩, ht⟩
  | cons m ms ih =>
    obtain ⟨hf, ⟨b, hb⟩, r, hr⟩ := h.files m (by simp)
    obtain ⟨p, hp0, hp, -⟩ := rel_place (cwd := cwd) hr
    have hp' : PyPath.resolve cwd (PyPath.parse m.name) = p := hp
    obtain ⟨hnone, hblock⟩ := h.free m (by simp)
    rw [hp] at hnone hblock
    rcases nil_or_snoc p with h0 | ⟨d, n, rfl⟩
    · exact absurd h0 hp0
    rw [List.dropLast_concat] at hblock
    obtain ⟨fs1, a1, a2, a3⟩ := (mkdirs_spec ht d).1 hblock
    have hnp : ¬ (d ++ [n]) <+: d := fun hpre => by have := hpre.length_le; simp at this
    have hn1 : fs1.node (d ++ [n]) ≠ some .dir := by rw [a2.2 _ hnp]; exact hnone
    obtain ⟨fs2, b1, b2, b3⟩ := (writeFile_spec a3 (d ++ [n]) (.data b)).1 (by simp) (by rw [List.dropLast_concat]; exact a2.1 d (List.prefix_refl _)) hn1
    have hap := List.pairwise_cons.1 h.apart
    have hother : ∀ q, ¬ q <+: d ++ [n] → fs2.node q = fs.node q := fun q hq => by
      rw [b2.2 q fun he => hq (he ▸ List.prefix_refl _), a2.2 q fun hd => hq (hd.trans (List.prefix_append _ _))]
    have hstep : extractMember cwd m fs = (.ok (), fs2) := by
      simp only [extractMember, hf, if_true, Prog.bind_apply, Prog.ofRes_apply, hb, hp', List.dropLast_concat, a1, b1]
    have hrest : Extractable cwd fs2 zip ms := by
      refine ⟨fun x hx => h.files x (by simp [hx]), fun x hx => ?_, hap.2, fun x hx => h.output x (by simp [hx])⟩
      obtain ⟨x1, x2⟩ := hap.1 x hx
      rw [hp] at x1 x2
      obtain ⟨y1, y2⟩ := h.free x (by simp [hx])
      refine ⟨by rw [hother _ x2]; exact y1, ?_⟩
      rintro ⟨q, c, hq, hc⟩
      by_cases hqp : q <+: d ++ [n]
      · rcases prefix_snoc.1 hqp with hqd | rfl
        · rw [b2.2 q (fun he => hnp (he ▸ hqd)), a2.1 q hqd] at hc
          simp at hc
        · exact x1 (hq.trans (List.dropLast_prefix _))
      · rw [hother q hqp] at hc
        exact y2 ⟨q, c, hq, hc⟩
    obtain ⟨fs', c1, c2, c3⟩ := ih hrest b3
    have hkeep : fs'.node (d ++ [n]) = some (.file (.data b)) := by
      rw [c2.others _ fun x hx => by have := (hap.1 x hx).1; rwa [hp] at this]
      exact b2.1
    refine ⟨fs', by simp only [extractAll, Prog.bind_apply, hstep, c1], ⟨?_, ?_, ?_⟩, c3⟩
    · intro x hx
      rcases List.mem_cons.1 hx with rfl | hx
      · exact ⟨b, hb, by rw [hp]; exact hkeep⟩
      · exact c2.files x hx
    · intro x hx q hq hqn
      rcases List.mem_cons.1 hx with rfl | hx
      · rw [hp] at hq hqn
        exact c3.dir_of_prefix hq hqn (by rw [hkeep]; simp)
      · exact c2.dirs x hx q hq hqn
    · intro q hq
      rw [c2.others q fun x hx => hq x (by simp [hx])]
      exact hother q (by have := hq m (by simp); rwa [hp] at this)

/-- Packing and removing. -/
theorem pack_spec (hfiles : ∀ m ∈ ms, m.isFile = true ∧ ∃ r, Rel m r)
    (hap : ms.Pairwise fun m m' => ¬ memberPlace cwd m <+: memberPlace cwd m' ∧ ¬ memberPlace cwd m' <+: memberPlace cwd m)
    (hd : ∀ m ∈ ms, ∃ b, m.data = .ok b ∧ fs.node (memberPlace cwd m) = some (.file (.data b))) (ht : fs.Tree) (a : Zip.Archive) :
    ∃ fs' A, packAt cwd ms a fs = ((a ++ A, none), fs') ∧ Copies ms A ∧ fs'.Tree ∧
      (∀ m ∈ ms, fs'.node (memberPlace cwd m) = none) ∧ ∀ q, (∀ m ∈ ms, q ≠ memberPlace cwd m) → fs'.node q = fs.node q := by
  induction ms generalizing fs a with
  | nil => exact ⟨fs, [], by simp [packAt], .nil, ht, by simp, fun _ _ => rfl⟩
  | cons m ms ih =>
    obtain ⟨hf, r, hr⟩ := hfiles m (by simp)
    obtain ⟨p, hp0, hp, harc, hnul⟩ := rel_place (cwd := cwd) hr
    have hp' : PyPath.resolve cwd (PyPath.parse m.name) = p := hp
    obtain ⟨b, hb, hnode⟩ := hd m (by simp)
    rw [hp] at hnode
    have hap := List.pairwise_cons.1 hap
    have hrm : ∀ q, q ≠ p → (fs.eraseTree p).node q = fs.node q := by
      intro q hq
      rw [FS.node_eraseTree _ _ hp0]
      split
      · rename_i hpre
        by_contra hne
        have := ht.dir_of_prefix hpre hq.symm (Ne.symm hne)
        rw [hnode] at this; simp at this
      · rfl
    have hrm0 : (fs.eraseTree p).node p = none := by rw [FS.node_eraseTree _ _ hp0, if_pos (List.prefix_refl _)]
    obtain ⟨fs', A, c1, c2, c3, c4, c5⟩ := ih (fs := fs.eraseTree p) (fun x hx => hfiles x (by simp [hx])) hap.2 (fun x hx => by
      obtain ⟨b', h1, h2⟩ := hd x (by simp [hx])
      refine ⟨b', h1, ?_⟩
      rw [hrm _ fun he => (hap.1 x hx).1 (by rw [hp, he])]
      exact h2) (FS.tree_eraseTree ht hp0) (a ++ [(m.name, b)])
    refine ⟨fs', (m.name, b) :: A, ?_, .cons ⟨rfl, hb⟩ c2, c3, ?_, ?_⟩
    · rw [packAt]
      simp only [hf, if_true, Prog.bind_apply, hp', DirToStore.readData_data hnode, Prog.pure_apply, osRemove, Prog.call, hnode, harc, Zip.writestr, Zip.entryName_id hnul, c1]
      simp
    · intro x hx
      rcases List.mem_cons.1 hx with rfl | hx
      · rw [hp, c5 _ fun y hy he => (hap.1 y hy).1 (by rw [hp, he])]
        exact hrm0
      · exact c4 x hx
    · intro q hq
      rw [c5 q fun x hx => hq x (by simp [hx])]
      exact hrm q (by have := hq m (by simp); rwa [hp] at this)

/-- Without streaming.  If the members are files which can be extracted, the archive has exactly one entry for each of them, large or not, in
their order, with their contents; the extracted files are removed again, but not their directories.  (A file that was at the place of a member
is lost.  The tar file must not be one of them.) -/
theorem C84_dont_stream (hs : args.dontStream = true) (hw : Writable fs (zipPlace cwd args)) (ht : IsTar untar fs (tarPlace cwd args) ms none)
    (he : Extractable cwd fs (zipPlace cwd args) ms) (_hin : ∀ m ∈ ms, memberPlace cwd m ≠ tarPlace cwd args) :
    ∃ fs' A, main untar cwd args fs = (.ok (), fs') ∧ fs'.node (zipPlace cwd args) = some (.file (.zip A)) ∧ Copies ms A ∧
      OnlyDirs cwd ms fs (zipPlace cwd args) fs' := by
  have hp := C84_places cwd args
  obtain ⟨fs1, a1, a2, a3⟩ := main_start untar cwd args hw
  have hopen := openTar_ok (isTar_other hp.1 a1 ht)
  have hzne : ∀ m ∈ ms, ∀ q, q <+: memberPlace cwd m → q ≠ zipPlace cwd args := fun m hm q hq h => he.output m hm (h ▸ hq)
  have he1 : Extractable cwd fs1 (zipPlace cwd args) ms := by
    refine ⟨he.files, fun m hm => ⟨?_, ?_⟩, he.apart, he.output⟩
    · rw [a1.2 _ (hzne m hm _ (List.prefix_refl _))]; exact (he.free m hm).1
    · rintro ⟨q, c, hq, hc⟩
      rw [a1.2 _ (hzne m hm _ (hq.trans (List.dropLast_prefix _)))] at hc
      exact (he.free m hm).2 ⟨q, c, hq, hc⟩
  obtain ⟨fs2, b1, b2, b3⟩ := extract_spec he1 a2
  obtain ⟨fs3, A, c1, c2, c3, c4, c5⟩ := pack_spec (fun m hm => ⟨(he.files m hm).1, (he.files m hm).2.2⟩) he.apart b2.files b3 []
  have hz3 : fs3.node (zipPlace cwd args) = some (.file (.data .empty)) := by
    rw [c5 _ fun m hm h => hzne m hm _ (List.prefix_refl _) h.symm, b2.others _ fun m hm h => hzne m hm _ h rfl]
    exact a1.1
  have hconv : convertAt untar cwd args (tarPlace cwd args) fs1 = ((A, none), fs3) := by
    simp only [convertAt, hopen, hs, if_true, b1, c1, List.nil_append]
  obtain ⟨fs', d1, d2⟩ := main_end hp.2 hz3 c3 untar cwd args _ hconv
  have hout : ∀ m ∈ ms, ∀ m' ∈ ms, memberPlace cwd m <+: memberPlace cwd m' → memberPlace cwd m = memberPlace cwd m' := by
    intro m hm m' hm' hpre
    refine List.Pairwise.forall_of_forall_of_flip (R := fun m m' => memberPlace cwd m <+: memberPlace cwd m' → memberPlace cwd m = memberPlace cwd m')
      (fun _ _ _ => rfl) (he.apart.imp fun h h' => absurd h' h.1) (he.apart.imp fun h h' => absurd h' h.2) hm hm' hpre
  refine ⟨fs', A, by rw [a3, d1]; rfl, d2.1, c2, ?_, ?_, ?_⟩
  · intro m hm q hq hqn
    rw [d2.2 q (hzne m hm q hq), c5 q fun m' hm' h => hqn ((h.trans (hout m' hm' m hm (h ▸ hq)))), b2.dirs m hm q hq hqn]
  · intro m hm
    rw [d2.2 _ (hzne m hm _ (List.prefix_refl _)), c4 m hm]
  · intro q hq hno
    rw [d2.2 q hq, c5 q fun m hm h => hno ⟨m, hm, h ▸ List.prefix_refl _⟩, b2.others q fun m hm h => hno ⟨m, hm, h⟩, a1.2 q hq]

end TarToZip

namespace TarToZipExample
open TarToZip

def cwd : PyPath := ⟨['/'], ["w".toList]⟩
def file (n : String) (size : Nat) (b : Bytes) : Member := ⟨n.toList, true, size, .ok b⟩
def folder (n : String) : Member := ⟨n.toList, false, 0, .ok ⟨#[]⟩⟩
/-- The members of the tar file: a directory, files in it, one of them large. -/
def members : List Member := [folder "d", file "d/a" 3 ⟨#[1, 2, 3]⟩, file "d/big" 3000000000 ⟨#[4]⟩, file "c" 1 ⟨#[5]⟩]
def untar (ms : List Member) : Bytes → Res (List Member × Option Exc) := fun _ => .ok (ms, none)
def args (dont om : Bool) : Args := ⟨"in.tar".toList, dont, om, 2⟩
/-- The tar file and an older archive. -/
def fs (rest : FS) : FS := [(["w".toList], .dir), (["w".toList, "in.tar".toList], .file (.data ⟨#[9]⟩)),
  (["w".toList, "in.zip".toList], .file (.zip [("old".toList, ⟨#[7]⟩)]))] ++ rest

/-- The archive that is there afterwards. -/
def zipOf (f : FS) : Zip.Archive := match f.node ["w".toList, "in.zip".toList] with | some (.file (.zip a)) => a | _ => []
def errorOf (r : Res Unit × FS) : Option Exc := match r.1 with | .ok _ => none | .error e => some e

theorem places (d o : Bool) : zipPlace cwd (args d o) = ["w".toList, "in.zip".toList] ∧ tarPlace cwd (args d o) = ["w".toList, "in.tar".toList] := by
  cases d <;> cases o <;> decide +kernel

theorem writable (d o : Bool) : Writable (fs []) (zipPlace cwd (args d o)) where
  tree := tree_of_check (by decide +kernel)
  parent := by rw [(places d o).1, ← FS.isDir_iff]; decide +kernel
  free := by rw [(places d o).1]; exact not_dir_of_check (by decide +kernel)

theorem isTar (d o : Bool) (ms : List Member) : IsTar (untar ms) (fs []) (tarPlace cwd (args d o)) ms none := by
  rw [(places d o).2]
  exact ⟨⟨#[9]⟩, rfl, rfl⟩

/-- Streaming, without the large file. -/
example : ∃ fs' A, main (untar members) cwd (args false true) (fs []) = (.ok (), fs') ∧ (fs []).WithFile (zipPlace cwd (args false true)) (.zip A) fs' ∧
    Copies (members.filter (Kept (args false true))) A :=
  (C84_stream rfl (writable _ _) (isTar _ _ _) (by decide)).1 fun m hm _ => by
    simp only [members, List.mem_cons, List.not_mem_nil, or_false] at hm
    rcases hm with rfl | rfl | rfl | rfl <;> exact ⟨_, rfl⟩
example : zipOf (main (untar members) cwd (args false true) (fs [])).2 = [("d/a".toList, ⟨#[1, 2, 3]⟩), ("c".toList, ⟨#[5]⟩)] := by decide +kernel
example : (zipOf (main (untar members) cwd (args false false) (fs [])).2).map (·.1) = ["d/a".toList, "d/big".toList, "c".toList] := by decide +kernel

/-- A damaged member. -/
def damaged : List Member := [file "c" 1 ⟨#[5]⟩, ⟨"d".toList, true, 2, .error .ioError⟩, file "e" 1 ⟨#[6]⟩]
example : ∃ fs' A, main (untar damaged) cwd (args false true) (fs []) = (.error .ioError, fs') ∧
    (fs []).WithFile (zipPlace cwd (args false true)) (.zip A) fs' ∧ Copies ([file "c" 1 ⟨#[5]⟩].filter (Kept (args false true))) A :=
  (C84_stream rfl (writable _ _) (isTar _ _ _) (by decide)).2 _ _ [file "e" 1 ⟨#[6]⟩] _ rfl (fun m hm _ => by
    simp only [List.mem_cons, List.not_mem_nil, or_false] at hm
    subst hm; exact ⟨_, rfl⟩) ⟨rfl, fun _ => by norm_num [args]⟩ rfl

/-- The last member of a name counts. -/
example : Zip.readEntry [("a".toList, ⟨#[1]⟩), ("a".toList, ⟨#[2]⟩)] "a".toList = .ok ⟨#[2]⟩ :=
  (C84_reading (ms := [file "a" 1 ⟨#[1]⟩, file "a" 1 ⟨#[2]⟩]) (.cons ⟨rfl, rfl⟩ (.cons ⟨rfl, rfl⟩ .nil)) _ _).2
    ⟨[file "a" 1 ⟨#[1]⟩], _, [], rfl, rfl, rfl, by simp⟩

/-- There is no tar file: the old archive is lost nevertheless. -/
theorem _root_.Vista.TarToZip.C84_no_tar_counterexample :
    ∃ (args : Args) (f : FS), f.node (tarPlace cwd args) = none ∧ f.node (zipPlace cwd args) = some (.file (.zip [("old".toList, ⟨#[7]⟩)])) ∧
      ∃ f', main (untar members) cwd args f = (.error .ioError, f') ∧ f'.node (zipPlace cwd args) = some (.file (.zip [])) := by
  let f : FS := [(["w".toList], .dir), (["w".toList, "in.zip".toList], .file (.zip [("old".toList, ⟨#[7]⟩)]))]
  have hw : Writable f (zipPlace cwd (args false false)) := by
    refine ⟨tree_of_check (by decide +kernel), ?_, ?_⟩
    · rw [(places _ _).1, ← FS.isDir_iff]; decide +kernel
    · rw [(places _ _).1]; exact not_dir_of_check (by decide +kernel)
  have ht : f.node (tarPlace cwd (args false false)) = none := by rw [(places _ _).2]; rfl
  obtain ⟨f', h1, h2⟩ := (C84_no_tar (untar := untar members) hw).1 (.inl ht)
  exact ⟨args false false, f, ht, by rw [(places _ _).1]; rfl, f', h1, h2.1⟩

/-- The place of the output is a directory. -/
example : main (untar members) cwd (args false false) [(["w".toList], .dir), (["w".toList, "in.zip".toList], .dir)] =
    (.error .ioError, [(["w".toList], .dir), (["w".toList, "in.zip".toList], .dir)]) :=
  C84_bad_output (tree_of_check (by decide +kernel)) (.inl (by rw [(places _ _).1, ← FS.isDir_iff]; decide +kernel))

/-- Without streaming. -/
def plain : List Member := [file "d/a" 3 ⟨#[1, 2, 3]⟩, file "d/big" 3000000000 ⟨#[4]⟩, file "c" 1 ⟨#[5]⟩]
theorem rel : ∀ m ∈ plain, ∃ r, Rel m r := by
  intro m hm
  simp only [plain, List.mem_cons, List.not_mem_nil, or_false] at hm
  rcases hm with rfl | rfl | rfl
  · exact ⟨["d".toList, "a".toList], by decide +kernel, by decide, by decide⟩
  · exact ⟨["d".toList, "big".toList], by decide +kernel, by decide, by decide⟩
  · exact ⟨["c".toList], by decide +kernel, by decide, by decide⟩

theorem extractable : Extractable cwd (fs []) (zipPlace cwd (args true true)) plain where
  files m hm := by
    refine ⟨?_, ?_, rel m hm⟩ <;>
    · simp only [plain, List.mem_cons, List.not_mem_nil, or_false] at hm
      rcases hm with rfl | rfl | rfl <;> first | rfl | exact ⟨_, rfl⟩
  free m hm := by
    simp only [plain, List.mem_cons, List.not_mem_nil, or_false] at hm
    rcases hm with rfl | rfl | rfl <;> exact ⟨not_dir_of_check (by decide +kernel), not_blocked_of_check (by decide +kernel)⟩
  apart := by decide +kernel
  output := by decide +kernel

example : ∃ fs' A, main (untar plain) cwd (args true true) (fs []) = (.ok (), fs') ∧
    fs'.node (zipPlace cwd (args true true)) = some (.file (.zip A)) ∧ Copies plain A ∧ OnlyDirs cwd plain (fs []) (zipPlace cwd (args true true)) fs' :=
  C84_dont_stream rfl (writable _ _) (isTar _ _ _) extractable (by decide +kernel)

/-- Without streaming, a file of the working directory that happens to have the name of a member is overwritten and then removed. -/
theorem _root_.Vista.TarToZip.C84_overwrites_counterexample :
    ∃ (ms : List Member) (f : FS), errorOf (main (untar ms) cwd (args true false) f) = none ∧
      f.isFile ["w".toList, "c".toList] = true ∧ (main (untar ms) cwd (args true false) f).2.isFile ["w".toList, "c".toList] = false :=
  ⟨plain, fs [(["w".toList, "c".toList], .file (.data ⟨#[8]⟩))], by decide +kernel, by decide +kernel, by decide +kernel⟩

/-- Without streaming, a directory among the members is an `OSError`, the members after it are missing in the archive, and the files
extracted for them stay. -/
theorem _root_.Vista.TarToZip.C84_directory_counterexample :
    ∃ ms : List Member, errorOf (main (untar ms) cwd (args true false) (fs [])) = some .ioError ∧
      zipOf (main (untar ms) cwd (args true false) (fs [])).2 = [] ∧
      (main (untar ms) cwd (args true false) (fs [])).2.isFile ["w".toList, "d".toList, "a".toList] = true ∧
      errorOf (main (untar ms) cwd (args false false) (fs [])) = none :=
  ⟨members, by decide +kernel, by decide +kernel, by decide +kernel, by decide +kernel⟩

end TarToZipExample
end Vista
