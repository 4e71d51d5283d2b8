import Verif.Proofs.CrashConvert
import Verif.Props.CrashScripts

set_option linter.unusedSectionVars false
set_option linter.unusedSimpArgs false

/-!
# C103: conversions that are killed
-/
namespace Vista

/-! ## `tar_gz_to_zip.py` -/

namespace TarToZip
variable {untar : Bytes → Res (List Member × Option Exc)} {cwd : PyPath} {args : Args} {ms : List Member} {fin : Option Exc} {fs s : FS}

/-- If the uninterrupted program leaves a state with the invariant, so does the killed one. -/
theorem keeps_main {ms' : List Member} {good : Zip.Archive → Prop} (ha : Apart cwd ms' (zipPlace cwd args))
    (hopen : ∀ s, TarTorn cwd ms' fs (zipPlace cwd args) good s → IsTar untar s (tarPlace cwd args) ms fin)
    (hms : args.dontStream = true → ms = ms' ∧ ∀ m ∈ ms, memberPlace cwd m ≠ [])
    (h : TarTorn cwd ms' fs (zipPlace cwd args) good s) (hfin : (main untar cwd args s).2.Tree → TarTorn cwd ms' fs (zipPlace cwd args) good (main untar cwd args s).2) :
    KeepsAt (TarTorn cwd ms' fs (zipPlace cwd args) good) (mainK untar cwd args) s := by
  rw [← mainK_run] at hfin
  unfold mainK at hfin ⊢
  refine KeepsAt.bind (keeps_removeExisting ha h) fun u1 s1 e1 h1 => ?_
  rw [bind_run_ok e1] at hfin
  refine KeepsAt.bind (keeps_createZip ha h1) fun u2 s2 e2 h2 => ?_
  rw [bind_run_ok e2] at hfin
  have conv : KeepsAt (TarTorn cwd ms' fs (zipPlace cwd args) good) (convertK untar cwd args (tarPlace cwd args)) s2 := by
    have ho := openTar_ok (hopen s2 h2)
    unfold convertK
    refine KeepsAt.bind (KeepsAt.attempt (.reading h2 (by rw [ho]))) fun r s3 e3 h3 => ?_
    have : (Except.ok (openTar untar (tarPlace cwd args) s2).1, (openTar untar (tarPlace cwd args) s2).2) = (Except.ok r, s3) := e3
    rw [ho] at this
    cases this
    dsimp only
    split
    · rename_i hd
      obtain ⟨rfl, hne⟩ := hms hd
      refine KeepsAt.bind (KeepsAt.attempt (keeps_extractAll ha fin ms (fun m hm => ⟨hm, hne m hm⟩) h3)) fun r s4 _ h4 => ?_
      cases r with
      | error e => exact .pure _ h4
      | ok _ => exact keeps_pack ha ms (fun m hm => hm) [] h4
    · exact .pure _ h3
  refine KeepsAt.bind ⟨conv.1, ?_⟩ fun r s3 e3 h3 => ?_
  · rintro s' ⟨s0, h0, rfl | ⟨b, rfl⟩⟩
    · exact conv.2 _ h0
    · exact keeps_writeZip ha (conv.2 _ h0) b
  rw [bind_run_ok e3] at hfin
  have hend : ((finishK (zipPlace cwd args) r).run s3).2 = (writeFile (zipPlace cwd args) (.zip r.1) s3).2 := by
    obtain ⟨a, e⟩ := r
    unfold finishK
    rcases hw : writeFile (zipPlace cwd args) (.zip a) s3 with ⟨e' | u, s4⟩
    · rw [bind_run_error (x := Killable.atomic (writeFile (zipPlace cwd args) (.zip a))) (show (Killable.atomic (writeFile (zipPlace cwd args) (.zip a))).run s3 = (Except.error e', s4) from hw)]
    · rw [bind_run_ok (x := Killable.atomic (writeFile (zipPlace cwd args) (.zip a))) (show (Killable.atomic (writeFile (zipPlace cwd args) (.zip a))).run s3 = (Except.ok u, s4) from hw)]
      cases e <;> rfl
  replace hfin : ((finishK (zipPlace cwd args) r).run s3).2.Tree → TarTorn cwd ms' fs (zipPlace cwd args) good ((finishK (zipPlace cwd args) r).run s3).2 := hfin
  show TarTorn cwd ms' fs (zipPlace cwd args) good ((finishK (zipPlace cwd args) r).run s3).2 ∧ _
  rw [hend] at hfin ⊢
  replace hfin := hfin (writeFile_touches (F := fun _ => True) (D := fun _ => True) (C := fun _ _ => True) h3.tree trivial trivial).tree
  refine ⟨hfin, ?_⟩
  rintro s' ((rfl | rfl) | ⟨u, s4, h4, h5⟩)
  · exact h3
  · exact hfin
  · replace h4 : writeFile (zipPlace cwd args) (.zip r.1) s3 = (.ok u, s4) := h4
    rw [h4] at hfin
    obtain ⟨a, e⟩ := r
    have : s' = s4 := by cases e <;> exact h5
    rw [this]; exact hfin

theorem TarTorn.writable {good : Zip.Archive → Prop} {zip : Loc} (h : TarTorn cwd ms fs zip good s) (hz : zip ≠ []) (hw : Writable fs zip)
    (hfree : ∀ m ∈ ms, fs.node (memberPlace cwd m) ≠ some .dir) : Writable s zip := by
  refine ⟨h.tree, ?_, ?_⟩
  · by_cases hp : ∃ m ∈ ms, zip.dropLast <+: memberPlace cwd m
    · obtain ⟨m, hm, hpre⟩ := hp
      have hne : zip.dropLast ≠ memberPlace cwd m := fun e => hfree m hm (e ▸ hw.parent)
      rcases h.dirs m hm _ hpre hne with e | ⟨e, -⟩
      · rw [e]; exact hw.parent
      · rw [hw.parent] at e; cases e
    · rw [h.others _ (dropLast_ne hz) hp]; exact hw.parent
  · rcases h.output with e | e | ⟨b, e⟩ | ⟨A, -, e⟩
    · rw [e]; exact hw.free
    · rw [e]; simp
    · rw [e]; simp
    · rw [e]; simp

/-- Streaming, killed any number of times at any point: nothing but the zip file has changed, which is as before, or missing, or no zip file, or
what it should be; and the next run that is not killed gives the result, and leaves the zip file, that the first would have. -/
theorem C103_stream (hs : args.dontStream = false) (hw : Writable fs (zipPlace cwd args)) (ht : IsTar untar fs (tarPlace cwd args) ms fin) :
    ∃ r A fs', main untar cwd args fs = (r, fs') ∧ fs.WithFile (zipPlace cwd args) (.zip A) fs' ∧
      ∀ s, KilledRuns (mainK untar cwd args) fs s → TarTorn cwd [] fs (zipPlace cwd args) (fun A' => A' = A) s ∧
        ∃ s', main untar cwd args s = (r, s') ∧ fs.WithFile (zipPlace cwd args) (.zip A) s' := by
  have hp := C84_places cwd args
  cases he : streamMembers args.omitLargeFiles (args.largeFileCutoff * 1000000000) fin ms [] with
  | mk A e =>
    obtain ⟨fs', a1, a2⟩ := stream_main hs hw ht he
    have ha : Apart cwd [] (zipPlace cwd args) := ⟨by simp, by simp, by simp⟩
    have hopen : ∀ s, TarTorn cwd [] fs (zipPlace cwd args) (fun A' => A' = A) s → IsTar untar s (tarPlace cwd args) ms fin := by
      intro s h
      obtain ⟨b, b1, b2⟩ := ht
      exact ⟨b, by rw [h.others _ hp.1.symm (by simp)]; exact b1, b2⟩
    have again : ∀ s, TarTorn cwd [] fs (zipPlace cwd args) (fun A' => A' = A) s →
        ∃ s', main untar cwd args s = (outcome e, s') ∧ s.WithFile (zipPlace cwd args) (.zip A) s' :=
      fun s h => stream_main hs (h.writable hp.2 hw (by simp)) (hopen s h) he
    refine ⟨outcome e, A, fs', a1, a2, fun s hk => ?_⟩
    have torn : TarTorn cwd [] fs (zipPlace cwd args) (fun A' => A' = A) s := by
      induction hk with
      | none => exact .start hw.tree
      | @again s s' _ hk ih =>
        refine (keeps_main ha hopen (fun h => by rw [hs] at h; cases h) ih ?_).2 s' hk
        obtain ⟨s2, b1, b2⟩ := again s ih
        rw [b1]
        exact fun htree => ih.setZip ha htree b2.2 (.inr (.inr ⟨A, rfl, b2.1⟩))
    obtain ⟨s', b1, b2⟩ := again s torn
    exact ⟨torn, s', b1, b2.1, fun q hq => by rw [b2.2 q hq]; exact torn.others q hq (by simp)⟩

/-- Without streaming, killed any number of times at any point: the tar file is as before; what is left of the members in the working directory
are directories, and files with beginnings of them; and the next run that is not killed puts all members into the zip file and removes the files. -/
theorem C103_dont_stream (hs : args.dontStream = true) (hw : Writable fs (zipPlace cwd args)) (ht : IsTar untar fs (tarPlace cwd args) ms none)
    (he : Extractable cwd fs (zipPlace cwd args) ms) (hin : ∀ m ∈ ms, memberPlace cwd m ≠ tarPlace cwd args)
    (hk : KilledRuns (mainK untar cwd args) fs s) :
    TarTorn cwd ms fs (zipPlace cwd args) (Copies ms) s ∧ s.node (tarPlace cwd args) = fs.node (tarPlace cwd args) ∧
      ∃ s' A, main untar cwd args s = (.ok (), s') ∧ s'.node (zipPlace cwd args) = some (.file (.zip A)) ∧ Copies ms A ∧
        OnlyDirs cwd ms fs (zipPlace cwd args) s' := by
  have hp := C84_places cwd args
  have hne : ∀ m ∈ ms, memberPlace cwd m ≠ [] := fun m hm e => (he.free m hm).1 (by rw [e, FS.node_nil])
  have ha : Apart cwd ms (zipPlace cwd args) := by
    refine ⟨fun m hm => (he.files m hm).1, fun m hm m' hm' hpre => ?_, he.output⟩
    exact List.Pairwise.forall_of_forall_of_flip (R := fun m m' => memberPlace cwd m <+: memberPlace cwd m' → m = m')
      (fun _ _ _ => rfl) (he.apart.imp fun h h' => absurd h' h.1) (he.apart.imp fun h h' => absurd h' h.2) hm hm' hpre
  have htar : ∀ s, TarTorn cwd ms fs (zipPlace cwd args) (Copies ms) s → s.node (tarPlace cwd args) = fs.node (tarPlace cwd args) := by
    intro s h
    by_cases hpre : ∃ m ∈ ms, tarPlace cwd args <+: memberPlace cwd m
    · obtain ⟨m, hm, hpre⟩ := hpre
      rcases h.dirs m hm _ hpre (hin m hm).symm with e | ⟨e, -⟩
      · exact e
      · obtain ⟨b, b1, -⟩ := ht
        rw [b1] at e; cases e
    · exact h.others _ hp.1.symm hpre
  have hopen : ∀ s, TarTorn cwd ms fs (zipPlace cwd args) (Copies ms) s → IsTar untar s (tarPlace cwd args) ms none := by
    intro s h
    obtain ⟨b, b1, b2⟩ := ht
    exact ⟨b, by rw [htar s h]; exact b1, b2⟩
  have again : ∀ s, TarTorn cwd ms fs (zipPlace cwd args) (Copies ms) s →
      ∃ s' A, main untar cwd args s = (.ok (), s') ∧ s'.node (zipPlace cwd args) = some (.file (.zip A)) ∧ Copies ms A ∧
        OnlyDirs cwd ms s (zipPlace cwd args) s' := by
    intro s h
    refine C84_dont_stream hs (h.writable hp.2 hw fun m hm => (he.free m hm).1) (hopen s h) ⟨he.files, fun m hm => ⟨?_, ?_⟩, he.apart, he.output⟩ hin
    · rcases h.members m hm with e | e | ⟨b, more, -, e⟩
      · rw [e]; exact (he.free m hm).1
      · rw [e]; simp
      · rw [e]; simp
    · rintro ⟨q, c, hq, hc⟩
      have hqne : q ≠ memberPlace cwd m := by
        rintro rfl
        have := hq.length_le
        have := List.length_pos_of_ne_nil (hne m hm)
        simp at *; omega
      rcases h.dirs m hm q (hq.trans (List.dropLast_prefix _)) hqne with e | ⟨-, e⟩
      · exact (he.free m hm).2 ⟨q, c, hq, e ▸ hc⟩
      · rw [e] at hc; cases hc
  have torn : TarTorn cwd ms fs (zipPlace cwd args) (Copies ms) s := by
    induction hk with
    | none => exact .start hw.tree
    | @again s s' _ hk ih =>
      refine (keeps_main ha hopen (fun _ => ⟨rfl, hne⟩) ih ?_).2 s' hk
      obtain ⟨s2, A, b1, b2, b3, b4, b5, b6⟩ := again s ih
      rw [b1]
      refine fun htree => ⟨htree, .inr (.inr (.inr ⟨A, b3, b2⟩)), fun m hm q hq hq' => ?_, fun m hm => .inr (.inl (b5 m hm)), fun q hq hq' => ?_⟩
      · cases hn : fs.node q with
        | none => exact .inr ⟨rfl, b4 m hm q hq hq'⟩
        | some nd =>
          cases nd with
          | dir => exact .inl (b4 m hm q hq hq')
          | file c =>
            refine absurd ⟨q, c, ?_, hn⟩ (he.free m hm).2
            rcases nil_or_snoc (memberPlace cwd m) with h0 | ⟨d, n, h0⟩
            · exact absurd h0 (hne m hm)
            · rw [h0] at hq hq' ⊢
              rw [List.dropLast_concat]
              exact (prefix_snoc.1 hq).resolve_right hq'
      · rw [b6 q hq hq']; exact ih.others q hq hq'
  refine ⟨torn, htar s torn, ?_⟩
  obtain ⟨s2, A, b1, b2, b3, b4, b5, b6⟩ := again s torn
  exact ⟨s2, A, b1, b2, b3, b4, b5, fun q hq hq' => by rw [b6 q hq hq']; exact torn.others q hq hq'⟩

end TarToZip

/-! ## `directory_to_key_value_store.py` -/

namespace DirToStore
open Params (PathIs)
variable {order : List Str → List Str}

theorem copyZip_loc (key : Loc → Str) (fs : FS) (qs : List Loc) (o : ZipOut) : (copyZip key fs qs o).1.loc = o.loc := by
  induction qs generalizing o with
  | nil => rfl
  | cons q qs ih =>
    unfold copyZip
    by_cases hf : fs.isFile q = true
    · rw [if_pos hf]
      split
      · rfl
      · split
        · rw [ih, put_loc]
        · rfl
    · rw [if_neg hf]; exact ih o

theorem mainK_zip_safe {E : FromParams.Env} {scan : FS → Loc → List Loc} {p : Params} {d l : Loc} {strip : Bool} (hin : PathIs E.cwd p "input_directory".toList d)
    (hkey : Asks p strip) (hout : Output E p "zip".toList l) {fs : FS} (ht : fs.Tree) (hd : fs.node d = some .dir) (hfree : ¬ fs.Blocked l.dropLast) :
    SafeF (fun q => q = l) (fun q => q <+: l.dropLast) Raw (mainK E order scan p) fs := by
  obtain ⟨ns, mods, hT, hl⟩ := hout.typed
  have hwf : p.WF := hT.wf
  have e1 := (Params.C73_existing_directory E.cwd p hwf _ fs).1 d hin hd
  have e2 := (keyFunction_spec hwf).1 strip hkey
  obtain ⟨fs1, a2, a3, -, a1⟩ := (FromParams.C74_zip_sink E _ (sane_of_output hout.py hout.globals p d (ruleOf strip)) p _ ns mods (FromParams.typed_mono hT _) fs ht).1
    l hl hfree
  unfold mainK
  refine SafeF.bind (Safe.reading (by rw [e1])) fun d' fs2 h2 => ?_
  replace h2 : p.existingDirectory E.cwd "input_directory".toList fs = (.ok d', fs2) := h2
  rw [e1] at h2
  cases h2
  refine SafeF.bind (Safe.ofRes _ _) fun key fs2 h2 => ?_
  replace h2 : Prog.ofRes (keyFunction p) fs = (.ok key, fs2) := h2
  rw [e2] at h2
  cases h2
  refine SafeF.bind (Safe.makingDirs (fun _ h => h) hfree (by rw [a1]; exact a2) (by rw [a1]; exact a3)) fun o fs2 h2 => ?_
  replace h2 : FromParams.byteSink E p "output".toList (some (locals p d (ruleOf strip))) fs = (.ok o, fs2) := h2
  rw [a1] at h2
  cases h2
  exact fill_safe order l (fun fs o => copyZip (ruleOf strip).apply fs (scan fs d) o) (fun fs o => copyZip_loc _ _ _ _) a3

section
variable {fs s : FS} {d : Loc} {strip : Bool}

theorem hasFile_same (h : ∀ q, d <+: q → s.node q = fs.node q) (k : Str) (b : Bytes) : HasFile s d strip k b ↔ HasFile fs d strip k b := by
  constructor <;>
  · rintro ⟨q, n, h1, h2, h3⟩
    first
    | exact ⟨q, n, h1, by rw [← h _ h1]; exact h2, h3⟩
    | exact ⟨q, n, h1, by rw [h _ h1]; exact h2, h3⟩

theorem distinct_same (h : ∀ q, d <+: q → s.node q = fs.node q) : Distinct s d strip ↔ Distinct fs d strip := by
  constructor <;>
  · intro hD q q' n n' c c' k h1 h2 h3 h4
    first
    | exact hD q q' n n' c c' k h1 h2 (by rw [← h _ h1]; exact h3) (by rw [← h _ h2]; exact h4)
    | exact hD q q' n n' c c' k h1 h2 (by rw [h _ h1]; exact h3) (by rw [h _ h2]; exact h4)

theorem allFiles_same (h : ∀ q, d <+: q → s.node q = fs.node q) {Good : Str → Prop} (ha : AllFiles fs d strip Good) : AllFiles s d strip Good :=
  fun q n c h1 h2 => ha q n c h1 (by rw [← h _ h1]; exact h2)

end

/-- A zip store as output, killed any number of times at any point: the output is as before, no zip file, or (if no two files have the same key)
has an entry for every file; nothing else has changed, but for directories; and the next run that is not killed does what the first would have
done. -/
theorem C103_zip (E : FromParams.Env) (horder : ∀ l, (order l).Perm l) (scan : FS → Loc → List Loc) (hscan : Scans scan) (p : Params)
    (d l : Loc) (strip : Bool) (hin : PathIs E.cwd p "input_directory".toList d) (hkey : Asks p strip) (hout : Output E p "zip".toList l)
    (fs : FS) (ht : fs.Tree) (hd : fs.node d = some .dir) (hall : AllFiles fs d strip PlainKey)
    (hfree : ¬ fs.Blocked l.dropLast) (hdir : fs.node l ≠ some .dir) (hapart : ¬ d <+: l) :
    (Distinct fs d strip → ∃ M, (∀ k b, M k = some b ↔ HasFile fs d strip k b) ∧ ∀ s, KilledRuns (mainK E order scan p) fs s →
      OneTorn fs l (fun W => W = M) s ∧ ∃ s', main E order scan p s = (.ok (), s') ∧ OneAfter fs l M s') ∧
    (¬ Distinct fs d strip → ∀ s, KilledRuns (mainK E order scan p) fs s →
      OneTorn fs l (fun W => ∀ k b, W k = some b → HasFile fs d strip k b) s ∧
      ∃ s' W, main E order scan p s = (.error .valueError, s') ∧ OneAfter fs l W s' ∧ ∀ k b, W k = some b → HasFile fs d strip k b) := by
  have below : ∀ {good s}, OneTorn fs l good s → ∀ q, d <+: q → s.node q = fs.node q := fun h q hq => h.others q fun hql => hapart (hq.trans hql)
  have after : ∀ {good s s' U}, OneTorn fs l good s → OneAfter s l U s' → OneAfter fs l U s' := fun h b =>
    ⟨b.tree, b.stored, b.dirs, fun q hq => by rw [b.others q hq, h.others q hq]⟩
  have again := fun {good s} (h : OneTorn fs l good s) => C82_zip E horder scan hscan p d l strip hin hkey hout s h.tree
    (by rw [below h d (List.prefix_refl _)]; exact hd) (allFiles_same (below h) hall) (h.free hfree hdir).1 (h.free hfree hdir).2 hapart
  have safe := fun {good s} (h : OneTorn fs l good s) => mainK_zip_safe (order := order) (scan := scan) hin hkey hout h.tree
    (by rw [below h d (List.prefix_refl _)]; exact hd) (h.free hfree hdir).1
  constructor
  · intro hD
    obtain ⟨-, M, -, -, a2⟩ := (C82_zip E horder scan hscan p d l strip hin hkey hout fs ht hd hall hfree hdir hapart).1 hD
    have again' : ∀ s, OneTorn fs l (fun W => W = M) s → ∃ s', main E order scan p s = (.ok (), s') ∧ OneAfter s l M s' := by
      intro s h
      obtain ⟨s', M', b1, b2, b3⟩ := (again h).1 ((distinct_same (below h)).2 hD)
      have : M' = M := by
        funext k
        apply Option.ext
        intro v
        exact (b3 k v).trans ((hasFile_same (below h) k v).trans (a2 k v).symm)
      exact ⟨s', b1, this ▸ b2⟩
    refine ⟨M, a2, fun s hk => ?_⟩
    have torn : OneTorn fs l (fun W => W = M) s := one_killed ht hdir (fun s h => by
      refine ⟨safe h, M, rfl, ?_⟩
      obtain ⟨s', b1, b2⟩ := again' s h
      rw [mainK_run, b1]
      exact b2.stored) hk
    obtain ⟨s', b1, b2⟩ := again' s torn
    exact ⟨torn, s', b1, after torn b2⟩
  · intro hD s hk
    have again' : ∀ s, OneTorn fs l (fun W => ∀ k b, W k = some b → HasFile fs d strip k b) s →
        ∃ s' W, main E order scan p s = (.error .valueError, s') ∧ OneAfter s l W s' ∧ ∀ k b, W k = some b → HasFile fs d strip k b := by
      intro s h
      obtain ⟨s', W, b1, b2, b3⟩ := (again h).2 fun h' => hD ((distinct_same (below h)).1 h')
      exact ⟨s', W, b1, b2, fun k b hW => (hasFile_same (below h) k b).1 (b3 k b hW)⟩
    have torn : OneTorn fs l (fun W => ∀ k b, W k = some b → HasFile fs d strip k b) s := one_killed ht hdir (fun s h => by
      obtain ⟨s', W, b1, b2, b3⟩ := again' s h
      refine ⟨safe h, W, b3, ?_⟩
      rw [mainK_run, b1]
      exact b2.stored) hk
    obtain ⟨s', W, b1, b2, b3⟩ := again' s torn
    exact ⟨torn, s', W, b1, after torn b2, b3⟩

/-! ### A directory as output -/

section
variable {cwd P : PyPath}

theorem putsK_start (st : DirSink) (puts : List (Str × Bytes)) (fs : FS) : (DirSink.putsK cwd st puts).killed fs fs := by
  cases puts with
  | nil => rfl
  | cons e puts => exact .inl (.inl (.inl (.inl rfl)))

theorem copyDirK_killed (key : Loc → Str) (fs : FS) (hempty : fs.EmptyDir (PyPath.resolve cwd P)) (qs : List Loc)
    (hqs : ∀ q ∈ qs, ¬ PyPath.resolve cwd P <+: q ∧ ∀ c, fs.node q = some (.file c) → (∃ b, c = .data b) ∧ FileKey (key q)) (done : List (Str × Bytes))
    (st : DirSink) (fs' s : FS) (hst : DirState cwd P fs done st fs') (hs : (copyDirK cwd key qs st).killed fs' s) :
    (DirSink.putsK cwd st (calls key fs qs)).killed fs' s := by
  induction qs generalizing done st fs' with
  | nil => exact hs
  | cons q qs ih =>
    obtain ⟨hap, hfile⟩ := hqs q (by simp)
    have hqs' : ∀ q ∈ qs, ¬ PyPath.resolve cwd P <+: q ∧ ∀ c, fs.node q = some (.file c) → (∃ b, c = .data b) ∧ FileKey (key q) :=
      fun q' h' => hqs q' (List.mem_cons_of_mem _ h')
    have hsame : fs'.node q = fs.node q := hst.others q fun k _ h => hap (h ▸ List.prefix_append _ _)
    rcases hs with h0 | ⟨x, fs1, h0, hs⟩
    · have : s = fs' := h0
      rw [this]
      exact putsK_start _ _ _
    cases h0
    beta_reduce at hs
    by_cases hf : ∃ c, fs.node q = some (.file c)
    · obtain ⟨c, hc⟩ := hf
      obtain ⟨⟨b, rfl⟩, hk⟩ := hfile c hc
      have hf' : fs'.isFile q = true := (FS.isFile_iff _ _).2 ⟨_, hsame.trans hc⟩
      obtain ⟨s', fs'', a1, a2⟩ := dirSink_puts fs hempty [(key q, b)] (by simpa using hk) done st fs' hst
      have hput : st.put cwd (key q) b fs' = (.ok s', fs'') := by
        unfold DirSink.puts DirSink.putsAt at a1
        rcases hp : st.put cwd (key q) b fs' with ⟨r, g⟩
        rw [hp] at a1
        cases r with
        | ok s1 =>
          simp only [DirSink.putsAt, Prod.mk.injEq, Except.ok.injEq, and_true] at a1
          rw [a1.1, a1.2]
        | error e => simp at a1
      have hcalls : calls key fs (q :: qs) = (key q, b) :: calls key fs qs := by
        simp only [calls, List.filterMap_cons, hc]
      rw [hcalls]
      rw [if_pos hf', readData_data (hsame.trans hc)] at hs
      rcases hs with hs | ⟨r, fs2, h2, hs⟩
      · exact .inl hs
      · refine .inr ⟨r, fs2, h2, ?_⟩
        have h2' : (Except.ok (st.put cwd (key q) b fs').1, (st.put cwd (key q) b fs').2) = (Except.ok r, fs2) := h2
        rw [hput] at h2'
        cases h2'
        exact ih hqs' _ _ _ a2 hs
    · have hf' : fs'.isFile q = false := by
        rw [← Bool.not_eq_true, FS.isFile_iff, hsame]; exact hf
      have hcalls : calls key fs (q :: qs) = calls key fs qs := by
        simp only [calls, List.filterMap_cons]
        split
        · rename_i h
          split at h
          · rfl
          · rfl
        · rename_i h
          split at h
          · rename_i hb; exact absurd ⟨_, hb⟩ hf
          · exact absurd h (by simp)
      rw [hcalls]
      rw [hf'] at hs
      exact ih hqs' _ _ _ hst hs

end

/-- The place of a `path` parameter, as a path. -/
theorem place_spec {E : FromParams.Env} {ns : Params} {l : Loc} (hl : PathIs E.cwd ns "path".toList l) (hnil : l ≠ []) :
    PyPath.resolve E.cwd l.toPath = l ∧ ∃ n, l.toPath.parts.getLast? = some n ∧ n ≠ ['.', '.'] := by
  obtain ⟨s0, -, hl0⟩ := id hl
  obtain ⟨r1, r2⟩ := resolve_parts E.cwd (PyPath.parse s0)
  rw [← hl0] at r1 r2
  refine ⟨resolve_toPath E.cwd r2, ?_⟩
  rcases nil_or_snoc l with h | ⟨r, n, rfl⟩
  · exact absurd h hnil
  · exact ⟨n, by simp [Loc.toPath], fun h => r2 (by rw [h]; simp)⟩

/-- If the output is not an empty directory, the script raises (`ParameterError` if there is no directory, else `OSError`), and changes nothing. -/
theorem C82_not_empty (E : FromParams.Env) (scan : FS → Loc → List Loc) (p : Params) (d l : Loc) (strip : Bool)
    (hin : PathIs E.cwd p "input_directory".toList d) (hkey : Asks p strip) (hout : Output E p "file-map".toList l) (fs : FS) (ht : fs.Tree)
    (hd : fs.node d = some .dir) (hnot : ¬ fs.EmptyDir l) :
    main E order scan p fs = (.error (if fs.isDir l then .ioError else .parameterError), fs) := by
  obtain ⟨ns, mods, hT, hl⟩ := hout.typed
  have hwf : p.WF := hT.wf
  have hbase : main E order scan p fs = (do
      let sink ← FromParams.byteSink E p "output".toList (some (locals p d (ruleOf strip)))
      copyInto E.cwd order scan (ruleOf strip).apply d sink : Prog Unit) fs := by
    simp only [main, Prog.bind_apply, (Params.C73_existing_directory E.cwd p hwf _ fs).1 d hin hd, Prog.ofRes_apply, (keyFunction_spec hwf).1 strip hkey]
  obtain ⟨s1, s2⟩ := FromParams.C74_directory_sink E _ (sane_of_output hout.py hout.globals p d (ruleOf strip)) p _ ns mods (FromParams.typed_mono hT _) fs
  rw [hbase]
  by_cases hdir : fs.isDir l = true
  · rw [if_pos hdir]
    rw [FS.isDir_iff] at hdir
    have hraise : DirSink.enter E.cwd (DirSink.new l.toPath) fs = (.error .ioError, fs) := by
      unfold DirSink.enter DirSink.rmdirPath
      by_cases hnil : l = []
      · subst hnil
        simp only [Prog.bind_apply, DirSink.new, Loc.toPath, true_or, if_true, Prog.raise_apply]
      · obtain ⟨r1, n, r2, r3⟩ := place_spec hl hnil
        have hp : ¬ ((DirSink.new l.toPath).path.parts = [] ∨ (DirSink.new l.toPath).path.parts.getLast? = some ['.', '.']) := by
          rintro (h | h)
          · exact hnil h
          · rw [show (DirSink.new l.toPath).path = l.toPath from rfl, r2] at h
            exact r3 (Option.some.inj h)
        rw [if_neg hp]
        have := (rmdir_spec ht l).2 fun h => hnot h.2
        rw [show (DirSink.new l.toPath).path = l.toPath from rfl]
        simp only [Prog.bind_apply, r1, this]
    simp only [Prog.bind_apply, (s1 l hl hdir).2, copyInto, hraise]
  · rw [if_neg hdir]
    rw [FS.isDir_iff] at hdir
    have : ¬ ∃ l, PathIs E.cwd ns "path".toList l ∧ fs.node l = some .dir := by
      rintro ⟨l', hl', h⟩
      have hns : ns.WF := FromParams.ns_wf hT
      have e1 := ((Params.pathParam_spec E.cwd hns _).1 l').2 hl'
      have e2 := ((Params.pathParam_spec E.cwd hns _).1 l).2 hl
      rw [e1] at e2
      cases e2
      exact hdir h
    obtain ⟨e, he, -, k⟩ := s2 this
    obtain rfl := Params.refused_unique he (Params.refused_path (FromParams.ns_wf hT) hl)
    simp only [Prog.bind_apply, k]

theorem same_of_killed_sink {α : Type} {p : Prog α} {fs s : FS} (ht : fs.Tree) (hp : (p fs).2 = fs) (hs : (Killable.makingDirs p).killed fs s) :
    s.Tree ∧ ∀ q, s.node q = fs.node q := by
  rcases hs with rfl | rfl | ⟨q, rfl, h⟩
  · exact ⟨ht, fun _ => rfl⟩
  · rw [hp]; exact ⟨ht, fun _ => rfl⟩
  · refine ⟨(mkdirs_any ht (List.prefix_refl q)).1, fun r => ?_⟩
    rcases h r with e | e
    · exact e
    · rw [e, hp]

/-- If the output is not an empty directory, the script changes nothing, killed or not. -/
theorem killed_not_empty {E : FromParams.Env} {scan : FS → Loc → List Loc} {p : Params} {d l : Loc} {strip : Bool}
    (hin : PathIs E.cwd p "input_directory".toList d) (hkey : Asks p strip) (hout : Output E p "file-map".toList l) {fs s : FS} (ht : fs.Tree)
    (hd : fs.node d = some .dir) (hnot : ¬ fs.EmptyDir l) (hs : (mainK E order scan p).killed fs s) : s.Tree ∧ ∀ q, s.node q = fs.node q := by
  obtain ⟨ns, mods, hT, hl⟩ := hout.typed
  have hwf : p.WF := hT.wf
  have e1 := (Params.C73_existing_directory E.cwd p hwf _ fs).1 d hin hd
  have e2 := (keyFunction_spec hwf).1 strip hkey
  obtain ⟨s1, s2⟩ := FromParams.C74_directory_sink E _ (sane_of_output hout.py hout.globals p d (ruleOf strip)) p _ ns mods (FromParams.typed_mono hT _) fs
  have hmain := C82_not_empty (order := order) E scan p d l strip hin hkey hout fs ht hd hnot
  have refl : s = fs → s.Tree ∧ ∀ q, s.node q = fs.node q := by rintro rfl; exact ⟨ht, fun _ => rfl⟩
  have hsink : (FromParams.byteSink E p "output".toList (some (locals p d (ruleOf strip))) fs).2 = fs := by
    by_cases h : ∃ l, PathIs E.cwd ns "path".toList l ∧ fs.node l = some .dir
    · obtain ⟨l', h1, h2⟩ := h
      rw [(s1 l' h1 h2).2]
    · obtain ⟨e, -, -, k⟩ := s2 h
      rw [k]
  rcases hs with hs | ⟨d', fs1, h1, hs⟩
  · exact refl hs
  replace h1 : p.existingDirectory E.cwd "input_directory".toList fs = (.ok d', fs1) := h1
  rw [e1] at h1
  cases h1
  rcases hs with hs | ⟨key, fs1, h1, hs⟩
  · exact refl hs
  replace h1 : Prog.ofRes (keyFunction p) fs = (.ok key, fs1) := h1
  rw [e2] at h1
  cases h1
  rcases hs with hs | ⟨o, fs1, h1, hs⟩
  · exact same_of_killed_sink ht hsink hs
  replace h1 : FromParams.byteSink E p "output".toList (some (locals p d (ruleOf strip))) fs = (.ok o, fs1) := h1
  have hdir : fs.node l = some .dir := by
    by_contra hc
    have : ¬ ∃ l, PathIs E.cwd ns "path".toList l ∧ fs.node l = some .dir := by
      rintro ⟨l', hl', h⟩
      have hns : ns.WF := FromParams.ns_wf hT
      have e1 := ((Params.pathParam_spec E.cwd hns _).1 l').2 hl'
      have e2 := ((Params.pathParam_spec E.cwd hns _).1 l).2 hl
      rw [e1] at e2
      cases e2
      exact hc h
    obtain ⟨e, -, -, k⟩ := s2 this
    rw [k] at h1
    cases h1
  rw [(s1 l hl hdir).2] at h1
  cases h1
  have hrm : DirSink.rmdirPath E.cwd l.toPath fs = (.error .ioError, fs) := by
    unfold DirSink.rmdirPath
    by_cases hnil : l = []
    · subst hnil
      rw [if_pos (.inl rfl)]
      rfl
    · obtain ⟨r1, n, r2, r3⟩ := place_spec hl hnil
      rw [if_neg, r1]
      · exact (rmdir_spec ht l).2 fun h => hnot h.2
      · rintro (h | h)
        · exact hnil h
        · rw [r2] at h
          exact r3 (Option.some.inj h)
  rcases hs with ((hs | hs) | ⟨u, fs2, h2, hs⟩) | ⟨st, fs2, h2, hs⟩
  · exact refl hs
  · have : s = (DirSink.rmdirPath E.cwd l.toPath fs).2 := hs
    rw [hrm] at this
    exact refl this
  · have : DirSink.rmdirPath E.cwd l.toPath fs = (.ok u, fs2) := h2
    rw [hrm] at this; cases this
  · have h2' : DirSink.enter E.cwd (DirSink.new l.toPath) fs = (.ok st, fs2) := h2
    unfold DirSink.enter at h2'
    simp only [Prog.bind_apply, show (DirSink.new l.toPath).path = l.toPath from rfl, hrm] at h2'
    cases h2'

theorem DirTorn.congr {fs s s' : FS} {d l : Loc} {strip : Bool} (h : DirTorn fs d strip l s) (ht : s'.Tree) (hn : ∀ q, s'.node q = s.node q) :
    DirTorn fs d strip l s' := by
  refine ⟨ht, fun q h1 h2 h3 h4 => ?_, fun h1 k b hk => ?_, fun q hq => by rw [hn]; exact h.others q hq⟩
  · rw [hn] at h4 ⊢; exact h.content q h1 h2 h3 h4
  · rw [hn] at h1 ⊢; exact h.index h1 k b hk

theorem empty_below {fs : FS} {l q : Loc} (ht : fs.Tree) (h : fs.EmptyDir l) (hq : l <+: q) (hne : q ≠ l) : fs.node q = none := by
  obtain ⟨r, rfl⟩ := hq
  cases r with
  | nil => simp at hne
  | cons n r =>
    rw [List.append_cons]
    exact ht.none_of_prefix (List.prefix_append _ _) (h.2 n)

/-- One run that is killed, into an empty directory. -/
theorem killed_once {E : FromParams.Env} {scan : FS → Loc → List Loc} (hscan : Scans scan) {p : Params} {d l : Loc} {strip : Bool}
    (hin : PathIs E.cwd p "input_directory".toList d) (hkey : Asks p strip) (hout : Output E p "file-map".toList l) {fs s : FS} (ht : fs.Tree)
    (hd : fs.node d = some .dir) (hall : AllFiles fs d strip fun k => FileKey k ∧ k ≠ "_index".toList) (hempty : fs.EmptyDir l) (hapart : ¬ d <+: l)
    (hapart' : ¬ l <+: d) (hs : (mainK E order scan p).killed fs s) : DirTorn fs d strip l s := by
  obtain ⟨ns, mods, hT, hl⟩ := hout.typed
  have hwf : p.WF := hT.wf
  have hnil : l ≠ [] := by rintro rfl; exact hapart' (List.nil_prefix)
  obtain ⟨hres, hname⟩ := place_spec hl hnil
  have hbelow : ∀ q, d <+: q → ¬ l <+: q := by
    intro q h1 h2
    rcases List.prefix_or_prefix_of_prefix h1 h2 with h | h
    · exact hapart h
    · exact hapart' h
  have e1 := (Params.C73_existing_directory E.cwd p hwf _ fs).1 d hin hd
  have e2 := (keyFunction_spec hwf).1 strip hkey
  have e3 := ((FromParams.C74_directory_sink E _ (sane_of_output hout.py hout.globals p d (ruleOf strip)) p _ ns mods (FromParams.typed_mono hT _) fs).1 l hl hempty.1).2
  have start : s.Tree → (∀ q, s.node q = fs.node q) → DirTorn fs d strip l s := by
    intro h1 h2
    refine ⟨h1, fun q hq hq' _ hne => ?_, fun h _ _ _ => ?_, fun q _ => h2 q⟩
    · rw [h2] at hne
      exact absurd (empty_below ht hempty hq hq') hne
    · rw [h2] at h
      exact absurd (hempty.2 _) h
  rcases hs with hs | ⟨d', fs1, h1, hs⟩
  · have : s = fs := hs
    exact start (this ▸ ht) (this ▸ fun _ => rfl)
  replace h1 : p.existingDirectory E.cwd "input_directory".toList fs = (.ok d', fs1) := h1
  rw [e1] at h1
  cases h1
  rcases hs with hs | ⟨key, fs1, h1, hs⟩
  · have : s = fs := hs
    exact start (this ▸ ht) (this ▸ fun _ => rfl)
  replace h1 : Prog.ofRes (keyFunction p) fs = (.ok key, fs1) := h1
  rw [e2] at h1
  cases h1
  rcases hs with hs | ⟨o, fs1, h1, hs⟩
  · obtain ⟨g1, g2⟩ := same_of_killed_sink ht (by rw [e3]) hs
    exact start g1 g2
  replace h1 : FromParams.byteSink E p "output".toList (some (locals p d (ruleOf strip))) fs = (.ok o, fs1) := h1
  rw [e3] at h1
  cases h1
  obtain ⟨fs2, g1, g2⟩ := dirSink_enter (cwd := E.cwd) (P := l.toPath) fs ht hname (by rw [hres]; exact hempty)
  have hsame : SameBelow fs fs2 d := fun q _ => g2.others q (by simp)
  have hfile : ∀ q ∈ scan fs2 d, ¬ l <+: q ∧ ∀ c, fs.node q = some (.file c) → (∃ b, c = .data b) ∧
      FileKey ((ruleOf strip).apply q) ∧ (ruleOf strip).apply q ≠ "_index".toList := by
    intro q hq
    obtain ⟨r, n, rfl, hp⟩ := scan_snoc hscan hq
    refine ⟨hbelow _ hp, fun c hc => ?_⟩
    obtain ⟨f1, f2⟩ := hall r n c hp hc
    exact ⟨f1, f2 _ ((key_iff strip r n _).1 rfl)⟩
  have hfile' : ∀ q ∈ scan fs2 d, ¬ PyPath.resolve E.cwd l.toPath <+: q ∧ ∀ c, fs.node q = some (.file c) → (∃ b, c = .data b) ∧ FileKey ((ruleOf strip).apply q) :=
    fun q hq => ⟨by rw [hres]; exact (hfile q hq).1, fun c hc => ⟨((hfile q hq).2 c hc).1, ((hfile q hq).2 c hc).2.1⟩⟩
  -- the calls
  have hsession : ((DirSink.new l.toPath).sessionK E.cwd (calls (ruleOf strip).apply fs (scan fs2 d))).killed fs s := by
    rcases hs with hs | ⟨st, fs3, h3, hs⟩
    · exact .inl hs
    have h3' : DirSink.enter E.cwd (DirSink.new l.toPath) fs = (.ok st, fs3) := h3
    rw [g1] at h3'
    cases h3'
    refine .inr ⟨_, _, h3, ?_⟩
    rcases hs with hs | ⟨x, fs3, h4, hs⟩
    · have : s = fs2 := hs
      rw [this]
      exact .inl (putsK_start _ _ _)
    cases h4
    beta_reduce at hs
    rcases hs with hs | ⟨r, fs3, h5, hs⟩
    · exact .inl (copyDirK_killed (P := l.toPath) _ fs (by rw [hres]; exact hempty) _ hfile' [] _ _ _ g2 hs)
    · refine .inr ⟨r, fs3, ?_, hs⟩
      rw [copyDirK_run] at h5
      rw [show (DirSink.putsK E.cwd _ _).run = DirSink.puts E.cwd _ _ from funext fun x => DirSink.same_putsAt E.cwd _ _ x]
      exact (copyDir_eq (cwd := E.cwd) (P := l.toPath) (ruleOf strip).apply fs (by rw [hres]; exact hempty) (scan fs2 d) hfile' [] _ fs2 g2).symm.trans h5
  obtain ⟨-, whole, -, -, hkilled⟩ := C92_killed (cwd := E.cwd) (P := l.toPath) fs ht hname (by rw [hres]; exact hempty) (calls (ruleOf strip).apply fs (scan fs2 d)) (by
    rintro ⟨k, b⟩ he
    obtain ⟨q, hq, hc, rfl⟩ := mem_calls.1 he
    exact ((hfile q hq).2 _ hc).2)
  obtain ⟨t1, t2, t3⟩ := hkilled s hsession
  rw [hres] at t2 t3
  have has : ∀ k b, (k, b) ∈ calls (ruleOf strip).apply fs (scan fs2 d) → HasFile fs d strip k b := by
    intro k b h
    obtain ⟨q, hq, hc, hk⟩ := mem_calls.1 h
    obtain ⟨r, n, rfl, hp⟩ := scan_snoc hscan hq
    exact ⟨r, n, hp, hc, (key_iff strip r n k).1 hk⟩
  have has' : ∀ k b, HasFile fs d strip k b → (k, b) ∈ calls (ruleOf strip).apply fs (scan fs2 d) := by
    rintro k b ⟨r, n, hp, hc, hk⟩
    refine mem_calls.2 ⟨r ++ [n], ?_, hc, (key_iff strip r n k).2 hk⟩
    refine ((hscan fs2 d).2 _).2 ⟨hp, ?_, by rw [hsame _ hp, hc]; simp⟩
    rintro rfl
    rw [hd] at hc; simp at hc
  rcases t3 with t3 | ⟨done, rest, hputs, L⟩
  · refine ⟨t1, fun q hq _ _ hne => absurd (t3 q hq) hne, fun h => absurd (t3 _ (List.prefix_append _ _)) h, t2⟩
  · have hdone : ∀ k b, lastPut done k = some b → HasFile fs d strip k b := fun k b h =>
      has k b (by rw [hputs]; exact List.mem_append_left _ (lastPut_mem h))
    refine ⟨t1, fun q hq hq' hi hne => ?_, fun hi k b hk => ?_, t2⟩
    · rcases L.nothingElse q hq hne with e | e | ⟨k, b, hk, rfl⟩
      · exact absurd e hq'
      · exact absurd e hi
      · by_cases hcur : ∃ v, rest.head? = some (k, v)
        · obtain ⟨v, hv⟩ := hcur
          have hv' : HasFile fs d strip k v := has k v (by
            rw [hputs]; exact List.mem_append_right _ (List.mem_of_mem_head? hv))
          rcases L.current k v hv with e | ⟨b', more, e1, e2⟩
          · cases hlp : lastPut done k with
            | none => rw [hlp] at e; exact absurd e hne
            | some b' =>
              rw [hlp] at e
              exact ⟨k, b', .empty, rfl, by rw [ByteArray.append_empty]; exact hdone k b' hlp, e⟩
          · exact ⟨k, b', more, rfl, e1 ▸ hv', e2⟩
        · have hkd : (k, b) ∈ done := by
            rcases List.mem_append.1 hk with h | h
            · exact h
            · exfalso
              cases rest with
              | nil => simp at h
              | cons x xs => simp at h; exact hcur ⟨b, by simp [h]⟩
          have hsome : (lastPut done k).isSome := (lastPut_isSome _ _).2 (List.mem_map.2 ⟨_, hkd, rfl⟩)
          obtain ⟨b', hb'⟩ := Option.isSome_iff_exists.1 hsome
          exact ⟨k, b', .empty, rfl, by rw [ByteArray.append_empty]; exact hdone k b' hb', L.values k b' hb' fun v hv => hcur ⟨v, hv⟩⟩
    · obtain ⟨rfl, -⟩ := L.index.resolve_left hi
      rw [List.append_nil] at hputs
      have hsome : (lastPut done k).isSome := (lastPut_isSome _ _).2 (List.mem_map.2 ⟨(k, b), hputs ▸ has' k b hk, rfl⟩)
      obtain ⟨b', hb'⟩ := Option.isSome_iff_exists.1 hsome
      exact ⟨b', hdone k b' hb', L.values k b' hb' (by simp)⟩

/-- A directory as output, killed any number of times at any point: nothing outside of it has changed, and what is in it are beginnings of files
that belong there, all of them complete if there is any of the index.  If the directory is still empty, the next run that is not killed does what
the first would have done; otherwise every further run raises and changes nothing. -/
theorem C103_directory (E : FromParams.Env) (hcwd : E.cwd.Normal) (hroot : E.cwd.root ≠ []) (scan : FS → Loc → List Loc) (hscan : Scans scan) (p : Params)
    (d l : Loc) (strip : Bool) (hin : PathIs E.cwd p "input_directory".toList d) (hkey : Asks p strip) (hout : Output E p "file-map".toList l)
    (hsafe : ∀ w ∈ l, TextSafe w) (fs : FS) (ht : fs.Tree) (hd : fs.node d = some .dir)
    (hall : AllFiles fs d strip fun k => FileKey k ∧ k ≠ "_index".toList) (hempty : fs.EmptyDir l) (hapart : ¬ d <+: l) (hapart' : ¬ l <+: d)
    (s : FS) (hk : KilledRuns (mainK E order scan p) fs s) :
    DirTorn fs d strip l s ∧
    (s.EmptyDir l → ∃ s', main E order scan p s = (.ok (), s') ∧ (∀ q, ¬ l <+: q → s'.node q = fs.node q) ∧
      ∃ m M, docMapEntries E.cwd (Loc.toPath (l ++ ["_index".toList])) s' = (.ok m, s') ∧
        Zip.Serves (docMapSource readBytesFile E.cwd m s') (fun _ => True) M ∧
        (∀ k b, M k = some b → HasFile fs d strip k b) ∧ ∀ k b, HasFile fs d strip k b → M k ≠ none) ∧
    (¬ s.EmptyDir l → main E order scan p s = (.error (if s.isDir l then .ioError else .parameterError), s)) := by
  have below : ∀ s, DirTorn fs d strip l s → ∀ q, d <+: q → s.node q = fs.node q := by
    intro s h q hq
    refine h.others q fun hlq => ?_
    rcases List.prefix_or_prefix_of_prefix hq hlq with h | h
    · exact hapart h
    · exact hapart' h
  have torn : DirTorn fs d strip l s := by
    induction hk with
    | none =>
      refine ⟨ht, fun q hq hq' _ hne => absurd (empty_below ht hempty hq hq') hne, fun h => absurd (hempty.2 _) h, fun _ _ => rfl⟩
    | @again s s' _ hk ih =>
      have hd' : s.node d = some .dir := by rw [below s ih d (List.prefix_refl _)]; exact hd
      by_cases he : s.EmptyDir l
      · have h := killed_once hscan hin hkey hout ih.tree hd' (allFiles_same (below s ih) hall) he hapart hapart' hk
        refine ⟨h.tree, fun q h1 h2 h3 h4 => ?_, fun h1 k b hkb => ?_, fun q hq => by rw [h.others q hq, ih.others q hq]⟩
        · obtain ⟨k, b, more, g1, g2, g3⟩ := h.content q h1 h2 h3 h4
          exact ⟨k, b, more, g1, (hasFile_same (below s ih) _ _).1 g2, g3⟩
        · obtain ⟨b', g1, g2⟩ := h.index h1 k b ((hasFile_same (below s ih) _ _).2 hkb)
          exact ⟨b', (hasFile_same (below s ih) _ _).1 g1, g2⟩
      · obtain ⟨g1, g2⟩ := killed_not_empty hin hkey hout ih.tree hd' he hk
        exact ih.congr g1 g2
  have hd' : s.node d = some .dir := by rw [below s torn d (List.prefix_refl _)]; exact hd
  refine ⟨torn, fun he => ?_, fun he => C82_not_empty E scan p d l strip hin hkey hout s torn.tree hd' he⟩
  obtain ⟨s', a1, -, a2, m, M, a3, a4, a5, a6⟩ := C82_directory (order := order) E hcwd hroot scan hscan p d l strip hin hkey hout hsafe s torn.tree hd'
    (allFiles_same (below s torn) hall) he hapart hapart'
  exact ⟨s', a1, fun q hq => by rw [a2 q hq, torn.others q hq], m, M, a3, a4, fun k b h => (hasFile_same (below s torn) k b).1 (a5 k b h),
    fun k b h => a6 k b ((hasFile_same (below s torn) k b).2 h)⟩

/-- A run that is killed right after it has begun to write can leave no output directory at all; then every further run raises `ParameterError`. -/
theorem C103_gone_counterexample (E : FromParams.Env) (scan : FS → Loc → List Loc) (p : Params)
    (d l : Loc) (strip : Bool) (hin : PathIs E.cwd p "input_directory".toList d) (hkey : Asks p strip) (hout : Output E p "file-map".toList l)
    (fs : FS) (ht : fs.Tree) (hd : fs.node d = some .dir) (hempty : fs.EmptyDir l) (hapart' : ¬ l <+: d) :
    ∃ s, KilledRuns (mainK E order scan p) fs s ∧ s.node l = none ∧ main E order scan p s = (.error .parameterError, s) := by
  obtain ⟨ns, mods, hT, hl⟩ := hout.typed
  have hwf : p.WF := hT.wf
  have hnil : l ≠ [] := by rintro rfl; exact hapart' (List.nil_prefix)
  obtain ⟨hres, n, hn, hn'⟩ := place_spec hl hnil
  have e1 := (Params.C73_existing_directory E.cwd p hwf _ fs).1 d hin hd
  have e2 := (keyFunction_spec hwf).1 strip hkey
  have e3 := ((FromParams.C74_directory_sink E _ (sane_of_output hout.py hout.globals p d (ruleOf strip)) p _ ns mods (FromParams.typed_mono hT _) fs).1 l hl hempty.1).2
  obtain ⟨s, a1, a2, a3⟩ := (rmdir_spec ht l).1 hnil hempty
  have hrm : DirSink.rmdirPath E.cwd l.toPath fs = (.ok (), s) := by
    unfold DirSink.rmdirPath
    rw [if_neg, hres]
    · exact a1
    · rintro (h | h)
      · exact hnil h
      · rw [hn] at h
        exact hn' (Option.some.inj h)
  have hgone : s.node l = none := a2.1 l (List.prefix_refl _)
  refine ⟨s, .again .none (.inr ⟨d, fs, e1, .inr ⟨ruleOf strip, fs, by rw [e2]; rfl, .inr ⟨_, fs, e3, .inl (.inl (.inr ?_))⟩⟩⟩), hgone, ?_⟩
  · show s = (DirSink.rmdirPath E.cwd l.toPath fs).2
    rw [hrm]
  · have := C82_not_empty (order := order) E scan p d l strip hin hkey hout s a3 (by rw [a2.2 d hapart']; exact hd) (fun h => by rw [h.1] at hgone; cases hgone)
    rw [this, if_neg (by rw [FS.isDir_iff, hgone]; simp)]

end DirToStore

namespace TarToZip
variable {untar : Bytes → Res (List Member × Option Exc)} {cwd : PyPath} {args : Args} {ms : List Member} {fin : Option Exc} {fs : FS}

/-- The old zip file is lost first: the script can be killed with nothing at its place. -/
theorem C103_old_zip_counterexample (hw : Writable fs (zipPlace cwd args)) :
    ∃ s, KilledRuns (mainK untar cwd args) fs s ∧ s.node (zipPlace cwd args) = none := by
  obtain ⟨fs1, a1, a2, -⟩ := removeExisting_spec (C84_places cwd args).2 hw
  refine ⟨fs1, .again .none (.inl (.inr ?_)), a2⟩
  show fs1 = (removeExisting (zipPlace cwd args) fs).2
  rw [a1]

/-- Without streaming, a killed script leaves extracted files in the working directory. -/
theorem C103_leftover_counterexample (hs : args.dontStream = true) (hw : Writable fs (zipPlace cwd args)) {m : Member}
    (ht : IsTar untar fs (tarPlace cwd args) (m :: ms) fin) (he : Extractable cwd fs (zipPlace cwd args) (m :: ms)) :
    ∃ s b, KilledRuns (mainK untar cwd args) fs s ∧ m.data = .ok b ∧ s.node (memberPlace cwd m) = some (.file (.data b)) ∧
      ∀ A, s.node (zipPlace cwd args) ≠ some (.file (.zip A)) := by
  have hp := C84_places cwd args
  obtain ⟨fs1, a1, a2, a3, a4⟩ := removeExisting_spec hp.2 hw
  obtain ⟨fs2, b1, b2, b3⟩ := createZip_spec hp.2 a4 (by rw [a3 _ (dropLast_ne hp.2)]; exact hw.parent) a2
  have hsame : ∀ q, q ≠ zipPlace cwd args → fs2.node q = fs.node q := fun q hq => by rw [b2.2 q hq, a3 q hq]
  have hopen : openTar untar (tarPlace cwd args) fs2 = (.ok (m :: ms, fin), fs2) := by
    obtain ⟨b, c1, c2⟩ := ht
    exact openTar_ok ⟨b, by rw [hsame _ hp.1.symm]; exact c1, c2⟩
  obtain ⟨hf, ⟨b, hb⟩, -⟩ := he.files m (by simp)
  obtain ⟨g1, g2⟩ := he.free m (by simp)
  have hzne : ∀ q, q <+: memberPlace cwd m → q ≠ zipPlace cwd args := fun q hq h => he.output m (by simp) (h ▸ hq)
  have hne : memberPlace cwd m ≠ [] := fun e => g1 (by rw [e, FS.node_nil])
  have hnp : ¬ memberPlace cwd m <+: (memberPlace cwd m).dropLast := by
    intro h
    have := h.length_le
    have := List.length_pos_of_ne_nil hne
    simp at *; omega
  obtain ⟨fs3, d1, d2, d3⟩ := (mkdirs_spec b3 (memberPlace cwd m).dropLast).1 (by
    rintro ⟨q, c, hq, hc⟩
    rw [hsame q (hzne q (hq.trans (List.dropLast_prefix _)))] at hc
    exact g2 ⟨q, c, hq, hc⟩)
  obtain ⟨fs4, f1, f2, -⟩ := (writeFile_spec d3 (memberPlace cwd m) (.data b)).1 hne (d2.1 _ (List.prefix_refl _))
    (by rw [d2.2 _ hnp, hsame _ (hzne _ (List.prefix_refl _))]; exact g1)
  refine ⟨fs4, b, .again .none (.inr ⟨(), fs1, a1, .inr ⟨(), fs2, b1, .inl ⟨fs4, .inr ⟨.ok (m :: ms, fin), fs2, ?_, ?_⟩, .inl rfl⟩⟩⟩), hb, f2.1, ?_⟩
  · show (Except.ok (openTar untar (tarPlace cwd args) fs2).1, (openTar untar (tarPlace cwd args) fs2).2) = _
    rw [hopen]
  · dsimp only
    rw [if_pos hs]
    refine .inl (.inl ?_)
    unfold extractMemberK
    dsimp only
    rw [if_pos hf, hb]
    refine .inr ⟨b, fs2, rfl, .inr ⟨(), fs3, d1, .inr ⟨b, .empty, by rw [ByteArray.append_empty], ?_⟩⟩⟩
    show fs4 = (writeFile (memberPlace cwd m) (.data b) fs3).2
    rw [f1]
  · intro A h
    rw [f2.2 _ (hzne _ (List.prefix_refl _)).symm] at h
    by_cases hpre : zipPlace cwd args <+: (memberPlace cwd m).dropLast
    · exact he.output m (by simp) (hpre.trans (List.dropLast_prefix _))
    · rw [d2.2 _ hpre, b2.1] at h; cases h

end TarToZip

/-! ## Examples -/

namespace CrashConvertExample

section
open TarToZip TarToZipExample

example : True := by
  have := C103_stream (untar := TarToZipExample.untar damaged) rfl (writable false true) (isTar _ _ _)
  have := @C103_dont_stream (TarToZipExample.untar plain) TarToZipExample.cwd (args true true) plain (TarToZipExample.fs []) _ rfl (writable _ _) (isTar _ _ _)
    extractable (by decide +kernel) .none
  have := C103_leftover_counterexample (untar := TarToZipExample.untar plain) rfl (writable true true) (isTar _ _ _) extractable
  have := C103_old_zip_counterexample (untar := TarToZipExample.untar plain) (writable true true)
  trivial

end

section
open DirToStore DirToStoreExample
open FromParamsExample (env understands)

theorem distinct : Distinct (DirToStoreExample.fs "a.txt" "b.tar.gz") ["home".toList, "in".toList] true := by
  intro q q' name name' c c' k _ _ hc hc' hk hk'
  rw [KeyFor, if_pos rfl, ← stem_iff] at hk hk'
  rcases files hc with ⟨rfl, rfl, rfl⟩ | ⟨rfl, rfl, rfl⟩ <;> rcases files hc' with ⟨rfl, rfl, rfl⟩ | ⟨rfl, rfl, rfl⟩
  · rfl
  · exact absurd (hk.trans hk'.symm) (by decide +kernel)
  · exact absurd (hk.trans hk'.symm) (by decide +kernel)
  · rfl

example : True := by
  have := (C103_zip (order := id) env (fun _ => .refl _) DirToStoreExample.scan scans _ _ _ true (input "zip" "o/x.zip") (asks _ _) (output "zip" "o/x.zip")
    (DirToStoreExample.fs "a.txt" "b.tar.gz") (tree_of_check (by decide +kernel)) rfl (all ⟨plain_of (by decide +kernel), plain_of (by decide +kernel)⟩)
    (not_blocked_of_check (by decide +kernel)) (not_dir_of_check (by decide +kernel)) (by decide +kernel)).1 distinct
  have := (C103_zip (order := id) env (fun _ => .refl _) DirToStoreExample.scan scans _ _ _ true (input "zip" "o/x.zip") (asks _ _) (output "zip" "o/x.zip")
    (DirToStoreExample.fs "a.txt" "a.gz") (tree_of_check (by decide +kernel)) rfl (all ⟨plain_of (by decide +kernel), plain_of (by decide +kernel)⟩)
    (not_blocked_of_check (by decide +kernel)) (not_dir_of_check (by decide +kernel)) (by decide +kernel)).2 not_distinct
  have hstem : stem "a.txt".toList = "a".toList ∧ stem "a.gz".toList = "a".toList := by decide +kernel
  obtain ⟨s, h1, h2, h3⟩ := C103_gone_counterexample (order := id) env DirToStoreExample.scan _ _ _ true (input "file-map" "out") (asks _ _) (output "file-map" "out")
    (DirToStoreExample.fs "a.txt" "a.gz") (tree_of_check (by decide +kernel)) rfl (by rw [← FS.isEmptyDirectory_iff]; decide +kernel) (by decide +kernel)
  have := C103_directory (order := id) env ⟨.inr (.inl rfl), by decide⟩ (by decide) DirToStoreExample.scan scans _ _ _ true
    (input "file-map" "out") (asks _ _) (output "file-map" "out") (by
      have : PyPath.resolve env.cwd (PyPath.parse "out".toList) = ["home".toList, "out".toList] := by decide +kernel
      rw [this]; unfold TextSafe; decide) (DirToStoreExample.fs "a.txt" "a.gz") (tree_of_check (by decide +kernel)) rfl
    (all (by rw [hstem.1, hstem.2]; exact ⟨key_a, key_a⟩)) (by rw [← FS.isEmptyDirectory_iff]; decide +kernel) (by decide +kernel) (by decide +kernel) s h1
  trivial

end

end CrashConvertExample

end Vista
