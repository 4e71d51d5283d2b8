import Verif.Proofs.CrashScripts
import Verif.Model.CrashConvert
import Verif.Spec.CrashConvert
import Verif.Props.TarToZip
import Verif.Props.CrashDir

set_option linter.unusedSectionVars false
set_option linter.unusedSimpArgs false

/-!
# Lemmas for conversions that are killed
-/
namespace Vista

/-! ## Not killed, they do what they did -/

namespace DirToStore

theorem copyDirK_run (cwd : PyPath) (key : Loc → Str) (qs : List Loc) (s : DirSink) : (copyDirK cwd key qs s).run = copyDir cwd key qs s := by
  funext fs
  show _ = copyDirAt cwd key qs s fs
  induction qs generalizing s fs with
  | nil => rfl
  | cons q qs ih =>
    show Prog.bind Prog.get (fun fs => Killable.run (if fs.isFile q then (do
      match (readData q fs).1 with
      | .error e => Killable.pure (s, some e)
      | .ok b =>
        match ← Killable.attempt (s.putK cwd (key q) b) with
        | .ok s' => copyDirK cwd key qs s'
        | .error e => Killable.pure (s, some e)) else copyDirK cwd key qs s)) fs = _
    have hb : Prog.bind Prog.get (fun fs => Killable.run (if fs.isFile q then (do
      match (readData q fs).1 with
      | .error e => Killable.pure (s, some e)
      | .ok b =>
        match ← Killable.attempt (s.putK cwd (key q) b) with
        | .ok s' => copyDirK cwd key qs s'
        | .error e => Killable.pure (s, some e)) else copyDirK cwd key qs s)) fs = Killable.run (if fs.isFile q then (do
      match (readData q fs).1 with
      | .error e => Killable.pure (s, some e)
      | .ok b =>
        match ← Killable.attempt (s.putK cwd (key q) b) with
        | .ok s' => copyDirK cwd key qs s'
        | .error e => Killable.pure (s, some e)) else copyDirK cwd key qs s) fs := rfl
    rw [hb]
    unfold copyDirAt
    by_cases hf : fs.isFile q = true
    · rw [if_pos hf, if_pos hf]
      cases hr : (readData q fs).1 with
      | error e => rfl
      | ok b =>
        show Prog.bind (Killable.attempt (s.putK cwd (key q) b)).run (fun r => Killable.run (match r with
          | .ok s' => copyDirK cwd key qs s'
          | .error e => Killable.pure (s, some e))) fs = _
        have hp : (Killable.attempt (s.putK cwd (key q) b)).run fs = (.ok (s.put cwd (key q) b fs).1, (s.put cwd (key q) b fs).2) := rfl
        simp only [Prog.bind, hp]
        rcases s.put cwd (key q) b fs with ⟨r, fs'⟩
        cases r with
        | ok s' => exact ih s' fs'
        | error e => rfl
    · rw [if_neg hf, if_neg hf]
      exact ih s fs

theorem copyIntoK_run (cwd : PyPath) (order : List Str → List Str) (scan : FS → Loc → List Loc) (key : Loc → Str) (d : Loc) (o : KVObj) :
    (copyIntoK cwd order scan key d o).run = copyInto cwd order scan key d o := by
  unfold copyIntoK copyInto
  split
  · rename_i l
    show Prog.bind (ZipOut.enter order l) (fun o => Prog.bind Prog.get fun fs => (ZipOut.closeAllAtK [(copyZip key fs (scan fs d) o).1] (copyZip key fs (scan fs d) o).2).run) = _
    simp only [closeAllAtK_run]
    rfl
  · rename_i l
    show Prog.bind ((DirSink.new l.toPath).enter cwd) (fun s1 => Prog.bind Prog.get fun fs => Prog.bind (copyDirK cwd key (scan fs d) s1).run fun r =>
      Prog.bind (r.1.exit cwd) fun _ => Killable.run (match r.2 with | some e => Killable.raise e | none => Killable.pure ())) = _
    simp only [copyDirK_run]
    have : ∀ r : DirSink × Option Exc, Killable.run (match r.2 with | some e => Killable.raise e | none => Killable.pure () : Killable Unit) =
        match r.2 with | some e => Prog.raise e | none => Prog.pure () := by
      rintro ⟨_, _ | e⟩ <;> rfl
    simp only [this]
    rfl
  · rename_i h1 h2
    split
    · exact absurd rfl (h1 _)
    · exact absurd rfl (h2 _)
    · rfl

theorem mainK_run (E : FromParams.Env) (order : List Str → List Str) (scan : FS → Loc → List Loc) (p : Params) : (mainK E order scan p).run = main E order scan p := by
  show Prog.bind (p.existingDirectory E.cwd "input_directory".toList) (fun d => Prog.bind (Prog.ofRes (keyFunction p)) fun key =>
    Prog.bind (FromParams.byteSink E p "output".toList (some (locals p d key))) fun sink => (copyIntoK E.cwd order scan key.apply d sink).run) = _
  simp only [copyIntoK_run]
  rfl

end DirToStore

namespace TarToZip
variable {untar : Bytes → Res (List Member × Option Exc)} {cwd : PyPath} {args : Args}

theorem extractMemberK_run (cwd : PyPath) (m : Member) : (extractMemberK cwd m).run = extractMember cwd m := by
  unfold extractMemberK extractMember
  dsimp only
  split <;> rfl

theorem extractAllK_run (cwd : PyPath) (fin : Option Exc) (ms : List Member) : (extractAllK cwd fin ms).run = extractAll cwd fin ms := by
  induction ms with
  | nil => cases fin <;> rfl
  | cons m ms ih =>
    show Prog.bind (extractMemberK cwd m).run (fun _ => (extractAllK cwd fin ms).run) = _
    rw [extractMemberK_run, ih]
    rfl

theorem packK_run (cwd : PyPath) (ms : List Member) (a : Zip.Archive) (fs : FS) :
    (packK cwd ms a).run fs = (.ok (packAt cwd ms a fs).1, (packAt cwd ms a fs).2) := by
  induction ms generalizing a fs with
  | nil => rfl
  | cons m ms ih =>
    show Prog.bind (Killable.attempt (Killable.reading (packOne cwd m a))).run (fun r => Killable.run (match r with
      | .error e => Killable.pure (a, some e)
      | .ok a' => do
        match ← Killable.attempt (Killable.atomic (osRemove (PyPath.resolve cwd (PyPath.parse m.name)))) with
        | .ok _ => packK cwd ms a'
        | .error e => Killable.pure (a', some e))) fs = _
    have h1 : (Killable.attempt (Killable.reading (packOne cwd m a))).run fs = (.ok (packOne cwd m a fs).1, (packOne cwd m a fs).2) := rfl
    unfold packAt
    simp only [Prog.bind, h1]
    show _ = (Except.ok (match packOne cwd m a fs with | _ => _ : (Zip.Archive × Option Exc) × FS).1, _)
    rw [show (if m.isFile = true then (do
        let b ← readData (PyPath.resolve cwd (PyPath.parse m.name))
        Prog.pure (Zip.writestr a (arcName m.name) b)) else Prog.pure a : Prog Zip.Archive) = packOne cwd m a from rfl]
    rcases packOne cwd m a fs with ⟨r, fs'⟩
    cases r with
    | error e => rfl
    | ok a' =>
      show Prog.bind (Killable.attempt (Killable.atomic (osRemove (PyPath.resolve cwd (PyPath.parse m.name))))).run (fun r => Killable.run (match r with
        | .ok _ => packK cwd ms a'
        | .error e => Killable.pure (a', some e))) fs' = _
      have h2 : (Killable.attempt (Killable.atomic (osRemove (PyPath.resolve cwd (PyPath.parse m.name))))).run fs' =
        (.ok (osRemove (PyPath.resolve cwd (PyPath.parse m.name)) fs').1, (osRemove (PyPath.resolve cwd (PyPath.parse m.name)) fs').2) := rfl
      simp only [Prog.bind, h2]
      rcases osRemove (PyPath.resolve cwd (PyPath.parse m.name)) fs' with ⟨r, fs''⟩
      cases r with
      | ok _ => exact ih a' fs''
      | error e => rfl

theorem convertK_run (tar : Loc) : (convertK untar cwd args tar).run = convert untar cwd args tar := by
  funext fs
  show Prog.bind (Killable.attempt (Killable.reading (openTar untar tar))).run (fun r => Killable.run (match r with
    | .error e => Killable.pure ([], some e)
    | .ok (ms, fin) =>
      if args.dontStream then do
        match ← Killable.attempt (extractAllK cwd fin ms) with
        | .error e => Killable.pure ([], some e)
        | .ok _ => packK cwd ms []
      else Killable.pure (streamMembers args.omitLargeFiles (args.largeFileCutoff * 1000000000) fin ms []))) fs = _
  have h1 : (Killable.attempt (Killable.reading (openTar untar tar))).run fs = (.ok (openTar untar tar fs).1, (openTar untar tar fs).2) := rfl
  unfold convert convertAt
  simp only [Prog.bind, h1]
  rcases openTar untar tar fs with ⟨r, fs'⟩
  cases r with
  | error e => rfl
  | ok mf =>
    obtain ⟨ms, fin⟩ := mf
    by_cases hd : args.dontStream = true
    · simp only [hd, if_true]
      show Prog.bind (Killable.attempt (extractAllK cwd fin ms)).run (fun r => Killable.run (match r with
        | .error e => Killable.pure ([], some e)
        | .ok _ => packK cwd ms [])) fs' = _
      have h2 : (Killable.attempt (extractAllK cwd fin ms)).run fs' = (.ok (extractAll cwd fin ms fs').1, (extractAll cwd fin ms fs').2) := by
        rw [← extractAllK_run]; rfl
      simp only [Prog.bind, h2]
      rcases extractAll cwd fin ms fs' with ⟨r, fs''⟩
      cases r with
      | error e => rfl
      | ok _ => exact packK_run cwd ms [] fs''
    · simp only [hd]
      rfl

theorem mainK_run : (mainK untar cwd args).run = main untar cwd args := by
  show Prog.bind (removeExisting (zipPlace cwd args)) (fun _ => Prog.bind (createZip (zipPlace cwd args)) fun _ =>
    Prog.bind (convertK untar cwd args (tarPlace cwd args)).run fun r => (finishK (zipPlace cwd args) r).run) = _
  rw [convertK_run]
  have : ∀ r, (finishK (zipPlace cwd args) r).run = Prog.bind (writeFile (zipPlace cwd args) (.zip r.1)) fun _ =>
      match r.2 with | some e => Prog.raise e | none => Prog.pure () := by
    rintro ⟨a, _ | e⟩ <;> rfl
  simp only [this]
  rfl

end TarToZip

/-! ## Invariants of killed programs -/

/-- Started in this state, the program leaves a state with the property, killed or not. -/
def KeepsAt {α : Type} (I : FS → Prop) (x : Killable α) (fs : FS) : Prop := I (x.run fs).2 ∧ ∀ s, x.killed fs s → I s

section
variable {I : FS → Prop} {α β : Type}

theorem KeepsAt.bind {x : Killable α} {f : α → Killable β} {fs : FS} (hx : KeepsAt I x fs) (hf : ∀ a fs', x.run fs = (.ok a, fs') → I fs' → KeepsAt I (f a) fs') :
    KeepsAt I (x >>= f) fs := by
  obtain ⟨h1, h2⟩ := hx
  cases hr : x.run fs with
  | mk r fs' =>
    rw [hr] at h1
    refine ⟨?_, ?_⟩
    · cases r with
      | ok a => rw [bind_run_ok hr]; exact (hf a fs' hr h1).1
      | error e => rw [bind_run_error hr]; exact h1
    · rintro s (h | ⟨a, fs'', h, h'⟩)
      · exact h2 s h
      · rw [hr] at h
        cases h
        exact (hf a _ hr h1).2 s h'

theorem KeepsAt.still {x : Killable α} {fs : FS} (hI : I fs) (hr : (x.run fs).2 = fs) (hk : ∀ s, x.killed fs s → s = fs) : KeepsAt I x fs :=
  ⟨by rw [hr]; exact hI, fun s hs => by rw [hk s hs]; exact hI⟩

theorem KeepsAt.pure (a : α) {fs : FS} (hI : I fs) : KeepsAt I (Killable.pure a) fs := .still hI rfl fun _ h => h

theorem KeepsAt.raise (e : Exc) {fs : FS} (hI : I fs) : KeepsAt I (Killable.raise (α := α) e) fs := .still hI rfl fun _ h => h

theorem KeepsAt.ofRes (r : Res α) {fs : FS} (hI : I fs) : KeepsAt I (Killable.ofRes r) fs := .still hI (by cases r <;> rfl) fun _ h => h

theorem KeepsAt.reading {p : Prog α} {fs : FS} (hI : I fs) (h : (p fs).2 = fs) : KeepsAt I (Killable.reading p) fs := .still hI h fun _ h => h

theorem KeepsAt.attempt {x : Killable α} {fs : FS} (h : KeepsAt I x fs) : KeepsAt I (Killable.attempt x) fs := h

theorem KeepsAt.atomic {p : Prog α} {fs : FS} (hI : I fs) (h : I (p fs).2) : KeepsAt I (Killable.atomic p) fs :=
  ⟨h, by rintro s (rfl | rfl); exacts [hI, h]⟩

end

namespace TarToZip
variable {untar : Bytes → Res (List Member × Option Exc)} {cwd : PyPath} {args : Args} {ms : List Member} {zip : Loc} {good : Zip.Archive → Prop} {fs s : FS}

/-- What is needed of the members. -/
structure Apart (cwd : PyPath) (ms : List Member) (zip : Loc) : Prop where
  files : ∀ m ∈ ms, m.isFile = true
  apart : ∀ m ∈ ms, ∀ m' ∈ ms, memberPlace cwd m <+: memberPlace cwd m' → m = m'
  output : ∀ m ∈ ms, ¬ zip <+: memberPlace cwd m

theorem TarTorn.start (ht : fs.Tree) : TarTorn cwd ms fs zip good fs :=
  ⟨ht, .inl rfl, fun _ _ _ _ _ => .inl rfl, fun _ _ => .inl rfl, fun _ _ _ => rfl⟩

/-- The zip file is changed. -/
theorem TarTorn.setZip (ha : Apart cwd ms zip) (h : TarTorn cwd ms fs zip good s) {s' : FS} (ht : s'.Tree) (hs : ∀ q, q ≠ zip → s'.node q = s.node q)
    (hz : s'.node zip = none ∨ (∃ b, s'.node zip = some (.file (.data b))) ∨ ∃ A, good A ∧ s'.node zip = some (.file (.zip A))) :
    TarTorn cwd ms fs zip good s' := by
  have hne : ∀ m ∈ ms, ∀ q, q <+: memberPlace cwd m → q ≠ zip := fun m hm q hq e => ha.output m hm (e ▸ hq)
  refine ⟨ht, .inr hz, fun m hm q hq hq' => ?_, fun m hm => ?_, fun q hq hq' => by rw [hs q hq]; exact h.others q hq hq'⟩
  · rw [hs q (hne m hm q hq)]; exact h.dirs m hm q hq hq'
  · rw [hs _ (hne m hm _ (List.prefix_refl _))]; exact h.members m hm

/-- The file of a member is changed. -/
theorem TarTorn.setMember (ha : Apart cwd ms zip) (h : TarTorn cwd ms fs zip good s) {m : Member} (hm : m ∈ ms) {s' : FS} (ht : s'.Tree)
    (hs : ∀ q, q ≠ memberPlace cwd m → s'.node q = s.node q)
    (hz : s'.node (memberPlace cwd m) = none ∨ ∃ b more, m.data = .ok (b ++ more) ∧ s'.node (memberPlace cwd m) = some (.file (.data b))) :
    TarTorn cwd ms fs zip good s' := by
  refine ⟨ht, ?_, fun m' hm' q hq hq' => ?_, fun m' hm' => ?_, fun q hq hq' => ?_⟩
  · rw [hs zip fun e => ha.output m hm (e ▸ List.prefix_refl _)]; exact h.output
  · rw [hs q fun e => ?_]
    · exact h.dirs m' hm' q hq hq'
    · subst e
      exact hq' (by rw [ha.apart m hm m' hm' hq])
  · by_cases e : memberPlace cwd m' = memberPlace cwd m
    · have := ha.apart m hm m' hm' (e ▸ List.prefix_refl _)
      subst this
      exact .inr hz
    · rw [hs _ e]; exact h.members m' hm'
  · rw [hs q fun e => hq' ⟨m, hm, e ▸ List.prefix_refl _⟩]; exact h.others q hq hq'

/-- Directories are made for a member. -/
theorem TarTorn.makeDirs (ha : Apart cwd ms zip) (h : TarTorn cwd ms fs zip good s) {m : Member} (hm : m ∈ ms) {s' : FS} (ht : s'.Tree)
    (hs : ∀ q, s'.node q = s.node q ∨ ((q <+: memberPlace cwd m ∧ q ≠ memberPlace cwd m) ∧ s.node q = none ∧ s'.node q = some .dir)) :
    TarTorn cwd ms fs zip good s' := by
  have hzip : s'.node zip = s.node zip := (hs zip).resolve_right fun h => ha.output m hm h.1.1
  refine ⟨ht, hzip ▸ h.output, fun m' hm' q hq hq' => ?_, fun m' hm' => ?_, fun q hq hq' => ?_⟩
  · rcases hs q with e | ⟨-, e1, e2⟩
    · rw [e]; exact h.dirs m' hm' q hq hq'
    · rcases h.dirs m' hm' q hq hq' with e3 | ⟨-, e3⟩
      · exact .inr ⟨e3 ▸ e1, e2⟩
      · rw [e1] at e3; cases e3
  · rcases hs (memberPlace cwd m') with e | ⟨⟨e1, e2⟩, -⟩
    · rw [e]; exact h.members m' hm'
    · exact absurd (congrArg _ (ha.apart m' hm' m hm e1)) e2
  · rcases hs q with e | ⟨⟨e1, -⟩, -⟩
    · rw [e]; exact h.others q hq hq'
    · exact absurd ⟨m, hm, e1⟩ hq'

theorem removed {l : Loc} (ht : s.Tree) {c : Content} (h : s.node l = some (.file c)) :
    (s.eraseTree l).Tree ∧ (s.eraseTree l).node l = none ∧ ∀ q, q ≠ l → (s.eraseTree l).node q = s.node q := by
  have hl : l ≠ [] := by rintro rfl; rw [FS.node_nil] at h; cases h
  refine ⟨FS.tree_eraseTree ht hl, by rw [FS.node_eraseTree _ _ hl, if_pos (List.prefix_refl _)], fun q hq => ?_⟩
  rw [FS.node_eraseTree _ _ hl]
  split
  · rename_i hpre
    by_contra hne
    have := ht.dir_of_prefix hpre hq.symm (Ne.symm hne)
    rw [h] at this; cases this
  · rfl

theorem keeps_removeExisting (ha : Apart cwd ms zip) (h : TarTorn cwd ms fs zip good s) :
    KeepsAt (TarTorn cwd ms fs zip good) (Killable.atomic (removeExisting zip)) s := by
  refine KeepsAt.atomic h ?_
  cases hn : s.node zip with
  | none => simpa only [removeExisting, Prog.call, hn] using h
  | some nd =>
    cases nd with
    | dir => simpa only [removeExisting, Prog.call, hn] using h
    | file c =>
      obtain ⟨h1, h2, h3⟩ := removed h.tree hn
      simp only [removeExisting, Prog.call, hn]
      exact h.setZip ha h1 h3 (.inl h2)

theorem keeps_createZip (ha : Apart cwd ms zip) (h : TarTorn cwd ms fs zip good s) :
    KeepsAt (TarTorn cwd ms fs zip good) (Killable.atomic (createZip zip)) s := by
  refine KeepsAt.atomic h ?_
  by_cases hok : zip ≠ [] ∧ s.node zip.dropLast = some .dir ∧ s.node zip = none
  · obtain ⟨fs1, a1, a2, a3⟩ := createZip_spec hok.1 h.tree hok.2.1 hok.2.2
    rw [a1]
    exact h.setZip ha a3 a2.2 (.inr (.inl ⟨_, a2.1⟩))
  · have : (createZip zip s).2 = s := by
      unfold createZip Prog.call
      dsimp only
      by_cases h0 : zip = []
      · simp only [h0, if_true]
      · simp only [h0, if_false]
        cases hw : s.walk [] zip.dropLast with
        | error e => rfl
        | ok u =>
          dsimp only
          cases hn : s.node zip with
          | some _ => rfl
          | none =>
            exfalso
            refine hok ⟨h0, ?_, hn⟩
            exact FS.parent_of_walk hw
    rw [this]; exact h

theorem keeps_writeZip (ha : Apart cwd ms zip) (h : TarTorn cwd ms fs zip good s) (b : Bytes) :
    TarTorn cwd ms fs zip good (Vista.writeFile zip (.data b) s).2 := by
  by_cases hok : zip ≠ [] ∧ s.node zip.dropLast = some .dir ∧ s.node zip ≠ some .dir
  · obtain ⟨fs', h1, h2, h3⟩ := (writeFile_spec h.tree zip (.data b)).1 hok.1 hok.2.1 hok.2.2
    rw [h1]
    exact h.setZip ha h3 h2.2 (.inr (.inl ⟨b, h2.1⟩))
  · rw [(writeFile_spec h.tree zip (.data b)).2 hok]; exact h

theorem keeps_extractMember (ha : Apart cwd ms zip) {m : Member} (hm : m ∈ ms) (hne : memberPlace cwd m ≠ []) (h : TarTorn cwd ms fs zip good s) :
    KeepsAt (TarTorn cwd ms fs zip good) (extractMemberK cwd m) s := by
  unfold extractMemberK
  dsimp only
  rw [if_pos (ha.files m hm)]
  refine KeepsAt.bind (.ofRes _ h) fun b s1 hb h1 => ?_
  have hd : m.data = .ok b := by
    cases hx : m.data with
    | ok b' =>
      have : (Prog.ofRes m.data) s = (.ok b, s1) := hb
      rw [hx] at this
      cases this; rfl
    | error e =>
      have : (Prog.ofRes m.data) s = (.ok b, s1) := hb
      rw [hx] at this
      cases this
  have hdl : ∀ q, q <+: (memberPlace cwd m).dropLast → q <+: memberPlace cwd m ∧ q ≠ memberPlace cwd m := by
    refine fun q hq => ⟨hq.trans (List.dropLast_prefix _), ?_⟩
    rintro rfl
    have := hq.length_le
    have := List.length_pos_of_ne_nil hne
    simp at *; omega
  have hmk : ∀ q, q <+: (memberPlace cwd m).dropLast → TarTorn cwd ms fs zip good (Vista.mkdirs q s1).2 := by
    intro q hq
    obtain ⟨g1, g2, -⟩ := mkdirs_any h1.tree hq
    refine h1.makeDirs ha hm g1 fun r => ?_
    rcases g2 r with e | ⟨e1, e2, e3⟩
    · exact .inl e
    · exact .inr ⟨hdl r e1, e2, e3⟩
  refine KeepsAt.bind ⟨hmk _ (List.prefix_refl _), ?_⟩ fun _ s2 _ h2 => ?_
  · rintro s' (rfl | ⟨q, hq, rfl⟩)
    · exact h1
    · exact hmk q hq
  have hwr : ∀ b' more, b = b' ++ more → TarTorn cwd ms fs zip good (Vista.writeFile (memberPlace cwd m) (.data b') s2).2 := by
    intro b' more e
    by_cases hok : memberPlace cwd m ≠ [] ∧ s2.node (memberPlace cwd m).dropLast = some .dir ∧ s2.node (memberPlace cwd m) ≠ some .dir
    · obtain ⟨fs', g1, g2, g3⟩ := (writeFile_spec h2.tree _ (.data b')).1 hok.1 hok.2.1 hok.2.2
      rw [g1]
      exact h2.setMember ha hm g3 g2.2 (.inr ⟨b', more, e ▸ hd, g2.1⟩)
    · rw [(writeFile_spec h2.tree _ (.data b')).2 hok]; exact h2
  refine ⟨hwr b .empty (by rw [ByteArray.append_empty]), ?_⟩
  rintro s' (rfl | ⟨b', more, e, rfl⟩)
  · exact h2
  · exact hwr b' more e

theorem keeps_extractAll (ha : Apart cwd ms zip) (fin : Option Exc) (ms' : List Member) (hsub : ∀ m ∈ ms', m ∈ ms ∧ memberPlace cwd m ≠ [])
    (h : TarTorn cwd ms fs zip good s) : KeepsAt (TarTorn cwd ms fs zip good) (extractAllK cwd fin ms') s := by
  induction ms' generalizing s with
  | nil => cases fin with
    | none => exact .pure _ h
    | some e => exact .raise _ h
  | cons m ms' ih =>
    refine KeepsAt.bind (keeps_extractMember ha (hsub m (by simp)).1 (hsub m (by simp)).2 h) fun _ s' _ h' => ?_
    exact ih (fun x hx => hsub x (by simp [hx])) h'

theorem readData_still (l : Loc) (s : FS) : (readData l s).2 = s := by
  cases hn : s.node l with
  | none => simp only [readData, readFile, Prog.bind_apply, hn]
  | some nd =>
    cases nd with
    | dir => simp only [readData, readFile, Prog.bind_apply, hn]
    | file c => cases c <;> simp only [readData, readFile, Prog.bind_apply, hn] <;> rfl

theorem keeps_pack (ha : Apart cwd ms zip) (ms' : List Member) (hsub : ∀ m ∈ ms', m ∈ ms) (a : Zip.Archive)
    (h : TarTorn cwd ms fs zip good s) : KeepsAt (TarTorn cwd ms fs zip good) (packK cwd ms' a) s := by
  induction ms' generalizing s a with
  | nil => exact .pure _ h
  | cons m ms' ih =>
    have hm := hsub m (by simp)
    refine KeepsAt.bind (KeepsAt.attempt (.reading h ?_)) fun r s1 _ h1 => ?_
    · unfold packOne
      rw [if_pos (ha.files m hm)]
      have := readData_still (PyPath.resolve cwd (PyPath.parse m.name)) s
      simp only [Prog.bind_apply]
      revert this
      rcases readData (PyPath.resolve cwd (PyPath.parse m.name)) s with ⟨r, s'⟩
      intro this
      cases r <;> exact this
    cases r with
    | error e => exact .pure _ h1
    | ok a' =>
      dsimp only
      refine KeepsAt.bind (KeepsAt.attempt (.atomic h1 ?_)) fun r s2 _ h2 => ?_
      · show TarTorn cwd ms fs zip good (osRemove (memberPlace cwd m) s1).2
        cases hn : s1.node (memberPlace cwd m) with
        | none => simpa only [osRemove, Prog.call, hn] using h1
        | some nd =>
          cases nd with
          | dir => simpa only [osRemove, Prog.call, hn] using h1
          | file c =>
            obtain ⟨g1, g2, g3⟩ := removed h1.tree hn
            simp only [osRemove, Prog.call, hn]
            exact h1.setMember ha hm g1 g3 (.inl g2)
      · cases r with
        | ok _ => exact ih (fun x hx => hsub x (by simp [hx])) a' h2
        | error e => exact .pure _ h2

end TarToZip

end Vista
