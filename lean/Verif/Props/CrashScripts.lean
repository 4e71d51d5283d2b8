import Verif.Proofs.CrashScripts

/-!
# C102: killed scripts on stores lose nothing; running them again works
-/
set_option linter.unusedSectionVars false
set_option linter.unusedSimpArgs false
namespace Vista
open Params (PathIs Present)

variable {order : List Str → List Str}

/-- The input is the same as long as the files it is made of, and the file its parameters name, are. -/
theorem InputIs.stable {E : FromParams.Env} {p : Params} {fs fs' : FS} {from_ : Loc → Prop} {M : Str → Option Bytes} (h : InputIs E p fs from_ M)
    (hfrom : ∀ q, from_ q → fs'.node q = fs.node q)
    (hmap : ∀ ns t mods l, FromParams.Typed E none p "input".toList ns t mods → PathIs E.cwd ns "path".toList l → fs'.node l = fs.node l) :
    InputIs E p fs' from_ M := by
  cases h with
  | @zip ns mods l _ hT hl hM => exact .zip hT hl (hM.congr (hfrom l rfl))
  | @documents ns mods l t ls items _ hT hl ht hls hitems h1 h2 =>
    refine .documents hT hl (by rw [hmap _ _ _ _ hT hl]; exact ht) hls hitems (fun k q hq => ?_) h2
    obtain ⟨b, e1, e2⟩ := h1 k q hq
    exact ⟨b, by rw [hfrom _ ⟨k, q, hq, rfl⟩]; exact e1, e2⟩

theorem dealt_unique {n : Nat} {ks : List Str} {M : Str → Option Bytes} {a b : Nat → Str → Option Bytes} (ha : Dealt n ks M a) (hb : Dealt n ks M b) : a = b := by
  funext j k
  apply Option.ext
  intro v
  exact (ha j k v).trans (hb j k v).symm

theorem sorted_unique {M : Str → Option Bytes} {a b : List Str} (ha : KeysOf M a) (hb : KeysOf M b) (sa : a.Pairwise fun x y => strLe x y = true)
    (sb : b.Pairwise fun x y => strLe x y = true) : a = b := by
  have hp : a.Perm b := (List.perm_ext_iff_of_nodup ha.1 hb.1).2 fun k => by rw [ha.2, hb.2]
  exact hp.eq_of_pairwise (fun x y _ _ h h' => strLe_antisymm h h') sa sb

/-! ## Even splits -/

/-- What killed runs of an even split leave: directories may have been made; the list of the slices is as before or a beginning of what it
should be; each slice is as before, or no zip file (some bytes), or the finished slice; the rest is as before. -/
structure EvenTorn (fs : FS) (dir : Loc) (n : Nat) (slice : Nat → Str → Option Bytes) (s : FS) : Prop where
  tree : s.Tree
  dirs : ∀ q, q <+: dir → s.node q = fs.node q ∨ (fs.node q = none ∧ s.node q = some .dir)
  list : s.node (dir ++ ["_slices.txt".toList]) = fs.node (dir ++ ["_slices.txt".toList]) ∨
    ∃ b more, s.node (dir ++ ["_slices.txt".toList]) = some (.file (.data b)) ∧
      encodeUtf8 (joinWith '\n' ((List.range n).map fun j => '/' :: joinWith '/' (dir ++ [(toString j).toList ++ ".zip".toList]))) = b ++ more
  slices : ∀ j, j < n → s.node (dir ++ [(toString j).toList ++ ".zip".toList]) = fs.node (dir ++ [(toString j).toList ++ ".zip".toList]) ∨
    (∃ b, s.node (dir ++ [(toString j).toList ++ ".zip".toList]) = some (.file (.data b))) ∨
    Stores s (dir ++ [(toString j).toList ++ ".zip".toList]) (slice j)
  others : ∀ q, EvenKept dir n q → s.node q = fs.node q

theorem EvenTorn.place {fs s : FS} {dir : Loc} {n : Nat} {slice : Nat → Str → Option Bytes} (h : EvenTorn fs dir n slice s) (hf : EvenPlace fs dir n) :
    EvenPlace s dir n where
  tree := h.tree
  free := by
    rintro ⟨q, c, hq, hc⟩
    rcases h.dirs q hq with e | ⟨-, e⟩
    · exact hf.free ⟨q, c, hq, e ▸ hc⟩
    · rw [e] at hc; cases hc
  list := by
    rcases h.list with e | ⟨b, -, e, -⟩
    · rw [e]; exact hf.list
    · rw [e]; simp
  slices j hj := by
    rcases h.slices j hj with e | ⟨b, e⟩ | ⟨a, e, -⟩
    · rw [e]; exact hf.slices j hj
    · rw [e]; simp
    · rw [e]; simp

theorem EvenTorn.step {fs s s' fin : FS} {dir : Loc} {n : Nat} {slice : Nat → Str → Option Bytes} (h : EvenTorn fs dir n slice s)
    (ht : Touches (fun q => q = dir ++ ["_slices.txt".toList] ∨ ∃ j, j < n ∧ q = slicePath dir j) (fun q => q <+: dir) (BOr (EvenRaw dir n) fin) s s')
    (hfin : ∀ j, j < n → Stores fin (dir ++ [(toString j).toList ++ ".zip".toList]) (slice j))
    (hlist : EvenAfter s dir n fin) : EvenTorn fs dir n slice s' where
  tree := ht.tree
  dirs q hq := by
    rcases ht.places q with e | ⟨-, e, e'⟩ | ⟨hF, -⟩
    · rw [e]; exact h.dirs q hq
    · refine .inr ⟨?_, e'⟩
      rcases h.dirs q hq with e1 | ⟨-, e1⟩
      · rw [← e1]; exact e
      · rw [e] at e1; cases e1
    · exfalso
      rcases hF with rfl | ⟨j, -, rfl⟩
      · have := hq.length_le; simp at this
      · exact slicePath_not_prefix dir j hq
  list := by
    rcases ht.places (dir ++ ["_slices.txt".toList]) with e | ⟨hq, -⟩ | ⟨-, -, c, e, hc⟩
    · rw [e]; exact h.list
    · have := hq.length_le; simp at this
    · right
      rcases hc with ⟨b, rfl, hb⟩ | hc
      · obtain ⟨more, hm⟩ := hb rfl
        exact ⟨b, more, e, hm⟩
      · rw [hlist.list] at hc
        exact ⟨_, .empty, e.trans hc.symm, by rw [ByteArray.append_empty]⟩
  slices j hj := by
    rcases ht.places (slicePath dir j) with e | ⟨hq, -⟩ | ⟨-, -, c, e, hc⟩
    · rcases h.slices j hj with h | ⟨b, h⟩ | h
      · exact .inl (e.trans h)
      · exact .inr (.inl ⟨b, e.trans h⟩)
      · exact .inr (.inr (h.congr e))
    · exact absurd hq (slicePath_not_prefix dir j)
    · rcases hc with ⟨b, rfl, -⟩ | hc
      · exact .inr (.inl ⟨b, e⟩)
      · exact .inr (.inr ((hfin j hj).congr (e.trans hc.symm)))
  others q hq := by
    rcases ht.places q with e | ⟨hd, -⟩ | ⟨hF, -⟩
    · rw [e]; exact h.others q hq
    · exact absurd hd hq.1
    · exfalso
      rcases hF with rfl | ⟨j, hj, rfl⟩
      · exact hq.2.1 rfl
      · exact hq.2.2 j hj rfl

theorem splitScriptK_run (E : FromParams.Env) (order : List Str → List Str) (shuffle : PVal → List Str → List Str) (p : Params) :
    (splitScriptK E order shuffle p).run = splitScript E order shuffle p := splitMainK_run _ _ _ _ _ _

theorem splitMainK_even_safe {cwd : PyPath} {σ : Type} {source : Prog σ} (ask : σ → FS → KVSource Bytes) (shuffle : PVal → List Str → List Str) {p : Params}
    {dir : Loc} {n : Nat} {seed : PVal} (hp : EvenParams cwd p dir n seed) {fs : FS} (hf : EvenPlace fs dir n) {s : σ} (hsrc : source fs = (.ok s, fs)) :
    SafeF (fun q => q = dir ++ ["_slices.txt".toList] ∨ ∃ j, j < n ∧ q = slicePath dir j) (fun q => q <+: dir) (EvenRaw dir n)
      (splitMainK order shuffle cwd source ask p) fs := by
  obtain ⟨v, hv, hc⟩ := hp.slices
  have hcont : p.contains "num_slices".toList = true := (Params.contains_present hp.wf _).2 (present_of_found hv hc)
  unfold splitMainK
  refine SafeF.bind (Safe.ofRes _ _) fun _ fs1 h1 => ?_
  have h1' : fs1 = fs := by
    cases hr : p.assertExactlyOnePresent ["num_slices".toList, "explicit_split".toList] with
    | ok u => rw [hr] at h1; cases h1; rfl
    | error e => rw [hr] at h1; cases h1
  subst h1'
  refine SafeF.bind (Safe.reading (by rw [hsrc])) fun s' fs2 h2 => ?_
  replace h2 : source fs1 = (.ok s', fs2) := h2
  rw [hsrc] at h2
  cases h2
  rw [if_pos hcont]
  exact evenSplitK_safe order shuffle (ask s) hp hf

/-- However often the script `split_key_value_store.py`, told to make even slices, has been started and killed before: the input and everything
but its outputs are as they were, each slice is as it was before, not a zip file, or the finished slice, and the next run that is not killed
succeeds, with the same slices as if nothing had happened.  (The file `input.path`, and the files it lists, must not be outputs.) -/
theorem C102_even_split (E : FromParams.Env) (hpy : FromParams.Understands E.py) (hg : ((FromParams.ownGlobals ++ E.rest).map (·.1)).Nodup)
    (horder : ∀ l, (order l).Perm l) (shuffle : PVal → List Str → List Str) (hshuffle : ∀ s l, (shuffle s l).Perm l) (p : Params) (dir : Loc) (n : Nat)
    (seed : PVal) (hp : EvenParams E.cwd p dir n seed) (hno : ¬ Present p "explicit_split".toList) (fs : FS) (hf : EvenPlace fs dir n)
    (from_ : Loc → Prop) (M : Str → Option Bytes) (hin : InputIs E p fs from_ M) (hkeys : ∀ k, M k ≠ none → PlainKey k)
    (hapart : ∀ q, from_ q → EvenKept dir n q)
    (hmap : ∀ ns t mods l, FromParams.Typed E none p "input".toList ns t mods → PathIs E.cwd ns "path".toList l → EvenKept dir n l) :
    ∃ slice, EvenSlices n M slice ∧
      (∃ fs', splitScript E order shuffle p fs = (.ok (), fs') ∧ EvenAfter fs dir n fs' ∧
        ∀ j, j < n → Stores fs' (dir ++ [(toString j).toList ++ ".zip".toList]) (slice j)) ∧
      ∀ s, KilledRuns (splitScriptK E order shuffle p) fs s → EvenTorn fs dir n slice s ∧
        ∃ s', splitScript E order shuffle p s = (.ok (), s') ∧ EvenAfter fs dir n s' ∧
          ∀ j, j < n → Stores s' (dir ++ [(toString j).toList ++ ".zip".toList]) (slice j) := by
  obtain ⟨fs', ks, sorted, slice, a1, a2, -, a3, a4, a5, a6, a7, a8, -, a9⟩ :=
    C101_even_split E hpy hg horder shuffle hshuffle p dir n seed hp hno fs hf from_ M hin hkeys hapart
  refine ⟨slice, a4, ⟨fs', a1, a2, a3⟩, ?_⟩
  -- in any torn state
  have input : ∀ s, EvenTorn fs dir n slice s → InputIs E p s from_ M := fun s h =>
    hin.stable (fun q hq => h.others q (hapart q hq)) fun ns t mods l hT hl => h.others l (hmap ns t mods l hT hl)
  have again : ∀ s, EvenTorn fs dir n slice s → ∃ s', splitScript E order shuffle p s = (.ok (), s') ∧ EvenAfter s dir n s' ∧
      ∀ j, j < n → Stores s' (dir ++ [(toString j).toList ++ ".zip".toList]) (slice j) := by
    intro s h
    obtain ⟨s', ks', sorted', slice', b1, b2, -, b3, b4, b5, b6, b7, b8, -, b9⟩ :=
      C101_even_split E hpy hg horder shuffle hshuffle p dir n seed hp hno s (h.place hf) from_ M (input s h) hkeys hapart
    have e1 : sorted' = sorted := sorted_unique b5 a5 b6 a6
    have e2 : ks' = ks := by
      by_cases hs : seed = .none
      · rw [a7 hs, b7 hs, e1]
      · rw [a8 hs, b8 hs, e1]
    have e3 : slice' = slice := dealt_unique (e2 ▸ b9) a9
    exact ⟨s', b1, b2, e3 ▸ b3⟩
  have torn : ∀ s, KilledRuns (splitScriptK E order shuffle p) fs s → EvenTorn fs dir n slice s := by
    intro s hs
    induction hs with
    | none => exact ⟨hf.tree, fun _ _ => .inl rfl, .inl rfl, fun _ _ => .inl rfl, fun _ _ => rfl⟩
    | @again s s' _ hk ih =>
      obtain ⟨fin, c1, c2, c3⟩ := again s ih
      obtain ⟨o, ho, -⟩ := input_spec .byteLinearSource (.inr rfl) hpy hg (input s ih)
      have hsafe : SafeF _ _ _ (splitScriptK E order shuffle p) s :=
        splitMainK_even_safe (order := order) (ByteSource.ask E.cwd) shuffle hp (ih.place hf) ho
      unfold SafeF at hsafe
      rw [splitScriptK_run, c1] at hsafe
      exact ih.step ((hsafe ih.tree).2 s' hk) c3 c2
  intro s hs
  have h := torn s hs
  obtain ⟨s', b1, b2, b3⟩ := again s h
  refine ⟨h, s', b1, ⟨b2.tree, b2.dirs, b2.list, fun q hq => by rw [b2.others q hq, h.others q hq]⟩, b3⟩

/-! ## Explicit splits -/

/-- A zip file whose store has these entries. -/
def Keeps (c : Content) (M : Str → Option Bytes) : Prop :=
  ∃ a, c = .zip a ∧ ∃ src, (Zip.Source.create (Zip.bytesConfig fun k => .ok k)).enter (some a) = .ok src ∧ Zip.Serves src.asSource PlainKey M

theorem stores_keeps {fs : FS} {l : Loc} {M : Str → Option Bytes} {c : Content} (h : Stores fs l M) (hc : fs.node l = some (.file c)) : Keeps c M := by
  obtain ⟨a, h1, h2⟩ := h
  rw [hc] at h1
  cases h1
  exact ⟨a, rfl, h2⟩

theorem keeps_stores {fs : FS} {l : Loc} {M : Str → Option Bytes} {c : Content} (h : Keeps c M) (hc : fs.node l = some (.file c)) : Stores fs l M := by
  obtain ⟨a, rfl, h2⟩ := h
  exact ⟨a, hc, h2⟩

/-- What killed runs of an explicit split leave: directories may have been made; each output is as before, or no zip file (some bytes), or
finished; the rest is as before. -/
structure JobsTorn (fs : FS) (jobs : List Job) (M : Str → Option Bytes) (s : FS) : Prop where
  tree : s.Tree
  dirs : ∀ job ∈ jobs, ∀ q, q <+: job.out → q ≠ job.out → s.node q = fs.node q ∨ (fs.node q = none ∧ s.node q = some .dir)
  outs : ∀ job ∈ jobs, s.node job.out = fs.node job.out ∨ (∃ b, s.node job.out = some (.file (.data b))) ∨ Stores s job.out (restrict M job.wanted)
  others : ∀ q, (∀ job ∈ jobs, ¬ q <+: job.out) → s.node q = fs.node q

/-- Places and contents of the outputs of an explicit split. -/
def JobF (jobs : List Job) (q : Loc) : Prop := ∃ job ∈ jobs, q = job.out
def JobD (jobs : List Job) (q : Loc) : Prop := ∃ job ∈ jobs, q <+: job.out.dropLast
def JobC (jobs : List Job) (M : Str → Option Bytes) (q : Loc) (c : Content) : Prop :=
  (∃ b, c = .data b) ∨ ∃ job ∈ jobs, q = job.out ∧ Keeps c (restrict M job.wanted)

section
variable {cwd : PyPath} {src : FS → KVSource Bytes} {M : Str → Option Bytes}

theorem splitOneK_safe {ns : Params} {job : Job} (hp : JobParams cwd ns job) {fs : FS} (ht : fs.Tree) (hl : job.Listed fs) :
    SafeF (fun q => q = job.out) (fun q => q <+: job.out.dropLast) Raw (splitOneK order cwd src ns) fs := by
  obtain ⟨text, ls, rs, hfile, -, -, -⟩ := id hl
  have hex := (Params.C73_existing_file cwd ns hp.wf "keys_file".toList fs).1 job.keysFile hp.keysFile ⟨_, hfile⟩
  unfold splitOneK
  refine SafeF.bind (Safe.reading (by rw [hex])) fun l fs1 h1 => ?_
  replace h1 : ns.existingFile cwd "keys_file".toList fs = (.ok l, fs1) := h1
  rw [hex] at h1
  cases h1
  refine SafeF.bind (Safe.reading (by rw [listed_keys hl])) fun keys fs1 h1 => ?_
  replace h1 : fileLinesToSet job.keysFile fs = (.ok keys, fs1) := h1
  rw [listed_keys hl] at h1
  cases h1
  exact one_safe order hp.wf hp.out (fun fs o => ((copyKeys (src fs) job.wanted o []).1, (copyKeys (src fs) job.wanted o []).2.2))
    (fun fs o => copyKeys_loc _ _ _ _) (fun fs o => (copyKeys (src fs) job.wanted o []).2.1) fs ht

theorem splitEachK_safe (horder : ∀ l, (order l).Perm l) {nss : List Params} {jobs : List Job} (all : List Job) (hsub : ∀ job ∈ jobs, job ∈ all)
    (hp : List.Forall₂ (JobParams cwd) nss jobs) {fs : FS} (hs : ServesWhile src (fun q => ∀ job ∈ jobs, ¬ q <+: job.out) fs M) (hplace : JobsPlace fs jobs)
    (hplain : ∀ job ∈ jobs, ∀ k ∈ job.wanted, PlainKey k) (hall : ∀ job ∈ jobs, ∀ k ∈ job.wanted, (M k).isSome = true) :
    Safe (JobF all) (JobD all) (JobC all M) (splitEachK order cwd src nss) fs := by
  induction hp generalizing fs with
  | nil => exact Safe.pure _ _
  | @cons ns job nss jobs h1 h2 ih =>
    obtain ⟨fs1, a1, a2⟩ := (splitOne_spec horder h1 (hs.mono fun q hq => hq job (by simp)) hplace.tree (hplace.listed job (by simp))
      (hplace.free job (by simp)) (hplain job (by simp))).1 (hall job (by simp))
    unfold splitEachK
    refine Safe.bind ?_ fun copied fs2 hr => ?_
    · have h := splitOneK_safe (order := order) (src := src) h1 hplace.tree (hplace.listed job (by simp))
      unfold SafeF at h
      rw [splitOneK_run, a1] at h
      refine h.mono (fun q hq => ⟨job, hsub job (by simp), hq⟩) (fun q hq => ⟨job, hsub job (by simp), hq⟩) fun q c hq hc => ?_
      rcases hc with hc | hc
      · exact .inl hc
      · subst hq
        exact .inr ⟨job, hsub job (by simp), rfl, stores_keeps a2.stored hc⟩
    · rw [splitOneK_run, a1] at hr
      cases hr
      refine Safe.bind ?_ fun _ _ _ => Safe.pure _ _
      exact ih (fun j hj => hsub j (by simp [hj]))
        ((hs.trans fun q hq => a2.others q (hq job (by simp))).mono fun q hq j hj => hq j (by simp [hj])) (hplace.after a2)
        (fun j hj => hplain j (by simp [hj])) fun j hj => hall j (by simp [hj])

theorem explicitSplitK_safe (horder : ∀ l, (order l).Perm l) {p : Params} {jobs : List Job} {must : Bool} (hp : ExplicitParams cwd p jobs must) {fs : FS}
    (hs : ServesWhile src (fun q => ∀ job ∈ jobs, ¬ q <+: job.out) fs M) (hplace : JobsPlace fs jobs)
    (hplain : ∀ job ∈ jobs, ∀ k ∈ job.wanted, PlainKey k) (hall : ∀ job ∈ jobs, ∀ k ∈ job.wanted, (M k).isSome = true) :
    Safe (JobF jobs) (JobD jobs) (JobC jobs M) (explicitSplitK order cwd src p) fs := by
  obtain ⟨ns, h1, h2, h3⟩ := hp.jobs
  have hns : p.namespace "explicit_split".toList = .ok ns := ((Params.C47_namespace p hp.wf _).1 ns).2 (by
    rw [show splitOn '.' "explicit_split".toList = ["explicit_split".toList] by decide +kernel]; exact h1)
  have hwf : ns.WF := PVal.WF.reaches hp.wf h1
  have hsub := (Params.C76_sub_namespaces ns hwf).1 h2
  unfold explicitSplitK
  refine Safe.bind (Safe.ofRes _ _) fun v fs1 e1 => ?_
  rw [hns] at e1
  cases e1
  refine Safe.bind (Safe.ofRes _ _) fun v fs1 e1 => ?_
  rw [hsub] at e1
  cases e1
  exact Safe.bind (splitEachK_safe horder jobs (fun _ h => h) h3 hs hplace hplain hall) fun _ _ _ =>
    Safe.bind (Safe.get _) fun _ _ _ => Safe.ofRes _ _

theorem JobsTorn.place {fs s : FS} {jobs : List Job} (h : JobsTorn fs jobs M s) (hf : JobsPlace fs jobs) : JobsPlace s jobs where
  tree := h.tree
  listed job hj := by
    obtain ⟨text, ls, rs, h1, h2⟩ := hf.listed job hj
    refine ⟨text, ls, rs, ?_, h2⟩
    rw [h.others _ fun j hj' hpre => ?_, h1]
    exact (hf.free j hj').1 ⟨_, _, prefix_dropLast hpre (hf.keep job hj j hj'), h1⟩
  free job hj := by
    have hne : job.out ≠ [] := by rintro e; have := (hf.free job hj).2; rw [e, FS.node_nil] at this; exact this rfl
    refine ⟨?_, ?_⟩
    · rintro ⟨q, c, hq, hc⟩
      have hq' : q ≠ job.out := by
        rintro rfl
        have := hq.length_le
        have := List.length_pos_of_ne_nil hne
        simp at *; omega
      rcases h.dirs job hj q (hq.trans (List.dropLast_prefix _)) hq' with e | ⟨-, e⟩
      · exact (hf.free job hj).1 ⟨q, c, hq, e ▸ hc⟩
      · rw [e] at hc; cases hc
    · rcases h.outs job hj with e | ⟨b, e⟩ | ⟨a, e, -⟩
      · rw [e]; exact (hf.free job hj).2
      · rw [e]; simp
      · rw [e]; simp
  apart := hf.apart
  keep := hf.keep

theorem jobs_same {jobs : List Job} (hap : jobs.Pairwise fun a b => ¬ a.out <+: b.out ∧ ¬ b.out <+: a.out) {a b : Job} (ha : a ∈ jobs) (hb : b ∈ jobs)
    (h : a.out <+: b.out) : a = b := by
  induction jobs with
  | nil => cases ha
  | cons j jobs ih =>
    rw [List.pairwise_cons] at hap
    rcases List.mem_cons.1 ha with rfl | ha'
    · rcases List.mem_cons.1 hb with rfl | hb'
      · rfl
      · exact absurd h (hap.1 b hb').1
    · rcases List.mem_cons.1 hb with rfl | hb'
      · exact absurd h (hap.1 a ha').2
      · exact ih hap.2 ha' hb'

theorem JobsTorn.step {fs s s' : FS} {jobs : List Job} (hap : jobs.Pairwise fun a b => ¬ a.out <+: b.out ∧ ¬ b.out <+: a.out) (h : JobsTorn fs jobs M s)
    (hne : ∀ job ∈ jobs, job.out ≠ []) (ht : Touches (JobF jobs) (JobD jobs) (JobC jobs M) s s') : JobsTorn fs jobs M s' where
  tree := ht.tree
  dirs job hj q hq hq' := by
    rcases ht.places q with e | ⟨-, e, e'⟩ | ⟨⟨j, hj', rfl⟩, -⟩
    · rw [e]; exact h.dirs job hj q hq hq'
    · refine .inr ⟨?_, e'⟩
      rcases h.dirs job hj q hq hq' with e1 | ⟨-, e1⟩
      · rw [← e1]; exact e
      · rw [e] at e1; cases e1
    · exact absurd (by rw [jobs_same hap hj' hj hq]) hq'
  outs job hj := by
    rcases ht.places job.out with e | ⟨⟨j, hj', hd⟩, -⟩ | ⟨-, -, c, e, hc⟩
    · rcases h.outs job hj with h | ⟨b, h⟩ | h
      · exact .inl (e.trans h)
      · exact .inr (.inl ⟨b, e.trans h⟩)
      · exact .inr (.inr (h.congr e))
    · exfalso
      have := jobs_same hap hj hj' (hd.trans (List.dropLast_prefix _))
      subst this
      have h1 := hd.length_le
      have h2 := List.length_pos_of_ne_nil (hne job hj)
      simp at h1; omega
    · rcases hc with ⟨b, rfl⟩ | ⟨j, hj', hjo, hk⟩
      · exact .inr (.inl ⟨b, e⟩)
      · have := jobs_same hap hj hj' (hjo ▸ List.prefix_refl _)
        subst this
        exact .inr (.inr (keeps_stores hk e))
  others q hq := by
    rcases ht.places q with e | ⟨⟨j, hj, hd⟩, -⟩ | ⟨⟨j, hj, rfl⟩, -⟩
    · rw [e]; exact h.others q hq
    · exact absurd (hd.trans (List.dropLast_prefix _)) (hq j hj)
    · exact absurd (List.prefix_refl _) (hq j hj)

end

theorem splitMainK_explicit_safe {cwd : PyPath} {σ : Type} {source : Prog σ} {ask : σ → FS → KVSource Bytes} (shuffle : PVal → List Str → List Str)
    (horder : ∀ l, (order l).Perm l) {p : Params} {jobs : List Job} {must : Bool} (hp : ExplicitParams cwd p jobs must)
    (hno : ¬ Present p "num_slices".toList) {fs : FS} {s : σ} (hsrc : source fs = (.ok s, fs)) {M : Str → Option Bytes}
    (hs : ServesWhile (ask s) (fun q => ∀ job ∈ jobs, ¬ q <+: job.out) fs M) (hplace : JobsPlace fs jobs)
    (hplain : ∀ job ∈ jobs, ∀ k ∈ job.wanted, PlainKey k) (hall : ∀ job ∈ jobs, ∀ k ∈ job.wanted, (M k).isSome = true) :
    Safe (JobF jobs) (JobD jobs) (JobC jobs M) (splitMainK order shuffle cwd source ask p) fs := by
  obtain ⟨ns, hns, -⟩ := hp.jobs
  have hpres : Present p "explicit_split".toList := ⟨ns.toVal, by simp [Params.toVal], by
    rw [show splitOn '.' "explicit_split".toList = ["explicit_split".toList] by decide +kernel]; exact hns⟩
  have hcont : p.contains "explicit_split".toList = true := (Params.contains_present hp.wf _).2 hpres
  have hcont' : ¬ p.contains "num_slices".toList = true := fun h => hno ((Params.contains_present hp.wf _).1 h)
  unfold splitMainK
  refine Safe.bind (Safe.ofRes _ _) fun _ fs1 h1 => ?_
  have h1' : fs1 = fs := by
    cases hr : p.assertExactlyOnePresent ["num_slices".toList, "explicit_split".toList] with
    | ok u => rw [hr] at h1; cases h1; rfl
    | error e => rw [hr] at h1; cases h1
  subst h1'
  refine Safe.bind (Safe.reading (by rw [hsrc])) fun s' fs2 h2 => ?_
  replace h2 : source fs1 = (.ok s', fs2) := h2
  rw [hsrc] at h2
  cases h2
  rw [if_neg hcont', if_pos hcont]
  exact explicitSplitK_safe horder hp hs hplace hplain hall

/-- The same for a split by lists of keys. -/
theorem C102_explicit_split (E : FromParams.Env) (hpy : FromParams.Understands E.py) (hg : ((FromParams.ownGlobals ++ E.rest).map (·.1)).Nodup)
    (horder : ∀ l, (order l).Perm l) (shuffle : PVal → List Str → List Str) (p : Params) (jobs : List Job) (must : Bool)
    (hp : ExplicitParams E.cwd p jobs must) (hno : ¬ Present p "num_slices".toList) (fs : FS) (hplace : JobsPlace fs jobs)
    (hplain : ∀ job ∈ jobs, ∀ k ∈ job.wanted, PlainKey k) (from_ : Loc → Prop) (M : Str → Option Bytes) (hin : InputIs E p fs from_ M)
    (hapart : ∀ q, from_ q → ∀ job ∈ jobs, ¬ q <+: job.out)
    (hmap : ∀ ns t mods l, FromParams.Typed E none p "input".toList ns t mods → PathIs E.cwd ns "path".toList l → ∀ job ∈ jobs, ¬ l <+: job.out)
    (hall : ∀ job ∈ jobs, ∀ k ∈ job.wanted, M k ≠ none) (s : FS) (hs : KilledRuns (splitScriptK E order shuffle p) fs s) :
    JobsTorn fs jobs M s ∧ ∃ s', JobsAfter fs jobs M s' ∧
      ((must = true → ∀ k, M k ≠ none → ∃ job ∈ jobs, k ∈ job.wanted) → splitScript E order shuffle p s = (.ok (), s')) ∧
      (must = true → (¬ ∀ k, M k ≠ none → ∃ job ∈ jobs, k ∈ job.wanted) → splitScript E order shuffle p s = (.error .runtimeError, s')) := by
  have input : ∀ s, JobsTorn fs jobs M s → InputIs E p s from_ M := fun s h =>
    hin.stable (fun q hq => h.others q (hapart q hq)) fun ns t mods l hT hl => h.others l (hmap ns t mods l hT hl)
  have torn : JobsTorn fs jobs M s := by
    induction hs with
    | none => exact ⟨hplace.tree, fun _ _ _ _ _ => .inl rfl, fun _ _ => .inl rfl, fun _ _ => rfl⟩
    | @again s s' _ hk ih =>
      obtain ⟨o, ho, hserve⟩ := input_spec .byteLinearSource (.inr rfl) hpy hg (input s ih)
      have hsafe : Safe _ _ _ (splitScriptK E order shuffle p) s :=
        splitMainK_explicit_safe (order := order) (ask := ByteSource.ask E.cwd) shuffle horder hp hno ho (hserve.mono hapart) (ih.place hplace) hplain
          (fun j hj k hk => Option.isSome_iff_ne_none.2 (hall j hj k hk))
      refine ih.step hplace.apart (fun job hj e => ?_) ((hsafe ih.tree).2 s' hk)
      have := (hplace.free job hj).2
      rw [e, FS.node_nil] at this
      exact this rfl
  obtain ⟨s', b1, -, b2, b3⟩ := C101_explicit_split E hpy hg horder shuffle p jobs must hp hno s (torn.place hplace) hplain from_ M (input s torn) hapart hall
  exact ⟨torn, s', ⟨b1.tree, b1.stored, b1.dirs, fun q hq => by rw [b1.others q hq, torn.others q hq]⟩, b2, b3⟩

/-! ## One output -/

/-- What killed runs of a program with one output leave: directories may have been made; the output is as before, or no zip file (some bytes),
or a store as it should be; the rest is as before. -/
structure OneTorn (fs : FS) (out : Loc) (good : (Str → Option Bytes) → Prop) (s : FS) : Prop where
  tree : s.Tree
  dirs : ∀ q, q <+: out → q ≠ out → s.node q = fs.node q ∨ (fs.node q = none ∧ s.node q = some .dir)
  output : s.node out = fs.node out ∨ (∃ b, s.node out = some (.file (.data b))) ∨ ∃ U, good U ∧ Stores s out U
  others : ∀ q, ¬ q <+: out → s.node q = fs.node q

section
variable {fs s s' : FS} {out : Loc} {good : (Str → Option Bytes) → Prop}

theorem OneTorn.free (h : OneTorn fs out good s) (hfree : ¬ fs.Blocked out.dropLast) (hdir : fs.node out ≠ some .dir) :
    ¬ s.Blocked out.dropLast ∧ s.node out ≠ some .dir := by
  have hne : out ≠ [] := by rintro e; rw [e, FS.node_nil] at hdir; exact hdir rfl
  refine ⟨?_, ?_⟩
  · rintro ⟨q, c, hq, hc⟩
    have hq' : q ≠ out := by
      rintro rfl
      have := hq.length_le
      have := List.length_pos_of_ne_nil hne
      simp at *; omega
    rcases h.dirs q (hq.trans (List.dropLast_prefix _)) hq' with e | ⟨-, e⟩
    · exact hfree ⟨q, c, hq, e ▸ hc⟩
    · rw [e] at hc; cases hc
  · rcases h.output with e | ⟨b, e⟩ | ⟨U, -, a, e, -⟩
    · rw [e]; exact hdir
    · rw [e]; simp
    · rw [e]; simp

theorem one_killed {x : Killable Unit} (ht : fs.Tree) (hdir : fs.node out ≠ some .dir)
    (hx : ∀ s, OneTorn fs out good s → SafeF (fun q => q = out) (fun q => q <+: out.dropLast) Raw x s ∧ ∃ U, good U ∧ Stores (x.run s).2 out U)
    (hs : KilledRuns x fs s) : OneTorn fs out good s := by
  have hne : out ≠ [] := by rintro e; rw [e, FS.node_nil] at hdir; exact hdir rfl
  have hnp : ¬ out <+: out.dropLast := by
    intro h
    have := h.length_le
    have := List.length_pos_of_ne_nil hne
    simp at *; omega
  induction hs with
  | none => exact ⟨ht, fun _ _ _ => .inl rfl, .inl rfl, fun _ _ => rfl⟩
  | @again s s' _ hk ih =>
    obtain ⟨h1, U, hU, h2⟩ := hx s ih
    have hT := (h1 ih.tree).2 s' hk
    refine ⟨hT.tree, fun q hq hq' => ?_, ?_, fun q hq => ?_⟩
    · rcases hT.places q with e | ⟨-, e, e'⟩ | ⟨rfl, -⟩
      · rw [e]; exact ih.dirs q hq hq'
      · refine .inr ⟨?_, e'⟩
        rcases ih.dirs q hq hq' with e1 | ⟨-, e1⟩
        · rw [← e1]; exact e
        · rw [e] at e1; cases e1
      · exact absurd rfl hq'
    · rcases hT.places out with e | ⟨hd, -⟩ | ⟨-, -, c, e, hc⟩
      · rcases ih.output with h | ⟨b, h⟩ | ⟨U, hU, h⟩
        · exact .inl (e.trans h)
        · exact .inr (.inl ⟨b, e.trans h⟩)
        · exact .inr (.inr ⟨U, hU, h.congr e⟩)
      · exact absurd hd hnp
      · rcases hc with ⟨b, rfl⟩ | hc
        · exact .inr (.inl ⟨b, e⟩)
        · exact .inr (.inr ⟨U, hU, h2.congr (e.trans hc.symm)⟩)
    · rcases hT.places q with e | ⟨hd, -⟩ | ⟨rfl, -⟩
      · rw [e]; exact ih.others q hq
      · exact absurd (hd.trans (List.dropLast_prefix _)) hq
      · exact absurd (List.prefix_refl _) hq

end

/-! ## Sampling -/

theorem downsampleK_safe {cwd : PyPath} {σ : Type} {source : Prog σ} {ask : σ → FS → KVSource Bytes} (shuffle : Int → List Str → Res (List Str)) {p : Params}
    {n : Nat} {seed : Int} {out : Loc} (hp : SampleParams cwd p n seed out) {s : σ} {ks : List Str} {fs : FS} (ht : fs.Tree) (hsrc : source fs = (.ok s, fs))
    (hk : (ask s fs).keys = .ok (some ks)) :
    SafeF (fun q => q = out) (fun q => q <+: out.dropLast) Raw (downsampleK order shuffle cwd source ask p) fs := by
  unfold downsampleK
  refine SafeF.bind (Safe.reading (by rw [hsrc])) fun s' fs2 h2 => ?_
  replace h2 : source fs = (.ok s', fs2) := h2
  rw [hsrc] at h2
  cases h2
  refine SafeF.bind (Safe.get _) fun fs2 fs3 h3 => ?_
  cases h3
  refine SafeF.bind (Safe.ofRes _ _) fun r fs3 h3 => ?_
  rw [hk] at h3
  cases h3
  show SafeF _ _ _ (do
    let num ← Killable.ofRes (p.positiveInteger "num_to_sample".toList)
    let seed ← Killable.ofRes (p.integer "random_seed".toList none (.int 0))
    let shuffled ← Killable.ofRes (shuffle ((Params.asInt seed).getD 0) ks)
    sampleIntoK order cwd (ask s) (shuffled.take (min ((Params.asInt num).getD 0).toNat ks.length)) p) fs
  have same : ∀ {α : Type} {r : Res α} {a : α} {fs' : FS}, (Killable.ofRes r).run fs = (.ok a, fs') → fs' = fs := by
    intro α r a fs' h
    cases r with
    | ok u => cases h; rfl
    | error e => cases h
  refine SafeF.bind (Safe.ofRes _ _) fun num fs3 h3 => ?_
  obtain rfl := same h3
  refine SafeF.bind (Safe.ofRes _ _) fun sd fs4 h4 => ?_
  obtain rfl := same h4
  refine SafeF.bind (Safe.ofRes _ _) fun l fs5 h5 => ?_
  obtain rfl := same h5
  unfold sampleIntoK
  refine SafeF.bind (Safe.creatableFileK hp.wf hp.out (fun _ h => h) fs5) fun l' fs6 h6 => ?_
  replace h6 : p.creatableFile cwd "output_zip_path".toList fs5 = (.ok l', fs6) := h6
  by_cases hb : fs5.Blocked out.dropLast
  · rw [(Params.C73_creatable_file cwd p hp.wf _ fs5 ht).2.1 out hp.out hb] at h6; cases h6
  obtain ⟨fs1', a1, a2, a3⟩ := (Params.C73_creatable_file cwd p hp.wf _ fs5 ht).1 out hp.out hb
  rw [a1] at h6
  cases h6
  exact fill_safe order out (fun fs o => sampleKeys (ask s fs) (l.take (min ((Params.asInt num).getD 0).toNat ks.length)) o)
    (fun fs o => sampleKeys_loc _ _ _) a3

/-- The same for sampling: the next run that is not killed writes the sample the first run would have written.  (The source must be the same
whenever nothing but the output has changed.) -/
theorem C102_downsample {cwd : PyPath} {σ : Type} {source : Prog σ} {ask : σ → FS → KVSource Bytes} (horder : ∀ l, (order l).Perm l)
    (shuffle : Int → List Str → Res (List Str)) (o : σ) (M : Str → Option Bytes) (hkeys : ∀ k, (M k).isSome = true → PlainKey k) (ks : List Str)
    (p : Params) (n : Nat) (seed : Int) (out : Loc) (hp : SampleParams cwd p n seed out) (l : List Str) (hl : shuffle seed ks = .ok l) (hperm : l.Perm ks)
    (fs : FS) (ht : fs.Tree) (hsrc : ∀ s, (∀ q, ¬ q <+: out → s.node q = fs.node q) → source s = (.ok o, s) ∧ (ask o s).keys = .ok (some ks))
    (hs : ServesWhile (ask o) (fun q => ¬ q <+: out) fs M) (hfree : ¬ fs.Blocked out.dropLast) (hdir : fs.node out ≠ some .dir) :
    ∃ S, SampleOf M (min n ks.length) S ∧ (∃ fs', downsample order shuffle cwd source ask p fs = (.ok (), fs') ∧ OneAfter fs out S fs') ∧
      ∀ s, KilledRuns (downsampleK order shuffle cwd source ask p) fs s → OneTorn fs out (fun U => U = S) s ∧
        ∃ s', downsample order shuffle cwd source ask p s = (.ok (), s') ∧ OneAfter fs out S s' := by
  obtain ⟨fs', S, a1, a2, a3, a4, a5⟩ := C66_downsample horder shuffle o M hkeys ks p n seed out hp l hl hperm fs ht (hsrc fs fun _ _ => rfl).1
    (hsrc fs fun _ _ => rfl).2 hs hfree hdir
  refine ⟨S, a3, ⟨fs', a1, a2⟩, ?_⟩
  have again : ∀ s, OneTorn fs out (fun U => U = S) s → ∃ s', downsample order shuffle cwd source ask p s = (.ok (), s') ∧ OneAfter s out S s' := by
    intro s h
    obtain ⟨h1, h2⟩ := h.free hfree hdir
    obtain ⟨s', S', b1, b2, b3, b4, b5⟩ := C66_downsample horder shuffle o M hkeys ks p n seed out hp l hl hperm s h.tree (hsrc s h.others).1
      (hsrc s h.others).2 (hs.trans h.others) h1 h2
    have : S' = S := by
      funext k
      by_cases hk : k ∈ l.take n
      · obtain ⟨v, hv⟩ := Option.isSome_iff_exists.1 ((a5.2 k).1 hk)
        obtain ⟨v', hv'⟩ := Option.isSome_iff_exists.1 ((b5.2 k).1 hk)
        have e1 := a3.1 k v hv
        have e2 := b3.1 k v' hv'
        rw [hv, hv', ← e1, ← e2]
      · have e1 : ¬ (S k).isSome = true := fun h => hk ((a5.2 k).2 h)
        have e2 : ¬ (S' k).isSome = true := fun h => hk ((b5.2 k).2 h)
        rw [Option.not_isSome_iff_eq_none] at e1 e2
        rw [e1, e2]
    exact ⟨s', b1, this ▸ b2⟩
  intro s hk
  have torn : OneTorn fs out (fun U => U = S) s := one_killed ht hdir (fun s h => by
    refine ⟨downsampleK_safe shuffle hp h.tree (hsrc s h.others).1 (hsrc s h.others).2, S, rfl, ?_⟩
    obtain ⟨s', b1, b2⟩ := again s h
    rw [downsampleK_run, b1]
    exact b2.stored) hk
  obtain ⟨s', b1, b2⟩ := again s torn
  exact ⟨torn, s', b1, b2.tree, b2.stored, b2.dirs, fun q hq => by rw [b2.others q hq, torn.others q hq]⟩

/-- In particular for the script `downsample_key_value_store.py`, when `input` describes a zip store. -/
theorem C102_downsample_script (E : FromParams.Env) (hpy : FromParams.Understands E.py) (hg : ((FromParams.ownGlobals ++ E.rest).map (·.1)).Nodup)
    (horder : ∀ l, (order l).Perm l) (shuffle : Int → List Str → Res (List Str)) (hshuffle : ∀ s l, ∃ l', shuffle s l = .ok l' ∧ l'.Perm l) (p : Params)
    (n : Nat) (seed : Int) (out : Loc) (hp : SampleParams E.cwd p n seed out) (fs : FS) (ht : fs.Tree) (hfree : ¬ fs.Blocked out.dropLast)
    (hdir : fs.node out ≠ some .dir) (M : Str → Option Bytes) (ns : Params) (mods : List Str) (l : Loc)
    (hT : FromParams.Typed E none p "input".toList ns "zip".toList mods) (hl : PathIs E.cwd ns "path".toList l) (hM : Stores fs l M)
    (hkeys : ∀ k, M k ≠ none → PlainKey k) (hapart : ¬ l <+: out) :
    ∃ S ks, KeysOf M ks ∧ SampleOf M (min n ks.length) S ∧ (∃ fs', downsampleScript E order shuffle p fs = (.ok (), fs') ∧ OneAfter fs out S fs') ∧
      ∀ s, KilledRuns (downsampleScriptK E order shuffle p) fs s → OneTorn fs out (fun U => U = S) s ∧
        ∃ s', downsampleScript E order shuffle p s = (.ok (), s') ∧ OneAfter fs out S s' := by
  have hE : FromParams.Sane E none := ⟨hpy, hg, by simp, by simp⟩
  obtain ⟨src, a1, a2⟩ := zipBytesSource_spec hM
  obtain ⟨a, h1, -⟩ := id hM
  obtain ⟨ks, k1, k2, k3⟩ := a2.keys
  obtain ⟨l', l1, l2⟩ := hshuffle seed ks
  have same : ∀ s : FS, s.node l = fs.node l → (do let o ← FromParams.byteSource E p; enterByteSource o : Prog ByteSource) s = (.ok (.zip ⟨l, a, src⟩), s) ∧
      (ByteSource.ask E.cwd (.zip ⟨l, a, src⟩) s) = src.asSource := by
    intro s hsl
    obtain ⟨b1, -⟩ := FromParams.C74_zip_bytes E none hE p _ ns mods hT s l hl M (hM.congr hsl)
    have hz : zipBytesSource l s = (.ok src, s) := by
      simp only [zipBytesSource, Prog.bind_apply, readFile, h1, Prog.ofRes_apply] at a1
      simp only [zipBytesSource, Prog.bind_apply, readFile, hsl, h1, Prog.ofRes_apply]
      rcases hz : (Zip.Source.create (Zip.bytesConfig fun k => .ok k)).enter (some a) with e | o
      · rw [hz] at a1; simp at a1
      · rw [hz] at a1; simp at a1; simp [a1]
    have ho : openZipBytes l s = (.ok ⟨l, a, src⟩, s) := by
      simp only [openZipBytes, Prog.bind_apply, hz, readFile, hsl, h1, Prog.pure_apply]
    refine ⟨by simp only [Prog.bind_apply, b1, enterByteSource, ho, Prog.pure_apply], ?_⟩
    simp only [ByteSource.ask, OpenZip.ask, hsl, h1, if_true]
  obtain ⟨S, b1, b2, b3⟩ := C102_downsample (order := order) (cwd := E.cwd)
    (source := (do let o ← FromParams.byteSource E p; enterByteSource o : Prog ByteSource)) (ask := ByteSource.ask E.cwd) horder shuffle
    (.zip ⟨l, a, src⟩) M (fun k hk => hkeys k (Option.isSome_iff_ne_none.1 hk)) ks p n seed out hp l' l1 l2 fs ht
    (fun s h => ⟨(same s (h l hapart)).1, by rw [(same s (h l hapart)).2]; exact k1⟩)
    (fun s h => by rw [(same s (h l hapart)).2]; exact a2) hfree hdir
  exact ⟨S, ks, ⟨k2, k3⟩, b1, b2, b3⟩

/-! ## Joining -/

/-- The list of the inputs is the same as long as the file it is in is. -/
theorem pathList_same {cwd : PyPath} {p : Params} {param : Str} {fs s : FS} {paths : List PyPath}
    (h : p.pathListFromFile cwd param none fs = (.ok paths, fs)) (hsame : ∀ l, p.pathParam cwd param = .ok l → s.node l = fs.node l) :
    p.pathListFromFile cwd param none s = (.ok paths, s) := by
  simp only [Params.pathListFromFile, Prog.bind_apply, Prog.ofRes_apply] at h ⊢
  cases hv : p.privateGet param false .none with
  | error e => rw [hv] at h; simp at h
  | ok v =>
    rw [hv] at h
    by_cases hstr : ∃ t, v = .str t
    · obtain ⟨t, rfl⟩ := hstr
      simp only [Params.existingFile, Prog.bind_apply, Prog.ofRes_apply] at h ⊢
      cases hl : p.pathParam cwd param with
      | error e => rw [hl] at h; simp at h
      | ok l =>
        have hn := hsame l hl
        rw [hl] at h
        have e1 : s.exists' l = fs.exists' l := by unfold FS.exists'; rw [hn]
        have e2 : s.isFile l = fs.isFile l := by unfold FS.isFile; rw [hn]
        have e3 : fileSource l s = ((fileSource l fs).1, s) := by
          simp only [fileSource, readData, readFile, Prog.bind_apply, hn]
          rcases fs.node l with _ | _ | c
          · rfl
          · rfl
          · cases c with
            | zip a => rfl
            | data b => simp only [Prog.pure_apply, Prog.ofRes_apply]
        simp only [Prog.get_apply, e1, e2] at h ⊢
        cases hx : fs.exists' l with
        | false => rw [hx] at h; simp [Prog.raise_apply] at h
        | true =>
          rw [hx] at h
          cases hy : fs.isFile l with
          | false => rw [hy] at h; simp [Prog.raise_apply] at h
          | true =>
            rw [hy] at h
            simp only [if_true, Prog.pure_apply, e3] at h ⊢
            rcases ht : fileSource l fs with ⟨r, f⟩
            rw [ht] at h
            cases r with
            | error e => simp at h
            | ok t => simpa [ht] using (Prod.mk.inj h).1
    · cases v with
      | str t => exact absurd ⟨t, rfl⟩ hstr
      | _ =>
        simp only [Prog.bind_apply, Prog.ofRes_apply] at h ⊢
        cases hl : p.arbitraryList param with
        | error e => rw [hl] at h; simp at h
        | ok w =>
          rw [hl] at h
          cases w with
          | list vs =>
            simp only [Prog.ofRes_apply] at h ⊢
            cases hp : Params.pathElements none vs with
            | error e => rw [hp] at h; simp at h
            | ok ps => rw [hp] at h; simpa using h
          | _ => simp [Prog.raise_apply] at h

theorem joinMainK_safe {E : FromParams.Env} {p : Params} {out : Loc} (hp : DirToStore.Output E p "zip".toList out) {fs : FS} (ht : fs.Tree)
    {paths : List PyPath} (hpaths : p.pathListFromFile E.cwd "input_store_list_file".toList none fs = (.ok paths, fs)) (hfree : ¬ fs.Blocked out.dropLast) :
    SafeF (fun q => q = out) (fun q => q <+: out.dropLast) Raw (joinMainK E order p) fs := by
  obtain ⟨ns, mods, hT, hout⟩ := hp.typed
  obtain ⟨fs1, a2, a3, -, a1⟩ := (FromParams.C74_zip_sink E _ (sane_of_join hp.py hp.globals p paths) p _ ns mods (FromParams.typed_mono hT _) fs ht).1
    out hout hfree
  unfold joinMainK
  refine SafeF.bind (Safe.reading (by rw [hpaths])) fun paths' fs2 h2 => ?_
  replace h2 : p.pathListFromFile E.cwd "input_store_list_file".toList none fs = (.ok paths', fs2) := h2
  rw [hpaths] at h2
  cases h2
  refine SafeF.bind (Safe.makingDirs (fun _ h => h) hfree (by rw [a1]; exact a2) (by rw [a1]; exact a3)) fun o fs2 h2 => ?_
  replace h2 : FromParams.byteSink E p "output".toList (some (joinLocals p paths)) fs = (.ok o, fs2) := h2
  rw [a1] at h2
  cases h2
  exact fill_safe order out (fun fs o => joinEach E.cwd fs paths o []) (fun fs o => joinEach_loc _ _ _ _ _) a3

/-- The same for joining: if no key occurs in two inputs, the output is as before, no zip file, or the union of the inputs; and the next run that
is not killed makes it the union.  If a key occurs in two inputs, the output never has an entry that is not of an input, and the next run raises
`RuntimeError` as the first would have. -/
theorem C102_join (horder : ∀ l, (order l).Perm l) (E : FromParams.Env) (p : Params) (out : Loc) (hp : DirToStore.Output E p "zip".toList out) (fs : FS)
    (ht : fs.Tree) (paths : List PyPath) (hpaths : p.pathListFromFile E.cwd "input_store_list_file".toList none fs = (.ok paths, fs))
    (hlist : ¬ PathIs E.cwd p "input_store_list_file".toList out)
    (Ms : List (Str → Option Bytes)) (hin : List.Forall₂ (Input E.cwd fs) paths Ms) (hfree : ¬ fs.Blocked out.dropLast)
    (hdir : fs.node out ≠ some .dir) (hkeep : ∀ path ∈ paths, PyPath.resolve E.cwd path ≠ out) :
    (Disjoint' Ms → ∃ U, UnionOf Ms U ∧ ∀ s, KilledRuns (joinMainK E order p) fs s → OneTorn fs out (fun W => W = U) s ∧
      ∃ s', joinMain E order p s = (.ok (), s') ∧ OneAfter fs out U s') ∧
    (¬ Disjoint' Ms → ∀ s, KilledRuns (joinMainK E order p) fs s →
      OneTorn fs out (fun W => ∀ k v, W k = some v → ∃ M ∈ Ms, M k = some v) s ∧
      ∃ s' W, joinMain E order p s = (.error .runtimeError, s') ∧ OneAfter fs out W s' ∧ ∀ k v, W k = some v → ∃ M ∈ Ms, M k = some v) := by
  have hwf : p.WF := by obtain ⟨_, _, hT, -⟩ := hp.typed; exact hT.wf
  have stable : ∀ {good s}, OneTorn fs out good s → p.pathListFromFile E.cwd "input_store_list_file".toList none s = (.ok paths, s) := by
    intro good s h
    refine pathList_same hpaths fun l hl => ?_
    have hl' := ((Params.pathParam_spec E.cwd hwf _).1 l).1 hl
    by_cases hpre : l <+: out
    · have hne : l ≠ out := fun e => hlist (e ▸ hl')
      rcases h.dirs l hpre hne with e | ⟨e, -⟩
      · exact e
      · exfalso
        generalize "input_store_list_file".toList = param at hl hl' hpaths
        obtain ⟨t, ht, -⟩ := hl'
        have hx := Params.privateGet_of_found hwf ht
        simp [Params.pathListFromFile, Prog.bind_apply, Prog.ofRes_apply, hx, Params.existingFile, hl, Prog.get_apply, FS.exists', e, Prog.raise_apply] at hpaths
    · exact h.others l hpre
  have inputs : ∀ {good s}, OneTorn fs out good s → List.Forall₂ (Input E.cwd s) paths Ms := fun h => input_same hin hfree hkeep h.others
  have after : ∀ {good s s' U}, OneTorn fs out good s → OneAfter s out U s' → OneAfter fs out U s' := fun h b =>
    ⟨b.tree, b.stored, b.dirs, fun q hq => by rw [b.others q hq, h.others q hq]⟩
  constructor
  · intro hd
    obtain ⟨fs', U, a1, a2, a3⟩ := (C64_join horder E p out hp fs ht paths hpaths Ms hin hfree hdir hkeep).1 hd
    have again : ∀ s, OneTorn fs out (fun W => W = U) s → ∃ s', joinMain E order p s = (.ok (), s') ∧ OneAfter s out U s' := by
      intro s h
      obtain ⟨h1, h2⟩ := h.free hfree hdir
      obtain ⟨s', U', b1, b2, b3⟩ := (C64_join horder E p out hp s h.tree paths (stable h) Ms (inputs h) h1 h2 hkeep).1 hd
      have : U' = U := by
        funext k
        apply Option.ext
        intro v
        exact (b2 k v).trans (a2 k v).symm
      exact ⟨s', b1, this ▸ b3⟩
    refine ⟨U, a2, fun s hk => ?_⟩
    have torn : OneTorn fs out (fun W => W = U) s := one_killed ht hdir (fun s h => by
      refine ⟨joinMainK_safe hp h.tree (stable h) (h.free hfree hdir).1, U, rfl, ?_⟩
      obtain ⟨s', b1, b2⟩ := again s h
      rw [joinMainK_run, b1]
      exact b2.stored) hk
    obtain ⟨s', b1, b2⟩ := again s torn
    exact ⟨torn, s', b1, after torn b2⟩
  · intro hd s hk
    have again : ∀ s, OneTorn fs out (fun W => ∀ k v, W k = some v → ∃ M ∈ Ms, M k = some v) s →
        ∃ s' W, joinMain E order p s = (.error .runtimeError, s') ∧ OneAfter s out W s' ∧ ∀ k v, W k = some v → ∃ M ∈ Ms, M k = some v := by
      intro s h
      obtain ⟨h1, h2⟩ := h.free hfree hdir
      exact (C64_join horder E p out hp s h.tree paths (stable h) Ms (inputs h) h1 h2 hkeep).2 hd
    have torn : OneTorn fs out (fun W => ∀ k v, W k = some v → ∃ M ∈ Ms, M k = some v) s := one_killed ht hdir (fun s h => by
      obtain ⟨s', W, b1, b2, b3⟩ := again s h
      refine ⟨joinMainK_safe hp h.tree (stable h) (h.free hfree hdir).1, W, b3, ?_⟩
      rw [joinMainK_run, b1]
      exact b2.stored) hk
    obtain ⟨s', W, b1, b2, b3⟩ := again s torn
    exact ⟨torn, s', W, b1, after torn b2, b3⟩

/-- A file that is no zip file cannot be mistaken for a store: opening it raises, and changes nothing. -/
theorem C102_torn (l : Loc) (fs : FS) (b : Bytes) (h : fs.node l = some (.file (.data b))) :
    (∀ M, ¬ Stores fs l M) ∧ ∃ e, zipBytesSource l fs = (.error e, fs) := by
  constructor
  · rintro M ⟨a, e, -⟩
    rw [h] at e; cases e
  · exact ⟨.other, by simp only [zipBytesSource, Prog.bind_apply, readFile, h, Prog.raise_apply]⟩

/-! ## What is lost -/

/-- What was at the output before is lost as soon as the output is opened: a join can be killed with nothing but an empty file there. -/
theorem C102_old_output_counterexample (E : FromParams.Env) (p : Params) (out : Loc) (hp : DirToStore.Output E p "zip".toList out) (fs : FS)
    (ht : fs.Tree) (paths : List PyPath) (hpaths : p.pathListFromFile E.cwd "input_store_list_file".toList none fs = (.ok paths, fs))
    (hfree : ¬ fs.Blocked out.dropLast) (hdir : fs.node out ≠ some .dir) :
    ∃ s, KilledRuns (joinMainK E order p) fs s ∧ s.node out = some (.file (.data .empty)) := by
  have hne : out ≠ [] := by rintro e; rw [e, FS.node_nil] at hdir; exact hdir rfl
  obtain ⟨ns, mods, hT, hout⟩ := hp.typed
  obtain ⟨fs1, a2, a3, -, a1⟩ := (FromParams.C74_zip_sink E _ (sane_of_join hp.py hp.globals p paths) p _ ns mods (FromParams.typed_mono hT _) fs ht).1
    out hout hfree
  have hnp : ¬ out <+: out.dropLast := by
    intro h
    have := h.length_le
    have := List.length_pos_of_ne_nil hne
    simp at *; omega
  obtain ⟨o, fs2, b1, -, -, b4, -⟩ := (enter_spec order a3 out).1 hne (a2.1 _ (List.prefix_refl _)) (by rw [a2.2 _ hnp]; exact hdir)
  refine ⟨fs2, .again .none (.inr ⟨paths, fs, hpaths, .inr ⟨_, fs1, a1, .inl (.inr ?_)⟩⟩), b4.1⟩
  rw [b1]

/-- After a split has been finished, a second run of the same split can be killed while it writes the list of slices again, so that the list ends
early, after any number of slices, although all the slices are there; joining by this list then succeeds, with the entries of the listed slices
only. -/
theorem C102_short_list_counterexample (E : FromParams.Env) (horder : ∀ l, (order l).Perm l)
    (shuffle : PVal → List Str → List Str) (hshuffle : ∀ s l, (shuffle s l).Perm l) (p : Params) (dir : Loc) (n : Nat)
    (seed : PVal) (hp : EvenParams E.cwd p dir n seed) (hno : ¬ Present p "explicit_split".toList) (fs : FS) (hf : EvenPlace fs dir n)
    (from_ : Loc → Prop) (M : Str → Option Bytes) (hin : InputIs E p fs from_ M) (hkeys : ∀ k, M k ≠ none → PlainKey k)
    (hapart : ∀ q, from_ q → EvenKept dir n q)
    (hmap : ∀ ns t mods l, FromParams.Typed E none p "input".toList ns t mods → PathIs E.cwd ns "path".toList l → EvenKept dir n l)
    (hnames : ∀ w ∈ dir, Params.PlainName w ∧ ∀ c ∈ w, isLineBreak c = false)
    (p' : Params) (out : Loc) (hp' : DirToStore.Output E p' "zip".toList out) (hlist : PathIs E.cwd p' "input_store_list_file".toList (dir ++ ["_slices.txt".toList]))
    (hfree : ¬ fs.Blocked out.dropLast) (hdir : fs.node out ≠ some .dir) (hout : ¬ dir <+: out) (hout' : ¬ out <+: dir) (m : Nat) (hm : 0 < m) (hmn : m < n) :
    ∃ slice fs1 s fs2 U, EvenSlices n M slice ∧ splitScript E order shuffle p fs = (.ok (), fs1) ∧
      KilledRuns (splitScriptK E order shuffle p) fs1 s ∧ (∀ j, j < n → Stores s (dir ++ [(toString j).toList ++ ".zip".toList]) (slice j)) ∧
      joinMain E order p' s = (.ok (), fs2) ∧ Stores fs2 out U ∧ ∀ k v, U k = some v ↔ ∃ j, j < m ∧ slice j k = some v := by
  obtain ⟨slice, a1, ⟨fs1, a2, a3, a4⟩, a5⟩ := C102_even_split (order := order) E hp'.py hp'.globals horder shuffle hshuffle p dir n seed hp hno fs hf from_ M hin hkeys hapart hmap
  have hf1 : EvenPlace fs1 dir n := by
    refine ⟨a3.tree, ?_, by rw [a3.list]; simp, fun j hj => ?_⟩
    · rintro ⟨q, c, hq, hc⟩
      rw [a3.dirs q hq] at hc; cases hc
    · obtain ⟨a, e, -⟩ := a4 j hj
      rw [e]; simp
  have hin1 : InputIs E p fs1 from_ M := hin.stable (fun q hq => a3.others q (hapart q hq)) fun ns t mods l hT hl => a3.others l (hmap ns t mods l hT hl)
  let line : Nat → Str := fun j => '/' :: joinWith '/' (dir ++ [(toString j).toList ++ ".zip".toList])
  have hb : encodeUtf8 (joinWith '\n' ((List.range n).map line)) = encodeUtf8 (joinWith '\n' ((List.range m).map line)) ++
      encodeUtf8 ('\n' :: joinWith '\n' ((List.range (n - m)).map fun j => line (m + j))) := by
    have hr : List.range n = List.range m ++ (List.range (n - m)).map (m + ·) := by
      rw [← List.range_add]; congr 1; omega
    rw [hr, List.map_append, joinWith_append (by simp; omega) (by simp; omega), encodeUtf8_append, List.map_map]
    rfl
  obtain ⟨o, ho, hserve⟩ := input_spec .byteLinearSource (.inr rfl) hp'.py hp'.globals hin1
  obtain ⟨s, b1, b2, b3, b4, b5⟩ := evenSplitK_list order shuffle (ByteSource.ask E.cwd o) hp hf1 hb
  have hnp : ∀ w : Str, ¬ dir ++ [w] <+: dir := fun w h => by have := h.length_le; simp at this
  have hk : KilledRuns (splitScriptK E order shuffle p) fs1 s := by
    refine .again .none ?_
    obtain ⟨v, hv, hc⟩ := hp.slices
    have hcont : p.contains "num_slices".toList = true := (Params.contains_present hp.wf _).2 (present_of_found hv hc)
    have hcont' : p.contains "explicit_split".toList = false := by
      rw [Bool.eq_false_iff, ne_eq, Params.contains_present hp.wf]; exact hno
    have hone : p.assertExactlyOnePresent ["num_slices".toList, "explicit_split".toList] = .ok () := by
      simp only [Params.assertExactlyOnePresent, List.filter, hcont, hcont']
      rfl
    refine .inr ⟨(), fs1, by rw [hone]; rfl, .inr ⟨o, fs1, ho, ?_⟩⟩
    simp only [hcont, if_true]
    exact b1
  have stored : ∀ j, j < n → Stores s (dir ++ [(toString j).toList ++ ".zip".toList]) (slice j) := fun j hj =>
    (a4 j hj).congr (b5 _ (hnp _) (slicePath_ne_list dir j))
  have hsame : ∀ q, ¬ dir <+: q → ¬ q <+: dir → s.node q = fs.node q := fun q h1 h2 => by
    rw [b5 q h2 (by rintro rfl; exact h1 (List.prefix_append _ _))]
    exact a3.others q ⟨h2, by rintro rfl; exact h1 (List.prefix_append _ _), by rintro j - rfl; exact h1 (List.prefix_append _ _)⟩
  have hfree1 : ¬ s.Blocked out.dropLast := by
    rintro ⟨q, c, hq, hc⟩
    by_cases hqd : q <+: dir
    · rw [b4 q hqd] at hc; simp at hc
    · have : ¬ dir <+: q := fun h => hout ((h.trans hq).trans (List.dropLast_prefix _))
      rw [hsame q this hqd] at hc
      exact hfree ⟨q, c, hq, hc⟩
  have hdis : Disjoint' ((List.range m).map slice) := by
    rw [Disjoint', List.pairwise_map]
    refine List.Pairwise.imp_of_mem (fun {i j} hi hj hij k hk => ?_) (List.pairwise_lt_range (n := m))
    by_contra hk'
    have := a1.disjoint i j k (by have := List.mem_range.1 hi; omega) (by have := List.mem_range.1 hj; omega) hk hk'
    omega
  obtain ⟨fs2, U, c1, c2, c3⟩ := join_slices horder hnames hp' hlist b2 b3 (fun j hj => stored j (by omega))
    (fun j hj k v hv => hkeys k (by rw [a1.sound j k v (by omega) hv]; simp)) hdis hfree1 (by rw [hsame out hout hout']; exact hdir) hout
  refine ⟨slice, fs1, s, fs2, U, a1, a2, hk, stored, c1, c3.stored, fun k v => ?_⟩
  rw [c2]
  simp only [List.mem_map, List.mem_range]
  constructor
  · rintro ⟨_, ⟨j, hj, rfl⟩, h⟩; exact ⟨j, hj, h⟩
  · rintro ⟨j, hj, h⟩; exact ⟨_, ⟨j, hj, rfl⟩, h⟩

/-! ## Examples -/


namespace CrashScriptsExample
open SplitExample (home)
open FromParamsExample (env understands)
open StoreScriptsExample

theorem input_path {o : String} {rest : Entries} (hwf : (par "zip" o rest).WF) (ns' : Params) (t' : Str) (mods : List Str) (l : Loc)
    (hT : FromParams.Typed env none (par "zip" o rest) "input".toList ns' t' mods) (hl : PathIs env.cwd ns' "path".toList l) :
    l = PyPath.resolve home (PyPath.parse o.toList) := by
  have h : ns'.toVal = (ns "input" "zip" o).toVal := PVal.reaches_unique hwf hT.found (par_typed hwf).found
  have e : ns' = ns "input" "zip" o := by
    cases ns'; simp only [Params.toVal, PVal.params.injEq] at h; rw [h.1, h.2]
  subst e
  have := ((Params.pathParam_spec home (ns_wf "input" "zip" o) "path".toList).1 l).2 hl
  exact Except.ok.inj (this.symm.trans rfl)

theorem in_place : PyPath.resolve home (PyPath.parse "in.zip".toList) = ["home".toList, "in.zip".toList] := by decide +kernel

theorem even_names : ∀ w ∈ ["home".toList, "o".toList], Params.PlainName w ∧ ∀ c ∈ w, isLineBreak c = false := by
  intro w hw
  simp only [List.mem_cons, List.not_mem_nil, or_false] at hw
  rcases hw with rfl | rfl <;> refine ⟨⟨by decide, by decide, by decide, by decide⟩, by decide⟩

example : True := by
  obtain ⟨S, h1, h2, h3, h4, h5⟩ := world
  have := C102_even_split (order := id) env understands (by decide) (fun _ => .refl _) (fun _ => List.reverse) (fun _ l => l.reverse_perm) _ _ 2 _
    (even_params "zip" "in.zip") (even_no _ _) fs even_place _ S (zip_input h1 (evenPar_wf _ _)) (world_plain h2) (fun q hq => kept q (.inl hq))
    (fun ns t mods l hT hl => kept l (.inl ((input_path (evenPar_wf _ _) ns t mods l hT hl).trans in_place)))
  have := C102_short_list_counterexample (order := id) env (fun _ => .refl _) (fun _ => List.reverse) (fun _ l => l.reverse_perm) _ _ 2 _
    (even_params "zip" "in.zip") (even_no _ _) fs even_place _ S (zip_input h1 (evenPar_wf _ _)) (world_plain h2) (fun q hq => kept q (.inl hq))
    (fun ns t mods l hT hl => kept l (.inl ((input_path (evenPar_wf _ _) ns t mods l hT hl).trans in_place))) even_names JoinExample.joinPar _ JoinExample.join_params
    (((Params.pathParam_spec home JoinExample.joinPar_wf _).1 _).1 rfl) (not_blocked_of_check (by decide +kernel)) (not_dir_of_check (by decide +kernel))
    (by decide) (by decide) 1 (by decide) (by decide)
  have := C102_explicit_split (order := id) env understands (by decide) (fun _ => .refl _) (fun _ => id) _ _ _ explicit_params
    (by rw [← Params.contains_present explicitPar_wf]; exact Bool.eq_false_iff.1 rfl) fs jobs_place
    (by
      intro j hj k hk
      simp only [List.mem_cons, List.not_mem_nil, or_false] at hj
      subst hj
      simp only [job, List.mem_cons, List.not_mem_nil, or_false] at hk
      subst hk; constructor <;> decide) _ S (zip_input h1 explicitPar_wf)
    (by
      intro q hq j hj
      simp only [List.mem_cons, List.not_mem_nil, or_false] at hj
      subst hj; subst hq
      decide)
    (by
      intro ns t mods l hT hl j hj
      simp only [List.mem_cons, List.not_mem_nil, or_false] at hj
      subst hj
      rw [input_path explicitPar_wf ns t mods l hT hl, in_place]
      decide)
    (by
      intro j hj k hk
      simp only [List.mem_cons, List.not_mem_nil, or_false] at hj
      subst hj
      simp only [job, List.mem_cons, List.not_mem_nil, or_false] at hk
      subst hk; exact h3)
  have := C102_downsample_script (order := id) env understands (by decide) (fun _ => .refl _) (fun _ l => .ok l.reverse) (fun _ l => ⟨_, rfl, l.reverse_perm⟩)
    _ _ _ _ (sample_params "zip" "in.zip") fs h4 (not_blocked_of_check (by decide +kernel)) (not_dir_of_check (by decide +kernel)) S _ _ _
    (par_typed (samplePar_wf "zip" "in.zip")) (((Params.pathParam_spec home (ns_wf _ _ _) _).1 _).1 rfl) (by exact h1) (world_plain h2) (by decide +kernel)
  have hno : ∀ ins o, ¬ PathIs env.cwd (joinPar "zip" o ins) "input_store_list_file".toList (PyPath.resolve home (PyPath.parse o.toList)) := by
    intro ins o h
    have := ((Params.pathParam_spec home (joinPar_wf "zip" o ins) _).1 _).2 h
    cases this
  have hin : Input home fs (PyPath.parse "in.zip".toList) S := ⟨h1, world_plain h2⟩
  have := (C102_join (order := id) (fun _ => .refl _) env _ _ (join_output "zip" "new/out.zip" ["in.zip"]) fs h4 _ rfl (hno _ _) [S] (.cons hin .nil)
    (not_blocked_of_check (by decide +kernel)) (not_dir_of_check (by decide +kernel)) (by
      intro q hq
      simp only [List.mem_cons, List.not_mem_nil, or_false] at hq
      subst hq; decide +kernel)).1 (by simp [Disjoint'])
  have := (C102_join (order := id) (fun _ => .refl _) env _ _ (join_output "zip" "new/out.zip" ["in.zip", "in.zip"]) fs h4 _ rfl (hno _ _) [S, S] (.cons hin (.cons hin .nil))
    (not_blocked_of_check (by decide +kernel)) (not_dir_of_check (by decide +kernel)) (by
      intro q hq
      simp only [List.mem_cons, List.not_mem_nil, or_false, or_self] at hq
      subst hq; decide +kernel)).2 (by
        simp only [Disjoint', List.pairwise_cons, List.mem_singleton, forall_eq]
        exact fun h => h3 (h.1 _ h3))
  have := C102_torn ["home".toList, "f".toList] fs _ ((h5 _ (by decide)).trans rfl)
  have := C102_old_output_counterexample (order := id) env _ _ (join_output "zip" "f" ["in.zip"]) fs h4 _ rfl
    (not_blocked_of_check (by decide +kernel)) (not_dir_of_check (by decide +kernel))
  trivial

end CrashScriptsExample

end Vista
