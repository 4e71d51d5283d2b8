import Verif.Props.SplitStores

/-!
# C65: splitting a store by lists of keys
-/
set_option linter.unusedSectionVars false
set_option linter.unusedSimpArgs false
namespace Vista
open Params (PathIs)

variable {order : List Str → List Str} {src : FS → KVSource Bytes} {M : Str → Option Bytes} {cwd : PyPath}

theorem restrict_nil (M : Str → Option Bytes) : restrict M [] = fun _ => none := by funext k; simp [restrict]

theorem restrict_snoc {ks : List Str} {k : Str} {v : Bytes} (hv : M k = some v) :
    restrict M (ks ++ [k]) = fun k' => if k' = k then some v else restrict M ks k' := by
  funext k'
  by_cases h : k' = k
  · subst h; simp [restrict, hv]
  · simp [restrict, h]

theorem ServesWhile.mono {kept kept' : Loc → Prop} {fs : FS} (h : ServesWhile src kept fs M) (hk : ∀ q, kept q → kept' q) :
    ServesWhile src kept' fs M := fun fs' h' => h fs' fun q hq => h' q (hk q hq)

theorem ServesWhile.trans {kept : Loc → Prop} {fs fs1 : FS} (h : ServesWhile src kept fs M) (hk : ∀ q, kept q → fs1.node q = fs.node q) :
    ServesWhile src kept fs1 M := fun fs' h' => h fs' fun q hq => (h' q hq).trans (hk q hq)

theorem copyKeys_spec {src : KVSource Bytes} (hs : Zip.Serves src PlainKey M) (ks : List Str) (o : ZipOut) (copied : List Str) (hr : Ready order o (restrict M copied))
    (hnd : (copied ++ ks).Nodup) (hplain : ∀ k ∈ ks, PlainKey k) :
    ((∀ k ∈ ks, (M k).isSome = true) → ∃ o', copyKeys src ks o copied = (o', copied ++ ks, none) ∧ o'.loc = o.loc ∧
      Ready order o' (restrict M (copied ++ ks))) ∧
    (∀ pre k post, ks = pre ++ k :: post → (∀ k' ∈ pre, (M k').isSome = true) → M k = none →
      ∃ o', copyKeys src ks o copied = (o', copied ++ pre, some .runtimeError) ∧ o'.loc = o.loc ∧ Ready order o' (restrict M (copied ++ pre))) := by
  induction ks generalizing o copied with
  | nil =>
    refine ⟨fun _ => ⟨o, by simp [copyKeys], rfl, by simpa using hr⟩, fun pre k post h => by simp at h⟩
  | cons k ks ih =>
    have hk := hplain k (by simp)
    have hfresh : k ∉ copied := by
      intro h
      have := (List.nodup_append.1 hnd).2.2 k h k (by simp)
      exact this rfl
    obtain ⟨kk, hkeys, -⟩ := hs.keys
    have step : ∀ v, M k = some v → copyKeys src (k :: ks) o copied = copyKeys src ks (o.put k v).1 (copied ++ [k]) ∧
        (o.put k v).1.loc = o.loc ∧ Ready order (o.put k v).1 (restrict M (copied ++ [k])) := by
      intro v hv
      obtain ⟨p1, -, p2⟩ := hr.put hk v
      obtain ⟨p3, p4⟩ := p2 (by simp [restrict, hfresh])
      exact ⟨by simp only [copyKeys, (hs.present k v hv).2 Unit (), p3], p1, by rw [restrict_snoc hv]; exact p4⟩
    constructor
    · intro hall
      obtain ⟨v, hv⟩ := Option.isSome_iff_exists.1 (hall k (by simp))
      obtain ⟨s1, s2, s3⟩ := step v hv
      obtain ⟨o', a1, a2, a3⟩ := (ih _ _ s3 (by simpa using hnd) fun k' hk' => hplain k' (by simp [hk'])).1 fun k' hk' => hall k' (by simp [hk'])
      exact ⟨o', by rw [s1, a1]; simp, a2.trans s2, by simpa using a3⟩
    · intro pre k' post he hpre hmiss
      cases pre with
      | nil =>
        simp only [List.nil_append, List.cons.injEq] at he
        obtain ⟨rfl, rfl⟩ := he
        exact ⟨o, by simp [copyKeys, (hs.absent k hk hmiss).2 Unit (), hkeys], rfl, by simpa using hr⟩
      | cons k0 pre =>
        simp only [List.cons_append, List.cons.injEq] at he
        obtain ⟨rfl, rfl⟩ := he
        obtain ⟨v, hv⟩ := Option.isSome_iff_exists.1 (hpre k (by simp))
        obtain ⟨s1, s2, s3⟩ := step v hv
        obtain ⟨o', a1, a2, a3⟩ := (ih _ _ s3 (by simpa using hnd) fun k' hk' => hplain k' (by simp at hk' ⊢; tauto)).2 pre k' post rfl
          (fun k'' hk'' => hpre k'' (by simp [hk''])) hmiss
        exact ⟨o', by rw [s1, a1]; simp, a2.trans s2, by simpa using a3⟩

/-- The namespace says what the job is. -/
structure JobParams (cwd : PyPath) (ns : Params) (job : Job) : Prop where
  wf : ns.WF
  keysFile : PathIs cwd ns "keys_file".toList job.keysFile
  out : PathIs cwd ns "output_file".toList job.out

/-- The file system after an output has been written. -/
structure OneAfter (fs : FS) (out : Loc) (M : Str → Option Bytes) (fs' : FS) : Prop where
  tree : fs'.Tree
  stored : Stores fs' out M
  dirs : ∀ q, q <+: out → q ≠ out → fs'.node q = some .dir
  others : ∀ q, ¬ q <+: out → fs'.node q = fs.node q

theorem prefix_dropLast {q l : Loc} (h : q <+: l) (hne : q ≠ l) : q <+: l.dropLast := by
  rcases nil_or_snoc l with rfl | ⟨l', x, rfl⟩
  · exact absurd (List.prefix_nil.1 h) hne
  · rw [List.dropLast_concat]
    rcases List.prefix_concat_iff.1 h with h | h
    · exact absurd h hne
    · exact h

/-- Opening an output whose directories have been created, and leaving it later. -/
theorem open_spec (order : List Str → List Str) {fs fs1 : FS} {out : Loc} (hd : fs.WithDirs out.dropLast fs1) (ht : fs1.Tree)
    (hdir : fs.node out ≠ some .dir) :
    ∃ o fs2, ZipOut.enter order out fs1 = (.ok o, fs2) ∧ o.loc = out ∧ Ready order o (fun _ => none) ∧
      (∀ q, ¬ q <+: out → fs2.node q = fs.node q) ∧ fs2.node out = some (.file (.data .empty)) ∧
      ((∀ l, (order l).Perm l) → ∀ (o' : ZipOut) (M' : Str → Option Bytes) (e : Option Exc), o'.loc = out → Ready order o' M' →
        ∃ fs', o'.leave e fs2 = (raised e, fs') ∧ OneAfter fs out M' fs') := by
  have hne : out ≠ [] := by rintro h; rw [h, FS.node_nil] at hdir; exact hdir rfl
  have hnp : ¬ out <+: out.dropLast := by
    intro h
    have := h.length_le
    have := List.length_pos_of_ne_nil hne
    simp at *; omega
  obtain ⟨o, fs2, b1, b2, b3, b4, b5⟩ := (enter_spec order ht out).1 hne (hd.1 _ (List.prefix_refl _)) (by rw [hd.2 _ hnp]; exact hdir)
  have hother : ∀ q, ¬ q <+: out → fs2.node q = fs.node q := by
    intro q hq
    have h1 : q ≠ out := by rintro rfl; exact hq (List.prefix_refl _)
    rw [b4.2 q h1, hd.2 q fun h => hq (h.trans (List.dropLast_prefix _))]
  refine ⟨o, fs2, b1, b2, b3, hother, b4.1, fun horder o' M' e hloc hr => ?_⟩
  obtain ⟨fs3, c1, c2, c3, c4⟩ := closeAllAt_spec horder (os := [o']) (Ms := [M']) (.cons hr .nil) (by simp) e b5 (by
    intro x hx
    rw [List.mem_singleton.1 hx, hloc]
    exact ⟨_, b4.1⟩)
  simp only [List.map_cons, List.map_nil, List.mem_singleton, hloc] at c3
  refine ⟨fs3, c1, c4, ?_, fun q hq hq' => ?_, fun q hq => ?_⟩
  · have := (List.forall₂_cons.1 c2).1
    rwa [hloc] at this
  · rw [c3 q hq', b4.2 q hq']; exact hd.1 q (prefix_dropLast hq hq')
  · have h1 : q ≠ out := by rintro rfl; exact hq (List.prefix_refl _)
    rw [c3 q h1, hother q hq]

theorem firstOccurrences_unique {xs r r' : List Str} (h : FirstOccurrences xs r) (h' : FirstOccurrences xs r') : r = r' := by
  have hp : r.Perm r' := (List.perm_ext_iff_of_nodup h.once h'.once).2 fun a => by rw [h.mem, h'.mem]
  exact hp.eq_of_pairwise (fun a b _ _ h1 h2 => absurd h1 (by omega)) h.order h'.order

theorem listed_keys {fs : FS} {job : Job} (h : job.Listed fs) :
    fileLinesToSet job.keysFile fs = (.ok job.wanted, fs) := by
  obtain ⟨text, ls, rs, h1, h2, h3, h4⟩ := h
  obtain ⟨r, a1, a2⟩ := C69_file_lines _ _ fs h1 ls rs h2 h3
  rw [a1]
  congr 2
  exact firstOccurrences_unique a2 h4

theorem splitOne_spec (horder : ∀ l, (order l).Perm l) {ns : Params} {job : Job} (hp : JobParams cwd ns job)
    {fs : FS} (hs : ServesWhile src (fun q => ¬ q <+: job.out) fs M) (ht : fs.Tree) (hl : job.Listed fs) (hfree : ¬ fs.Blocked job.out.dropLast ∧ fs.node job.out ≠ some .dir)
    (hplain : ∀ k ∈ job.wanted, PlainKey k) :
    ((∀ k ∈ job.wanted, (M k).isSome = true) →
      ∃ fs', splitOne order cwd src ns fs = (.ok job.wanted, fs') ∧ OneAfter fs job.out (restrict M job.wanted) fs') ∧
    (∀ pre k post, job.wanted = pre ++ k :: post → (∀ k' ∈ pre, (M k').isSome = true) → M k = none →
      ∃ fs', splitOne order cwd src ns fs = (.error .runtimeError, fs') ∧ OneAfter fs job.out (restrict M pre) fs') := by
  have hl' := hl
  obtain ⟨text, ls, rs, hfile, -, -, hocc⟩ := hl'
  have hex := (Params.C73_existing_file cwd ns hp.wf "keys_file".toList fs).1 job.keysFile hp.keysFile ⟨_, hfile⟩
  obtain ⟨fs1, a1, a2, a3⟩ := (Params.C73_creatable_file cwd ns hp.wf "output_file".toList fs ht).1 job.out hp.out hfree.1
  obtain ⟨o, fs2, b1, b2, b3, b4, -, b5⟩ := open_spec order a2 a3 hfree.2
  have finish := b5 horder
  obtain ⟨k1, k2⟩ := copyKeys_spec (order := order) (hs fs2 b4) job.wanted o [] (by rw [restrict_nil]; exact b3) (by simpa using hocc.once) hplain
  constructor
  · intro hall
    obtain ⟨o', d1, d2, d3⟩ := k1 hall
    obtain ⟨fs3, e1, e2⟩ := finish o' _ none (d2.trans b2) d3
    refine ⟨fs3, ?_, e2⟩
    simp only [splitOne, Prog.bind_apply, hex, listed_keys hl, a1, b1, Prog.get_apply, d1, e1, raised, Prog.pure_apply, List.nil_append]
  · intro pre k post h1 h2 h3
    obtain ⟨o', d1, d2, d3⟩ := k2 pre k post h1 h2 h3
    obtain ⟨fs3, e1, e2⟩ := finish o' _ (some .runtimeError) (d2.trans b2) d3
    refine ⟨fs3, ?_, e2⟩
    simp only [splitOne, Prog.bind_apply, hex, listed_keys hl, a1, b1, Prog.get_apply, d1, e1, raised]

theorem JobsPlace.after {fs fs' : FS} {job : Job} {jobs : List Job} (h : JobsPlace fs (job :: jobs)) {M' : Str → Option Bytes}
    (ha : OneAfter fs job.out M' fs') : JobsPlace fs' jobs := by
  obtain ⟨h1, h2, h3, h4, h5⟩ := h
  rw [List.pairwise_cons] at h4
  refine ⟨ha.tree, fun j hj => ?_, fun j hj => ⟨?_, ?_⟩, h4.2, fun a ha' b hb => h5 a (by simp [ha']) b (by simp [hb])⟩
  · obtain ⟨text, ls, rs, hf, r⟩ := h2 j (by simp [hj])
    refine ⟨text, ls, rs, ?_, r⟩
    rw [ha.others, hf]
    intro hpre
    exact (h3 job (by simp)).1 ⟨_, _, prefix_dropLast hpre (h5 j (by simp [hj]) job (by simp)), hf⟩
  · rintro ⟨q, c, hq, hc⟩
    by_cases hp : q <+: job.out
    · by_cases he : q = job.out
      · subst he
        exact (h4.1 j hj).1 (hq.trans (List.dropLast_prefix _))
      · rw [ha.dirs q hp he] at hc; simp at hc
    · rw [ha.others q hp] at hc
      exact (h3 j (by simp [hj])).1 ⟨q, c, hq, hc⟩
  · rw [ha.others _ (h4.1 j hj).2]
    exact (h3 j (by simp [hj])).2

/-- The file system after several outputs have been written. -/
structure JobsAfter (fs : FS) (jobs : List Job) (M : Str → Option Bytes) (fs' : FS) : Prop where
  tree : fs'.Tree
  stored : ∀ job ∈ jobs, Stores fs' job.out (restrict M job.wanted)
  dirs : ∀ job ∈ jobs, ∀ q, q <+: job.out → q ≠ job.out → fs'.node q = some .dir
  others : ∀ q, (∀ job ∈ jobs, ¬ q <+: job.out) → fs'.node q = fs.node q

theorem Stores.congr {fs fs' : FS} {l : Loc} {M : Str → Option Bytes} (h : Stores fs l M) (he : fs'.node l = fs.node l) : Stores fs' l M := by
  obtain ⟨a, h1, h2⟩ := h
  exact ⟨a, he.trans h1, h2⟩

theorem JobsAfter.cons {fs fs1 fs2 : FS} {job : Job} {jobs : List Job} (hplace : JobsPlace fs (job :: jobs))
    (h1 : OneAfter fs job.out (restrict M job.wanted) fs1) (h2 : JobsAfter fs1 jobs M fs2) : JobsAfter fs (job :: jobs) M fs2 := by
  have hap := (List.pairwise_cons.1 hplace.apart).1
  have hout : fs2.node job.out = fs1.node job.out := h2.others _ fun j hj => (hap j hj).1
  refine ⟨h2.tree, fun j hj => ?_, fun j hj q hq hq' => ?_, fun q hq => ?_⟩
  · rcases List.mem_cons.1 hj with rfl | hj
    · exact h1.stored.congr hout
    · exact h2.stored j hj
  · rcases List.mem_cons.1 hj with rfl | hj
    · by_cases h : ∃ j' ∈ jobs, q <+: j'.out
      · obtain ⟨j', hj', hp⟩ := h
        by_cases he : q = j'.out
        · subst he; exact absurd hq (hap j' hj').2
        · exact h2.dirs j' hj' q hp he
      · rw [h2.others q fun j' hj' hp => h ⟨j', hj', hp⟩]
        exact h1.dirs q hq hq'
    · exact h2.dirs j hj q hq hq'
  · rw [h2.others q fun j hj => hq j (by simp [hj]), h1.others q (hq job (by simp))]

theorem splitEach_spec (horder : ∀ l, (order l).Perm l) {nss : List Params} {jobs : List Job}
    (hp : List.Forall₂ (JobParams cwd) nss jobs) {fs : FS} (hs : ServesWhile src (fun q => ∀ job ∈ jobs, ¬ q <+: job.out) fs M) (hplace : JobsPlace fs jobs) (hplain : ∀ job ∈ jobs, ∀ k ∈ job.wanted, PlainKey k)
    (hall : ∀ job ∈ jobs, ∀ k ∈ job.wanted, (M k).isSome = true) :
    ∃ fs' copied, splitEach order cwd src nss fs = (.ok copied, fs') ∧ JobsAfter fs jobs M fs' ∧ ∀ k, k ∈ copied ↔ ∃ job ∈ jobs, k ∈ job.wanted := by
  induction hp generalizing fs with
  | nil => exact ⟨fs, [], rfl, ⟨hplace.tree, by simp, by simp, fun _ _ => rfl⟩, by simp⟩
  | @cons ns job nss jobs h1 h2 ih =>
    obtain ⟨fs1, a1, a2⟩ := (splitOne_spec horder h1 (hs.mono fun q hq => hq job (by simp)) hplace.tree (hplace.listed job (by simp))
      (hplace.free job (by simp)) (hplain job (by simp))).1 (hall job (by simp))
    obtain ⟨fs2, copied, b1, b2, b3⟩ := ih
      ((hs.trans fun q hq => a2.others q (hq job (by simp))).mono fun q hq j hj => hq j (by simp [hj])) (hplace.after a2) (fun j hj => hplain j (by simp [hj])) fun j hj => hall j (by simp [hj])
    refine ⟨fs2, job.wanted ++ copied, by simp only [splitEach, Prog.bind_apply, a1, b1, Prog.pure_apply], b2.cons hplace a2, fun k => ?_⟩
    simp [b3]

theorem splitEach_missing (horder : ∀ l, (order l).Perm l) {nss : List Params} {before after : List Job} {job : Job}
    (hp : List.Forall₂ (JobParams cwd) nss (before ++ job :: after)) {fs : FS}
    (hs : ServesWhile src (fun q => ∀ j ∈ before ++ job :: after, ¬ q <+: j.out) fs M) (hplace : JobsPlace fs (before ++ job :: after))
    (hplain : ∀ j ∈ before ++ [job], ∀ k ∈ j.wanted, PlainKey k) (hall : ∀ j ∈ before, ∀ k ∈ j.wanted, (M k).isSome = true)
    {pre : List Str} {k : Str} {post : List Str} (hw : job.wanted = pre ++ k :: post) (hpre : ∀ k' ∈ pre, (M k').isSome = true) (hk : M k = none) :
    ∃ fs', splitEach order cwd src nss fs = (.error .runtimeError, fs') ∧ JobsAfter fs (before ++ [⟨job.keysFile, pre, job.out⟩]) M fs' := by
  induction before generalizing fs nss with
  | nil =>
    cases hp with
    | @cons ns _ nss _ h1 h2 =>
      obtain ⟨fs1, a1, a2⟩ := (splitOne_spec horder h1 (hs.mono fun q hq => hq job (by simp)) hplace.tree (hplace.listed job (by simp))
        (hplace.free job (by simp)) (hplain job (by simp))).2 pre k post hw hpre hk
      refine ⟨fs1, by simp only [splitEach, Prog.bind_apply, a1], ⟨a2.tree, ?_, ?_, ?_⟩⟩
      · simpa using a2.stored
      · simpa using a2.dirs
      · simpa using a2.others
  | cons j before ih =>
    cases hp with
    | @cons ns _ nss _ h1 h2 =>
      obtain ⟨fs1, a1, a2⟩ := (splitOne_spec horder h1 (hs.mono fun q hq => hq j (by simp)) hplace.tree (hplace.listed j (by simp))
        (hplace.free j (by simp)) (hplain j (by simp))).1 (hall j (by simp))
      have hplace' := hplace.after a2
      obtain ⟨fs2, b1, b2⟩ := ih h2
        ((hs.trans fun q hq => a2.others q (hq j (by simp))).mono fun q hq j' hj' => hq j' (by simp at hj' ⊢; tauto)) hplace' (fun j' hj' => hplain j' (by simp at hj' ⊢; tauto)) fun j' hj' => hall j' (by simp [hj'])
      refine ⟨fs2, by simp only [splitEach, Prog.bind_apply, a1, b1], ?_⟩
      have hap := (List.pairwise_cons.1 hplace.apart).1
      have hap' : ∀ j' ∈ before ++ [(⟨job.keysFile, pre, job.out⟩ : Job)], ¬ j.out <+: j'.out ∧ ¬ j'.out <+: j.out := by
        intro j' hj'
        rcases List.mem_append.1 hj' with h | h
        · exact hap j' (by simp [h])
        · rw [List.mem_singleton.1 h]; exact hap job (by simp)
      have hout : fs2.node j.out = fs1.node j.out := b2.others _ fun j' hj' => (hap' j' hj').1
      refine ⟨b2.tree, fun j' hj' => ?_, fun j' hj' q hq hq' => ?_, fun q hq => ?_⟩
      · rcases List.mem_cons.1 hj' with rfl | hj'
        · exact a2.stored.congr hout
        · exact b2.stored j' hj'
      · rcases List.mem_cons.1 hj' with rfl | hj'
        · by_cases h : ∃ i ∈ before ++ [(⟨job.keysFile, pre, job.out⟩ : Job)], q <+: i.out
          · obtain ⟨i, hi, hp⟩ := h
            by_cases he : q = i.out
            · subst he; exact absurd hq (hap' i hi).2
            · exact b2.dirs i hi q hp he
          · rw [b2.others q fun i hi hp => h ⟨i, hi, hp⟩]
            exact a2.dirs q hq hq'
        · exact b2.dirs j' hj' q hq hq'
      · rw [b2.others q fun i hi => hq i (by simp at hi ⊢; tauto), a2.others q (hq j (by simp))]

/-- The parameters of an explicit split: the namespaces directly below `explicit_split`, and whether every key must be used (the
parameter `must_be_exhaustive` of the script itself). -/
structure ExplicitParams (cwd : PyPath) (p : Params) (jobs : List Job) (must : Bool) : Prop where
  wf : p.WF
  jobs : ∃ ns : Params, p.toVal.Reaches ["explicit_split".toList] ns.toVal ∧
    (∀ k, ∀ q : Params, (k, q.toVal) ∈ ns.data → Params.NoLists q.toVal) ∧ List.Forall₂ (JobParams cwd) (ns.data.filterMap Params.nsOf) jobs
  must : Params.Found p "must_be_exhaustive".toList (.bool true) (.bool must)

theorem explicit_start {p : Params} {jobs : List Job} {must : Bool} (hp : ExplicitParams cwd p jobs must) (src : FS → KVSource Bytes) (fs : FS) :
    ∃ nss, List.Forall₂ (JobParams cwd) nss jobs ∧
      explicitSplit order cwd src p fs = match splitEach order cwd src nss fs with
        | (.ok copied, fs') => (checkExhaustive (src fs') p copied, fs')
        | (.error e, fs') => (.error e, fs') := by
  obtain ⟨ns, h1, h2, h3⟩ := hp.jobs
  refine ⟨_, h3, ?_⟩
  have hns : p.namespace "explicit_split".toList = .ok ns := ((Params.C47_namespace p hp.wf _).1 ns).2 (by
    rw [show splitOn '.' "explicit_split".toList = ["explicit_split".toList] by decide +kernel]; exact h1)
  have hwf : ns.WF := PVal.WF.reaches hp.wf h1
  have hsub := (Params.C76_sub_namespaces ns hwf).1 h2
  simp only [explicitSplit, Prog.bind_apply, Prog.ofRes_apply, hns, hsub]
  cases splitEach order cwd src (ns.data.filterMap Params.nsOf) fs with
  | mk r fs' => cases r <;> rfl

theorem checkExhaustive_spec {src : KVSource Bytes} {p : Params} {jobs : List Job} {must : Bool} (hp : ExplicitParams cwd p jobs must) (hs : Zip.Serves src PlainKey M)
    (copied : List Str) :
    ((must = true → ∀ k, (M k).isSome = true → k ∈ copied) → checkExhaustive src p copied = .ok ()) ∧
    (must = true → (¬ ∀ k, (M k).isSome = true → k ∈ copied) → checkExhaustive src p copied = .error .runtimeError) := by
  have hb : p.boolean "must_be_exhaustive".toList (.bool true) = .ok (.bool must) :=
    ((Params.C47_boolean_and_list p hp.wf _ _).1 _).2 ⟨hp.must, must, rfl⟩
  obtain ⟨ks, h1, h2, h3⟩ := hs.keys
  have hlen : (ks.filter fun k => decide (k ∉ copied)).length > 0 ↔ ¬ ∀ k, (M k).isSome = true → k ∈ copied := by
    rw [gt_iff_lt, List.length_pos_iff_exists_mem]
    simp only [List.mem_filter, decide_eq_true_eq, h3, not_forall, exists_prop]
  cases must with
  | false =>
    simp only [checkExhaustive, hb, bind, Except.bind, PVal.truthy]
    simp
  | true =>
    simp only [checkExhaustive, hb, bind, Except.bind, PVal.truthy, if_true, h1]
    constructor
    · intro h; rw [if_neg]; rw [hlen]; simpa using h
    · intro _ h; rw [if_pos]; rw [hlen]; exact h

/-- All requested keys exist: each output holds exactly its keys, with their values; nothing else has changed, except for directories
made for the outputs.  The script succeeds, unless every key must be used and one was not: then it raises `RuntimeError` at the end. -/
theorem C65_explicit_split (horder : ∀ l, (order l).Perm l) (p : Params) (jobs : List Job) (must : Bool)
    (hp : ExplicitParams cwd p jobs must) (fs : FS) (hs : ServesWhile src (fun q => ∀ job ∈ jobs, ¬ q <+: job.out) fs M)
    (hplace : JobsPlace fs jobs) (hplain : ∀ job ∈ jobs, ∀ k ∈ job.wanted, PlainKey k)
    (hall : ∀ job ∈ jobs, ∀ k ∈ job.wanted, (M k).isSome = true) :
    ∃ fs', JobsAfter fs jobs M fs' ∧
      ((must = true → ∀ k, (M k).isSome = true → ∃ job ∈ jobs, k ∈ job.wanted) → explicitSplit order cwd src p fs = (.ok (), fs')) ∧
      (must = true → (¬ ∀ k, (M k).isSome = true → ∃ job ∈ jobs, k ∈ job.wanted) →
        explicitSplit order cwd src p fs = (.error .runtimeError, fs')) := by
  obtain ⟨nss, h1, h2⟩ := explicit_start (order := order) hp src fs
  obtain ⟨fs', copied, a1, a2, a3⟩ := splitEach_spec horder h1 hs hplace hplain hall
  obtain ⟨c1, c2⟩ := checkExhaustive_spec hp (hs fs' a2.others) copied
  simp only [a3] at c1 c2
  rw [h2, a1]
  exact ⟨fs', a2, fun h => by simp only [c1 h], fun hm h => by simp only [c2 hm h]⟩

/-- A requested key does not exist: `RuntimeError`.  The outputs before hold what was requested, that output the keys before the missing
one, and the later outputs are not touched. -/
theorem C65_missing_key (horder : ∀ l, (order l).Perm l) (p : Params) (before after : List Job) (job : Job)
    (must : Bool) (hp : ExplicitParams cwd p (before ++ job :: after) must) (fs : FS)
    (hs : ServesWhile src (fun q => ∀ j ∈ before ++ job :: after, ¬ q <+: j.out) fs M) (hplace : JobsPlace fs (before ++ job :: after))
    (hplain : ∀ j ∈ before ++ [job], ∀ k ∈ j.wanted, PlainKey k) (hall : ∀ j ∈ before, ∀ k ∈ j.wanted, (M k).isSome = true)
    (pre : List Str) (k : Str) (post : List Str) (hw : job.wanted = pre ++ k :: post) (hpre : ∀ k' ∈ pre, (M k').isSome = true) (hk : M k = none) :
    ∃ fs', explicitSplit order cwd src p fs = (.error .runtimeError, fs') ∧ JobsAfter fs (before ++ [⟨job.keysFile, pre, job.out⟩]) M fs' := by
  obtain ⟨nss, h1, h2⟩ := explicit_start (order := order) hp src fs
  obtain ⟨fs', a1, a2⟩ := splitEach_missing horder h1 hs hplace hplain hall hw hpre hk
  exact ⟨fs', by rw [h2, a1], a2⟩

/-- Success means that every key of the store is in some output, if that is required. -/
theorem C65_success_exhaustive (p : Params) (jobs : List Job)
    (hp : ExplicitParams cwd p jobs true) (fs fs' : FS) (hs : ServesWhile src (fun q => ∀ job ∈ jobs, ¬ q <+: job.out) fs M)
    (hplace : JobsPlace fs jobs) (hplain : ∀ job ∈ jobs, ∀ k ∈ job.wanted, PlainKey k)
    (horder : ∀ l, (order l).Perm l) (h : explicitSplit order cwd src p fs = (.ok (), fs')) :
    (∀ job ∈ jobs, ∀ k ∈ job.wanted, (M k).isSome = true) ∧ (∀ k, (M k).isSome = true → ∃ job ∈ jobs, k ∈ job.wanted) ∧ JobsAfter fs jobs M fs' := by
  have hall : ∀ job ∈ jobs, ∀ k ∈ job.wanted, (M k).isSome = true := by
    by_contra hno
    -- the first job with a missing key
    have hex : ∃ before job after, jobs = before ++ job :: after ∧ (∀ j ∈ before, ∀ k ∈ j.wanted, (M k).isSome = true) ∧
        ¬ ∀ k ∈ job.wanted, (M k).isSome = true := by
      clear hplace hp hplain h hs
      induction jobs with
      | nil => simp at hno
      | cons j jobs ih =>
        by_cases hj : ∀ k ∈ j.wanted, (M k).isSome = true
        · obtain ⟨b, j', a, rfl, h1, h2⟩ := ih (fun h => hno fun j' hj' => by
            rcases List.mem_cons.1 hj' with rfl | hj'
            · exact hj
            · exact h j' hj')
          exact ⟨j :: b, j', a, rfl, fun i hi => by
            rcases List.mem_cons.1 hi with rfl | hi
            · exact hj
            · exact h1 i hi, h2⟩
        · exact ⟨[], j, jobs, rfl, by simp, hj⟩
    obtain ⟨before, job, after, rfl, h1, h2⟩ := hex
    have hfirst : ∃ pre k post, job.wanted = pre ++ k :: post ∧ (∀ k' ∈ pre, (M k').isSome = true) ∧ M k = none := by
      generalize job.wanted = ws at h2
      clear hplace hp hplain hno h h1 hs
      induction ws with
      | nil => simp at h2
      | cons w ws ih =>
        by_cases hw : (M w).isSome = true
        · obtain ⟨pre, k, post, rfl, g1, g2⟩ := ih (fun g => h2 fun k hk => by
            rcases List.mem_cons.1 hk with rfl | hk
            · exact hw
            · exact g k hk)
          exact ⟨w :: pre, k, post, rfl, fun k' hk' => by
            rcases List.mem_cons.1 hk' with rfl | hk'
            · exact hw
            · exact g1 k' hk', g2⟩
        · exact ⟨[], w, ws, rfl, by simp, by simpa using hw⟩
    obtain ⟨pre, k, post, g1, g2, g3⟩ := hfirst
    obtain ⟨fs1, e1, -⟩ := C65_missing_key horder p before after job true hp fs hs hplace (fun j hj => hplain j (by simp at hj ⊢; tauto)) h1 pre k post
      g1 g2 g3
    rw [e1] at h; simp at h
  obtain ⟨fs1, a1, a2, a3⟩ := C65_explicit_split horder p jobs true hp fs hs hplace hplain hall
  by_cases hex : ∀ k, (M k).isSome = true → ∃ job ∈ jobs, k ∈ job.wanted
  · have := a2 fun _ => hex
    rw [h] at this
    simp only [Prod.mk.injEq, true_and] at this
    exact ⟨hall, hex, this ▸ a1⟩
  · have := a3 rfl hex
    rw [h] at this; simp at this

theorem one_of_two {p : Params} (h : p.WF) (a b : Str) :
    (¬ (Params.Present p a ↔ Params.Present p b) → p.assertExactlyOnePresent [a, b] = .ok ()) ∧
    ((Params.Present p a ↔ Params.Present p b) → p.assertExactlyOnePresent [a, b] = .error .parameterError) := by
  obtain ⟨h1, h2⟩ := Params.C49_exactly_one p h [a, b]
  constructor
  · intro hne
    rw [h1]
    by_cases hn : Params.Present p a
    · exact ⟨[], a, [b], rfl, hn, by simp, by simp; tauto⟩
    · exact ⟨[a], b, [], rfl, by tauto, by simpa using hn, by simp⟩
  · intro hiff
    cases he : p.assertExactlyOnePresent [a, b] with
    | error e => rw [h2 e he]
    | ok u =>
      obtain ⟨before, n, after, he, hn, hb, ha⟩ := h1.1 he
      match before, he with
      | [], he =>
        simp only [List.nil_append, List.cons.injEq] at he
        obtain ⟨rfl, rfl⟩ := he
        exact absurd (hiff.1 hn) (ha _ (by simp))
      | [c], he =>
        simp only [List.cons_append, List.nil_append, List.cons.injEq] at he
        obtain ⟨rfl, rfl, -⟩ := he
        exact absurd (hiff.2 hn) (hb _ (by simp))
      | c :: c' :: cs, he => simp at he

/-- `main`: exactly one of `num_slices` and `explicit_split` must be there, otherwise `ParameterError` and no change, without looking at the
source; it decides which split is done.  If the source cannot be made, what that raises. -/
theorem C65_main {σ : Type} (source : Prog σ) (ask : σ → FS → KVSource Bytes) (shuffle : PVal → List Str → List Str) (p : Params) (h : p.WF)
    (fs : FS) :
    (∀ s fs', source fs = (.ok s, fs') → Params.Present p "num_slices".toList → ¬ Params.Present p "explicit_split".toList →
      splitMain order shuffle cwd source ask p fs = evenSplit order shuffle cwd (ask s) p fs') ∧
    (∀ s fs', source fs = (.ok s, fs') → Params.Present p "explicit_split".toList → ¬ Params.Present p "num_slices".toList →
      splitMain order shuffle cwd source ask p fs = explicitSplit order cwd (ask s) p fs') ∧
    (∀ e fs', source fs = (.error e, fs') → ¬ (Params.Present p "num_slices".toList ↔ Params.Present p "explicit_split".toList) →
      splitMain order shuffle cwd source ask p fs = (.error e, fs')) ∧
    ((Params.Present p "num_slices".toList ↔ Params.Present p "explicit_split".toList) →
      splitMain order shuffle cwd source ask p fs = (.error .parameterError, fs)) := by
  have hone := one_of_two h "num_slices".toList "explicit_split".toList
  have hc1 := Params.contains_present h "num_slices".toList
  have hc2 := Params.contains_present h "explicit_split".toList
  refine ⟨fun s fs' hs a b => ?_, fun s fs' hs a b => ?_, fun e fs' hs hne => ?_, fun hiff => ?_⟩
  · simp only [splitMain, Prog.bind_apply, Prog.ofRes_apply, hone.1 fun h => b (h.1 a), hs, hc1.2 a, if_true]
  · have : p.contains "num_slices".toList = false := by rw [Bool.eq_false_iff, ne_eq, hc1]; exact b
    simp only [splitMain, Prog.bind_apply, Prog.ofRes_apply, hone.1 fun h => b (h.2 a), hs, this, hc2.2 a, if_true, Bool.false_eq_true, if_false]
  · simp only [splitMain, Prog.bind_apply, Prog.ofRes_apply, hone.1 hne, hs]
  · simp only [splitMain, Prog.bind_apply, Prog.ofRes_apply, hone.2 hiff]

/-- A sub-namespace that does not name an existing file with keys, or names no output: `ParameterError` (see `Refused`); an output that cannot be created
because something is in the way: `OSError`.  The outputs before are complete; nothing else has changed. -/
theorem C65_bad_namespace (horder : ∀ l, (order l).Perm l) (p : Params) (hwf : p.WF) (ns bad : Params)
    (before after : List Params) (jobs : List Job) (hns : p.toVal.Reaches ["explicit_split".toList] ns.toVal)
    (hlists : ∀ k, ∀ q : Params, (k, q.toVal) ∈ ns.data → Params.NoLists q.toVal) (hsub : ns.data.filterMap Params.nsOf = before ++ bad :: after)
    (hp : List.Forall₂ (JobParams cwd) before jobs) (hbad : bad.WF) (fs : FS)
    (hs : ServesWhile src (fun q => ∀ job ∈ jobs, ¬ q <+: job.out) fs M) (hplace : JobsPlace fs jobs)
    (hplain : ∀ job ∈ jobs, ∀ k ∈ job.wanted, PlainKey k) (hall : ∀ job ∈ jobs, ∀ k ∈ job.wanted, (M k).isSome = true) :
    ∃ fs', JobsAfter fs jobs M fs' ∧
      ((¬ ∃ l, PathIs cwd bad "keys_file".toList l ∧ ∃ c, fs'.node l = some (.file c)) →
        ∃ e, Params.Refused bad "keys_file".toList .none e ∧ explicitSplit order cwd src p fs = (.error e, fs')) ∧
      (∀ job : Job, PathIs cwd bad "keys_file".toList job.keysFile → job.Listed fs' →
        ((¬ ∃ l, PathIs cwd bad "output_file".toList l) →
          ∃ e, Params.Refused bad "output_file".toList .none e ∧ explicitSplit order cwd src p fs = (.error e, fs')) ∧
        (∀ l, PathIs cwd bad "output_file".toList l → fs'.Blocked l.dropLast → explicitSplit order cwd src p fs = (.error .ioError, fs'))) := by
  have hn : p.namespace "explicit_split".toList = .ok ns := ((Params.C47_namespace p hwf _).1 ns).2 (by
    rw [show splitOn '.' "explicit_split".toList = ["explicit_split".toList] by decide +kernel]; exact hns)
  have hsub' := (Params.C76_sub_namespaces ns (PVal.WF.reaches hwf hns)).1 hlists
  obtain ⟨fs', copied, a1, a2, -⟩ := splitEach_spec horder hp hs hplace hplain hall
  have key : ∀ e, splitOne order cwd src bad fs' = (.error e, fs') → explicitSplit order cwd src p fs = (.error e, fs') := by
    intro e he
    have : splitEach order cwd src (before ++ bad :: after) fs = (.error e, fs') := by
      clear hp hplain hall hsub a2 hplace hs
      induction before generalizing fs copied with
      | nil =>
        simp only [splitEach, Prog.pure_apply, Prod.mk.injEq] at a1
        obtain ⟨-, rfl⟩ := a1
        simp only [List.nil_append, splitEach, Prog.bind_apply, he]
      | cons b before ih =>
        simp only [splitEach, Prog.bind_apply] at a1
        simp only [List.cons_append, splitEach, Prog.bind_apply]
        cases hb : splitOne order cwd src b fs with
        | mk r fs1 =>
          cases r with
          | error e' => rw [hb] at a1; simp at a1
          | ok c =>
            rw [hb] at a1
            simp only at a1 ⊢
            cases hr : splitEach order cwd src before fs1 with
            | mk r2 fs2 =>
              cases r2 with
              | error e' => rw [hr] at a1; simp at a1
              | ok c2 =>
                rw [hr] at a1
                simp only [Prog.pure_apply, Prod.mk.injEq] at a1
                obtain ⟨-, rfl⟩ := a1
                rw [ih fs1 c2 hr]
    simp only [explicitSplit, Prog.bind_apply, Prog.ofRes_apply, hn, hsub', hsub, this]
  refine ⟨fs', a2, fun h => ?_, fun job hk hl => ⟨fun h => ?_, fun l h1 h2 => key _ ?_⟩⟩
  · obtain ⟨e, he, hx⟩ := (Params.C73_existing_file cwd bad hbad _ fs').2 h
    exact ⟨e, he, key _ (by simp only [splitOne, Prog.bind_apply, hx])⟩
  · obtain ⟨text, ls, rs, hf, -⟩ := id hl
    obtain ⟨e, he, hx⟩ := (Params.C73_creatable_file cwd bad hbad _ fs' a2.tree).2.2 h
    exact ⟨e, he, key _ (by simp only [splitOne, Prog.bind_apply, (Params.C73_existing_file cwd bad hbad _ fs').1 _ hk ⟨_, hf⟩, listed_keys hl, hx])⟩
  · obtain ⟨text, ls, rs, hf, -⟩ := id hl
    simp only [splitOne, Prog.bind_apply, (Params.C73_existing_file cwd bad hbad _ fs').1 _ hk ⟨_, hf⟩, listed_keys hl,
      (Params.C73_creatable_file cwd bad hbad _ fs' a2.tree).2.1 l h1 h2]

/-! ## Examples -/

namespace ExplicitExample
open SplitExample

def one : Params := ⟨["explicit_split".toList, "one".toList], [("keys_file".toList, .str "k1".toList), ("output_file".toList, .str "o/1.zip".toList)]⟩
def two : Params := ⟨["explicit_split".toList, "two".toList], [("keys_file".toList, .str "k2".toList), ("output_file".toList, .str "o/2.zip".toList)]⟩
/-- The parameters, with further entries of the script itself and of the namespace `explicit_split`. -/
def par (top ns : List (Str × PVal)) : Params :=
  ⟨[], [("explicit_split".toList, .params ["explicit_split".toList] ([("one".toList, one.toVal), ("two".toList, two.toVal)] ++ ns))] ++ top⟩
def fs (k1 k2 : String) : FS := [(["home".toList], .dir), (["home".toList, "k1".toList], .file (.data (encodeUtf8 k1.toList))),
  (["home".toList, "k2".toList], .file (.data (encodeUtf8 k2.toList)))]
def job1 (ks : List Str) : Job := ⟨["home".toList, "k1".toList], ks, ["home".toList, "o".toList, "1.zip".toList]⟩
def job2 (ks : List Str) : Job := ⟨["home".toList, "k2".toList], ks, ["home".toList, "o".toList, "2.zip".toList]⟩

theorem one_wf : one.WF := flat_wf _ _ (by decide) (by decide)
theorem two_wf : two.WF := flat_wf _ _ (by decide) (by decide)

theorem par_wf (top : List (Str × PVal)) (h : top = [] ∨ top = [("must_be_exhaustive".toList, .bool false)]) (ns : List (Str × PVal))
    (h' : ns = [] ∨ ns = [("must_be_exhaustive".toList, .bool false)]) : (par top ns).WF := by
  have hleaf : ∀ b, (PVal.bool b).WF := fun b => .leaf ⟨rfl, rfl⟩
  have hns : (PVal.params ["explicit_split".toList] ([("one".toList, one.toVal), ("two".toList, two.toVal)] ++ ns)).WF := by
    rcases h' with rfl | rfl <;> refine .params (by decide) (by decide) fun e he => ?_
    · simp only [List.append_nil, List.mem_cons, List.not_mem_nil, or_false] at he
      rcases he with rfl | rfl
      · exact one_wf
      · exact two_wf
    · simp only [List.cons_append, List.nil_append, List.mem_cons, List.not_mem_nil, or_false] at he
      rcases he with rfl | rfl | rfl
      · exact one_wf
      · exact two_wf
      · exact hleaf _
  rcases h with rfl | rfl <;> refine .params (by simp [par]) (by simp [par]) fun e he => ?_
  · simp only [par, List.append_nil, List.mem_cons, List.not_mem_nil, or_false] at he
    subst he; exact hns
  · simp only [par, List.cons_append, List.nil_append, List.mem_cons, List.not_mem_nil, or_false] at he
    rcases he with rfl | rfl
    · exact hns
    · exact hleaf _

theorem job_params : List.Forall₂ (JobParams home) [one, two] [job1 ["a".toList], job2 ["c".toList, "b".toList]] :=
  .cons ⟨one_wf, ((Params.pathParam_spec home one_wf _).1 _).1 rfl, ((Params.pathParam_spec home one_wf _).1 _).1 rfl⟩
    (.cons ⟨two_wf, ((Params.pathParam_spec home two_wf _).1 _).1 rfl, ((Params.pathParam_spec home two_wf _).1 _).1 rfl⟩ .nil)

theorem explicit_params : ExplicitParams home (par [] []) [job1 ["a".toList], job2 ["c".toList, "b".toList]] true where
  wf := par_wf [] (.inl rfl) [] (.inl rfl)
  jobs := by
    refine ⟨⟨["explicit_split".toList], [("one".toList, one.toVal), ("two".toList, two.toVal)]⟩, .step (by simp [par]; rfl) (.here _), ?_, job_params⟩
    intro k q hq
    simp only [List.mem_cons, List.not_mem_nil, or_false, Prod.mk.injEq] at hq
    rcases hq with ⟨-, hq⟩ | ⟨-, hq⟩ <;> rw [hq, ← Params.hashable_iff] <;> rfl
  must := by
    have := ((Params.C47_boolean_and_list (par [] []) (par_wf [] (.inl rfl) [] (.inl rfl)) "must_be_exhaustive".toList (.bool true)).1 (.bool true)).1 rfl
    exact this.1

theorem listed (ks : String) (rs : List Str) (f : FS) (job : Job) (hf : f.node job.keysFile = some (.file (.data (encodeUtf8 ks.toList))))
    (hr : (textLines (universalNewlines ks.toList)).map rstripNewline = rs) (hw : distinct (rs.filter fun r => decide (r ≠ [])) = job.wanted) :
    job.Listed f :=
  ⟨ks.toList, _, rs, hf, isLines_textLines _, hr ▸ unended_lines (isLines_textLines _), hw ▸ firstOccurrences_distinct _⟩

theorem jobs_place : JobsPlace (fs "a\n" "c\n\nb\nc") [job1 ["a".toList], job2 ["c".toList, "b".toList]] where
  tree := tree_of_check (by decide +kernel)
  listed job hj := by
    simp only [List.mem_cons, List.not_mem_nil, or_false] at hj
    rcases hj with rfl | rfl
    · exact listed "a\n" ["a".toList] _ _ rfl (by decide +kernel) (by decide +kernel)
    · exact listed "c\n\nb\nc" ["c".toList, [], "b".toList, "c".toList] _ _ rfl (by decide +kernel) (by decide +kernel)
  free job hj := by
    simp only [List.mem_cons, List.not_mem_nil, or_false] at hj
    rcases hj with rfl | rfl <;> exact ⟨not_blocked_of_check (by decide +kernel), not_dir_of_check (by decide +kernel)⟩
  apart := by simp [job1, job2]
  keep := by
    intro a ha b hb
    simp only [List.mem_cons, List.not_mem_nil, or_false] at ha hb
    rcases ha with rfl | rfl <;> rcases hb with rfl | rfl <;> simp [job1, job2]

/-- The hypotheses of `C65_explicit_split` hold of a store with three keys and two outputs. -/
example := C65_explicit_split (order := id) (src := fun _ => memory entries) (fun _ => .refl _) (par [] []) _ _ explicit_params _
  (fun _ _ => serves_memory entries (by decide) _) jobs_place
  (by
    intro job hj k hk
    simp only [List.mem_cons, List.not_mem_nil, or_false] at hj
    rcases hj with rfl | rfl <;> simp only [job1, job2, List.mem_cons, List.not_mem_nil, or_false] at hk
    · subst hk; constructor <;> decide
    · rcases hk with rfl | rfl <;> constructor <;> decide) (by
    intro job hj k hk
    simp only [List.mem_cons, List.not_mem_nil, or_false] at hj
    rcases hj with rfl | rfl <;> simp only [job1, job2, List.mem_cons, List.not_mem_nil, or_false] at hk
    · subst hk; decide
    · rcases hk with rfl | rfl <;> decide)
example : keysAt ["home".toList, "o".toList, "2.zip".toList]
    (splitMain id (fun _ => id) home (Prog.pure ()) (fun _ _ => memory entries) (par [] []) (fs "a\n" "c\n\nb\nc")) = some ["c".toList, "b".toList] := by decide +kernel
/-- What the script raises. -/
def raisedBy (r : Res Unit × FS) : Option Exc := match r.1 with | .ok _ => none | .error e => some e
/-- A missing key. -/
example : raisedBy (splitMain id (fun _ => id) home (Prog.pure ()) (fun _ _ => memory entries) (par [] []) (fs "a\n" "b\nz\nc")) = some .runtimeError := by decide +kernel
/-- Not exhaustive, which is allowed by the parameter of the script itself. -/
example : raisedBy (splitMain id (fun _ => id) home (Prog.pure ()) (fun _ _ => memory entries) (par [("must_be_exhaustive".toList, .bool false)] []) (fs "a\n" "b")) = none := by
  decide +kernel

/-- The documentation says that the split need not be exhaustive if `explicit_split.must_be_exhaustive` is `False`; that parameter is
ignored. -/
theorem C65_must_be_exhaustive_counterexample :
    Params.Found (par [] [("must_be_exhaustive".toList, .bool false)]) "explicit_split.must_be_exhaustive".toList .none (.bool false) ∧
    raisedBy (splitMain id (fun _ => id) home (Prog.pure ()) (fun _ _ => memory entries) (par [] [("must_be_exhaustive".toList, .bool false)]) (fs "a\n" "b")) =
      some .runtimeError := by
  refine ⟨?_, by decide +kernel⟩
  have h := par_wf [] (.inl rfl) [("must_be_exhaustive".toList, .bool false)] (.inr rfl)
  exact (((Params.C47_boolean_and_list _ h "explicit_split.must_be_exhaustive".toList .none).1 (.bool false)).1 rfl).1

end ExplicitExample
end Vista
