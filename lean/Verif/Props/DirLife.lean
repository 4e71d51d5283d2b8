import Verif.Props.DocMap
import Verif.Spec.DirLife

/-!
# Property C98: directory sinks, whatever is done with them
-/
set_option linter.unusedSectionVars false
set_option linter.unusedSimpArgs false
namespace Vista
namespace DirLife
variable {cwd P : PyPath}

/-- The sink objects are as the state says. -/
def SinksOK (P : PyPath) (listed : Nat → Str → Prop) (sinks : Nat → DirSink) : Prop :=
  ∀ i, (sinks i).path = P ∧ ((sinks i).idToFile.map (·.1)).Nodup ∧
    ∀ k p, (k, p) ∈ (sinks i).idToFile ↔ listed i k ∧ p = ⟨P.root, P.parts ++ [k]⟩

theorem div_plain {k : Str} (h : k ≠ [] ∧ k ≠ ['.'] ∧ k ≠ ['.', '.'] ∧ '/' ∉ k) : P.div (PyPath.parse k) = ⟨P.root, P.parts ++ [k]⟩ := by
  have : PyPath.render ⟨[], [k]⟩ = k := by simp [PyPath.render, joinWith]
  have hp : PyPath.parse k = ⟨[], [k]⟩ := by
    conv_lhs => rw [← this]
    exact PyPath.parse_render ⟨.inl rfl, by simp [h.1, h.2.1, h.2.2.2]⟩
  simp [hp, PyPath.div]

theorem untouched_trans {D : Loc} {a b c : FS} (h1 : Untouched D a b) (h2 : Untouched D b c) : Untouched D a c := by
  intro q hq
  rcases h1 q hq with x | ⟨x1, x2, x3⟩ <;> rcases h2 q hq with y | ⟨y1, y2, y3⟩
  · exact .inl (y.trans x)
  · exact .inr ⟨y1, x ▸ y2, y3⟩
  · exact .inr ⟨x1, x2, y.trans x3⟩
  · exact .inr ⟨x1, x2, y3⟩

/-- Writing one of the directory's files. -/
theorem write_onDisk {s : State} {fs : FS} (h : OnDisk (PyPath.resolve cwd P) s fs) {k : Str} (hk : k ≠ ['.', '.']) (b : Bytes) :
    ∃ fs', writeBytesTo cwd ⟨P.root, P.parts ++ [k]⟩ b fs = (.ok (), fs') ∧ Untouched (PyPath.resolve cwd P) fs fs' ∧
      ∀ listed, OnDisk (PyPath.resolve cwd P) ⟨true, fun k' => if k' = k then some b else s.content k', listed⟩ fs' := by
  generalize hD : PyPath.resolve cwd P = D at *
  obtain ⟨fs1, a1, a2, a3⟩ := (mkdirs_spec h.tree D).1 h.free
  have hin : ∀ n, fs1.node (D ++ [n]) = fs.node (D ++ [n]) := fun n => a2.2 _ fun hp => by
    exact absurd hp.length_le (by rw [List.length_append]; simp)
  obtain ⟨fs2, b1, b2, b3⟩ := (writeFile_spec a3 (D ++ [k]) (.data b)).1 (by simp)
    (by rw [List.dropLast_concat]; exact a2.1 D (List.prefix_refl D))
    (by rw [hin, h.content]; cases s.content k <;> simp)
  have hdirs : ∀ q, q <+: D → fs2.node q = some .dir := fun q hq => by
    rw [b2.2 q (by rintro rfl; exact absurd hq.length_le (by rw [List.length_append]; simp)), a2.1 q hq]
  refine ⟨fs2, ?_, ?_, fun listed => ⟨b3, ?_, ?_, ?_⟩⟩
  · simp [writeBytesTo, parent_snoc, hD, a1, resolve_snoc k hk, b1]
  · intro q hq
    have hne : q ≠ D ++ [k] := by rintro rfl; exact hq (List.prefix_append _ _)
    by_cases hqD : q <+: D
    · cases hn : fs.node q with
      | none => exact .inr ⟨hqD, rfl, hdirs q hqD⟩
      | some n =>
        left
        rw [hdirs q hqD]
        cases n with
        | dir => rfl
        | file c => exact absurd ⟨q, c, hqD, hn⟩ h.free
    · exact .inl (by rw [b2.2 q hne, a2.2 q hqD])
  · rintro ⟨q, c, hq, hc⟩
    rw [hdirs q hq] at hc; simp at hc
  · simp [hdirs D (List.prefix_refl D)]
  · intro n
    by_cases hn : n = k
    · subst hn; simp [b2.1]
    · simp only [hn, if_false]
      rw [b2.2 _ (by simpa using hn), hin, h.content]

theorem index_of_sinks {listed : Nat → Str → Prop} {sinks : Nat → DirSink} (h : SinksOK P listed sinks) (i : Nat) :
    IsIndex cwd P (listed i) (docMapText cwd (sinks i).idToFile) := by
  obtain ⟨-, hn, hm⟩ := h i
  have hperm := stableSort_perm strLe ((sinks i).idToFile.map (·.1))
  have hsorted := stableSort_sorted strLe_total (fun _ _ _ h1 h2 => strLe_trans h1 h2) (l := (sinks i).idToFile.map (·.1))
  have hmem : ∀ k, k ∈ stableSort strLe ((sinks i).idToFile.map (·.1)) ↔ listed i k := by
    intro k
    rw [hperm.mem_iff, List.mem_map]
    constructor
    · rintro ⟨⟨k', p⟩, he, rfl⟩; exact ((hm k' p).1 he).1
    · intro hk; exact ⟨(k, _), (hm k _).2 ⟨hk, rfl⟩, rfl⟩
  refine ⟨_, ?_, hmem, ?_⟩
  · exact List.Pairwise.and (hperm.nodup_iff.2 hn) hsorted
  · unfold docMapText
    congr 1
    refine List.map_congr_left fun k hk => ?_
    have : dictGet (sinks i).idToFile k = some ⟨P.root, P.parts ++ [k]⟩ := by
      rw [dictGet_iff hn, hm]; exact ⟨(hmem k).1 hk, rfl⟩
    simp [docMapLine, this]

theorem enter_eq {t : DirSink} (h : t.path = P) : t.enter cwd = (DirSink.new P).enter cwd := by
  subst h; rfl

theorem enter_refused {fs : FS} (ht : fs.Tree) (h : ¬ fs.EmptyDir (PyPath.resolve cwd P)) :
    (DirSink.new P).enter cwd fs = (.error .ioError, fs) := by
  have : DirSink.rmdirPath cwd P fs = (.error .ioError, fs) := by
    unfold DirSink.rmdirPath
    split
    · rfl
    · exact (rmdir_spec ht _).2 fun h' => h h'.2
  simp [DirSink.enter, DirSink.new, this]

theorem empty_iff {D : Loc} {s : State} {fs : FS} (h : OnDisk D s fs) : s.Empty ↔ fs.EmptyDir D := by
  unfold State.Empty FS.EmptyDir
  rw [h.there]
  refine and_congr_right fun _ => forall_congr' fun k => ?_
  rw [h.content]; simp

theorem untouched_refl (D : Loc) (fs : FS) : Untouched D fs fs := fun _ _ => .inl rfl

theorem node_wipe (fs : FS) (D q : Loc) :
    FS.node (fs.filter fun e => !(D.isPrefixOf e.1 && decide (e.1 ≠ D))) q = if D <+: q ∧ q ≠ D then none else fs.node q := by
  unfold FS.node
  by_cases hq : q = []
  · subst hq
    simp
  · simp only [hq, if_false]
    rw [FS.dictGet_filter fs (fun l => !(D.isPrefixOf l && decide (l ≠ D))) q]
    by_cases h : D <+: q ∧ q ≠ D
    · simp [h]
    · rw [if_neg h, if_pos]
      simp only [not_and_or, not_not] at h
      rcases h with h | h
      · have : D.isPrefixOf q = false := by rw [← Bool.not_eq_true, List.isPrefixOf_iff_prefix]; exact h
        simp [this]
      · simp [h]

theorem wipe_onDisk {D : Loc} {s : State} {fs : FS} (h : OnDisk D s fs) :
    OnDisk D { s with content := fun _ => none } (fs.filter fun e => !(D.isPrefixOf e.1 && decide (e.1 ≠ D))) ∧
    Untouched D fs (fs.filter fun e => !(D.isPrefixOf e.1 && decide (e.1 ≠ D))) := by
  refine ⟨⟨⟨?_, ?_⟩, ?_, ?_, ?_⟩, ?_⟩
  · intro p n hp
    rw [node_wipe] at hp ⊢
    by_cases hc : D <+: p ++ [n] ∧ p ++ [n] ≠ D
    · rw [if_pos hc] at hp; exact absurd rfl hp
    · rw [if_neg hc] at hp
      rw [if_neg, h.tree.parents p n hp]
      rintro ⟨h1, h2⟩
      refine hc ⟨h1.trans (List.prefix_append _ _), ?_⟩
      rintro rfl
      exact absurd h1.length_le (by rw [List.length_append]; simp)
  · intro hmem
    refine h.tree.root ?_
    obtain ⟨e, he, he'⟩ := List.mem_map.1 hmem
    exact List.mem_map.2 ⟨e, (List.mem_filter.1 he).1, he'⟩
  · rintro ⟨q, c, hq, hc⟩
    rw [node_wipe] at hc
    split at hc
    · simp at hc
    · exact h.free ⟨q, c, hq, hc⟩
  · rw [node_wipe, if_neg (by simp)]; exact h.there
  · intro k
    rw [node_wipe, if_pos ⟨List.prefix_append _ _, fun e => absurd (congrArg List.length e) (by rw [List.length_append]; simp)⟩]
    rfl
  · intro q hq
    rw [node_wipe, if_neg fun h => hq h.1]
    exact .inl rfl

/-- One event. -/
theorem step_ok (hname : ∃ n, P.parts.getLast? = some n ∧ n ≠ ['.', '.']) {s : State} {sinks : Nat → DirSink} {fs : FS}
    (hd : OnDisk (PyPath.resolve cwd P) s fs) (hs : SinksOK P s.listed sinks) (ev : DirEvent) (hk : PlainKeys [ev]) :
    ∃ s', Step cwd P s ev (DirSink.happen cwd (PyPath.resolve cwd P) sinks fs ev).1 s' ∧
      OnDisk (PyPath.resolve cwd P) s' (DirSink.happen cwd (PyPath.resolve cwd P) sinks fs ev).2.2 ∧
      SinksOK P s'.listed (DirSink.happen cwd (PyPath.resolve cwd P) sinks fs ev).2.1 ∧
      Untouched (PyPath.resolve cwd P) fs (DirSink.happen cwd (PyPath.resolve cwd P) sinks fs ev).2.2 := by
  cases ev with
  | enter i =>
    simp only [DirSink.happen, enter_eq (cwd := cwd) (hs i).1]
    by_cases he : s.Empty
    · obtain ⟨fs2, a1, a2⟩ := dirSink_enter fs hd.tree hname ((empty_iff hd).1 he)
      have hview : ∀ q, fs2.node q = fs.node q := fun q => a2.others q (by simp)
      rw [a1]
      refine ⟨_, .entered s i he, ⟨a2.tree, ?_, ?_, ?_⟩, ?_, fun q _ => .inl (hview q)⟩
      · rintro ⟨q, c, hq, hc⟩; rw [DirSink.afterCall, hview] at hc; exact hd.free ⟨q, c, hq, hc⟩
      · simp only [DirSink.afterCall, hview]; exact hd.there
      · intro k; simp only [DirSink.afterCall, hview]; exact hd.content k
      · intro j
        simp only [DirSink.afterCall]
        by_cases hj : j = i
        · simp [hj, DirSink.new]
        · simp only [hj, if_false]; exact hs j
    · rw [enter_refused hd.tree (fun h => he ((empty_iff hd).2 h))]
      exact ⟨s, .refused s i he, hd, hs, untouched_refl _ _⟩
  | put i k b =>
    have hk' := hk i k b (by simp)
    obtain ⟨fs', a1, a2, a3⟩ := write_onDisk hd hk'.2.2.1 b
    have hput : (sinks i).put cwd k b fs = (.ok { sinks i with idToFile := dictSet k ⟨P.root, P.parts ++ [k]⟩ (sinks i).idToFile }, fs') := by
      simp [DirSink.put, (hs i).1, div_plain hk', a1]
    simp only [DirSink.happen, hput, DirSink.afterCall]
    refine ⟨_, .put s i k b, a3 _, ?_, a2⟩
    intro j
    by_cases hj : j = i
    · subst hj
      obtain ⟨h1, h2, h3⟩ := hs j
      simp only [if_true]
      refine ⟨h1, nodup_dictSet _ _ h2, fun k' p => ?_⟩
      rw [← dictGet_iff (nodup_dictSet _ _ h2), dictGet_dictSet]
      by_cases hkk : k' = k
      · subst hkk; simp [eq_comm]
      · simp only [hkk, if_false, dictGet_iff h2, h3, and_false, or_false]
    · simp only [hj, if_false, false_and, or_false]; exact hs j
  | exit i =>
    obtain ⟨fs', a1, a2, a3⟩ := write_onDisk hd (k := "_index".toList) (by decide) (encodeUtf8 (docMapText cwd (sinks i).idToFile))
    have hexit : (sinks i).exit cwd fs = (.ok (), fs') := by
      have hplain : P.div (PyPath.parse "_index".toList) = ⟨P.root, P.parts ++ ["_index".toList]⟩ := div_plain (by decide)
      simp only [DirSink.exit, writeTextTo, (hs i).1, hplain, a1]
    simp only [DirSink.happen, hexit]
    exact ⟨_, .exit s i _ (index_of_sinks hs i), a3 _, hs, a2⟩
  | emptied =>
    exact ⟨_, .emptied s, (wipe_onDisk hd).1, hs, (wipe_onDisk hd).2⟩

theorem plainKeys_cons {ev : DirEvent} {evs : List DirEvent} (h : PlainKeys (ev :: evs)) : PlainKeys [ev] ∧ PlainKeys evs :=
  ⟨fun i k b hm => h i k b (by rw [List.mem_singleton] at hm; simp [hm]), fun i k b hm => h i k b (List.mem_cons_of_mem _ hm)⟩

theorem steps_ok (hname : ∃ n, P.parts.getLast? = some n ∧ n ≠ ['.', '.']) (evs : List DirEvent) (hk : PlainKeys evs) :
    ∀ {s : State} {sinks : Nat → DirSink} {fs : FS}, OnDisk (PyPath.resolve cwd P) s fs → SinksOK P s.listed sinks →
    ∃ s', Steps cwd P s evs (DirSink.happenAll cwd (PyPath.resolve cwd P) sinks fs evs).1 s' ∧
      OnDisk (PyPath.resolve cwd P) s' (DirSink.happenAll cwd (PyPath.resolve cwd P) sinks fs evs).2.2 ∧
      Untouched (PyPath.resolve cwd P) fs (DirSink.happenAll cwd (PyPath.resolve cwd P) sinks fs evs).2.2 := by
  induction evs with
  | nil => intro s sinks fs hd _; exact ⟨s, .nil s, hd, untouched_refl _ _⟩
  | cons ev evs ih =>
    intro s sinks fs hd hs
    obtain ⟨s1, a1, a2, a3, a4⟩ := step_ok hname hd hs ev (plainKeys_cons hk).1
    obtain ⟨s2, b1, b2, b3⟩ := ih (plainKeys_cons hk).2 a2 a3
    exact ⟨s2, .cons a1 b1, b2, untouched_trans a4 b3⟩

/-- Whatever is done with any number of sink objects for a directory: every call gives what `Steps` says, the directory then is as
`Steps` says, and nothing else in the file system has changed, except that missing directories above it have been made. -/
theorem C98_life (hname : ∃ n, P.parts.getLast? = some n ∧ n ≠ ['.', '.']) (evs : List DirEvent) (hk : PlainKeys evs) (s : State) (fs : FS)
    (hd : OnDisk (PyPath.resolve cwd P) s fs) (hnew : ∀ i k, ¬ s.listed i k) :
    ∃ results sinks fs' s', DirSink.happenAll cwd (PyPath.resolve cwd P) (fun _ => DirSink.new P) fs evs = (results, sinks, fs') ∧
      Steps cwd P s evs results s' ∧ OnDisk (PyPath.resolve cwd P) s' fs' ∧ Untouched (PyPath.resolve cwd P) fs fs' := by
  obtain ⟨s', h1, h2, h3⟩ := steps_ok hname evs hk (sinks := fun _ => DirSink.new P) hd
    (fun i => ⟨rfl, by simp [DirSink.new], fun k p => by simp [DirSink.new, hnew]⟩)
  exact ⟨_, _, _, s', rfl, h1, h2, h3⟩

theorem index_unique {keys : Str → Prop} {t t' : Str} (h : IsIndex cwd P keys t) (h' : IsIndex cwd P keys t') : t = t' := by
  obtain ⟨ks, a1, a2, rfl⟩ := h
  obtain ⟨ks', b1, b2, rfl⟩ := h'
  have hperm : ks.Perm ks' := (List.perm_ext_iff_of_nodup (a1.imp fun h => h.1) (b1.imp fun h => h.1)).2 fun k => by rw [a2, b2]
  have : ks = ks' := List.Perm.eq_of_pairwise (le := fun a b => strLe a b = true) (fun a b _ _ h h' => strLe_antisymm h h') (a1.imp fun h => h.2) (b1.imp fun h => h.2) hperm
  rw [this]

/-- `Steps` leaves no choice: the results of the calls and the state at the end are determined. -/
theorem C98_determined (s s1 s2 : State) (evs : List DirEvent) (r1 r2 : List (Res Unit)) (h1 : Steps cwd P s evs r1 s1)
    (h2 : Steps cwd P s evs r2 s2) : r1 = r2 ∧ s1 = s2 := by
  induction h1 generalizing r2 with
  | nil => cases h2; exact ⟨rfl, rfl⟩
  | cons hs _ ih =>
    cases h2 with
    | cons hs' hss =>
      rename_i r' _ s' _
      have key : ∀ {s a b : State} {ev : DirEvent} {r r' : Res Unit}, Step cwd P s ev r a → Step cwd P s ev r' b → r = r' ∧ a = b := by
        intro s a b ev r r' h h'
        cases h with
        | entered i h => cases h' with
          | entered => exact ⟨rfl, rfl⟩
          | refused _ h' => exact absurd h h'
        | refused i h => cases h' with
          | entered _ h' => exact absurd h' h
          | refused => exact ⟨rfl, rfl⟩
        | put => cases h'; exact ⟨rfl, rfl⟩
        | exit i t h => cases h' with
          | exit _ t' h' => rw [index_unique h h']; exact ⟨rfl, rfl⟩
        | emptied => cases h'; exact ⟨rfl, rfl⟩
      obtain ⟨rfl, rfl⟩ := key hs hs'
      obtain ⟨rfl, rfl⟩ := ih _ hss
      exact ⟨rfl, rfl⟩

theorem steps_append {s s' : State} {a b : List DirEvent} {rs : List (Res Unit)} (h : Steps cwd P s (a ++ b) rs s') :
    ∃ r1 r2 s1, rs = r1 ++ r2 ∧ r1.length = a.length ∧ Steps cwd P s a r1 s1 ∧ Steps cwd P s1 b r2 s' := by
  induction a generalizing s rs with
  | nil => exact ⟨[], rs, s, rfl, rfl, .nil s, h⟩
  | cons ev a ih =>
    cases h with
    | cons hs hss =>
      obtain ⟨r1, r2, s1, rfl, hl, h1, h2⟩ := ih hss
      exact ⟨_ :: r1, r2, s1, rfl, by simp [hl], .cons hs h1, h2⟩

theorem step_empty {s s' : State} {ev : DirEvent} {r : Res Unit} (h : Step cwd P s ev r s') (hne : ev ≠ .emptied) :
    s'.Empty ↔ s.Empty ∧ ¬ IsWrite ev := by
  cases h with
  | entered i h => simp [IsWrite, State.Empty]
  | refused i h => simp [IsWrite]
  | put i k b =>
    simp only [IsWrite, not_true_eq_false, and_false, iff_false]
    rintro ⟨-, h⟩
    simpa using h k
  | exit i t h =>
    simp only [IsWrite, not_true_eq_false, and_false, iff_false]
    rintro ⟨-, h⟩
    have h0 := h "_index".toList
    simp only [if_true, reduceCtorEq] at h0
  | emptied => exact absurd rfl hne

theorem steps_empty {s s' : State} {evs : List DirEvent} {rs : List (Res Unit)} (h : Steps cwd P s evs rs s') (hne : .emptied ∉ evs) :
    s'.Empty ↔ s.Empty ∧ ∀ ev ∈ evs, ¬ IsWrite ev := by
  induction h with
  | nil => simp
  | cons hs _ ih =>
    rw [ih (fun h => hne (List.mem_cons_of_mem _ h)), step_empty hs (fun h => hne (h ▸ List.mem_cons_self ..)), List.forall_mem_cons, and_assoc]

/-- Unless somebody else empties the directory: `put` and leaving never raise, and entering succeeds only if the directory was empty to
begin with and nothing has been put, and no sink left, since: a directory sink can be used for one `with` block only, and so can all
the sinks for a directory together. -/
theorem C98_once (hname : ∃ n, P.parts.getLast? = some n ∧ n ≠ ['.', '.']) (before after : List DirEvent) (ev : DirEvent)
    (hk : PlainKeys (before ++ ev :: after)) (hne : .emptied ∉ before) (s : State) (fs : FS) (hd : OnDisk (PyPath.resolve cwd P) s fs)
    (hnew : ∀ i k, ¬ s.listed i k) :
    ∃ r, (DirSink.happenAll cwd (PyPath.resolve cwd P) (fun _ => DirSink.new P) fs (before ++ ev :: after)).1[before.length]? = some r ∧
      (IsWrite ev → r = .ok ()) ∧
      (∀ i, ev = .enter i → (r = .ok () ∧ fs.EmptyDir (PyPath.resolve cwd P) ∧ ∀ e ∈ before, ¬ IsWrite e) ∨
        (r = .error .ioError ∧ ¬ (fs.EmptyDir (PyPath.resolve cwd P) ∧ ∀ e ∈ before, ¬ IsWrite e))) := by
  obtain ⟨results, sinks, fs', s', h1, h2, -, -⟩ := C98_life hname _ hk s fs hd hnew
  rw [h1]
  obtain ⟨r1, r2, s1, rfl, hl, h3, h4⟩ := steps_append h2
  have hempty := steps_empty h3 hne
  rw [empty_iff hd] at hempty
  cases h4 with
  | cons hs _ =>
    rename_i r rs s2
    refine ⟨r, by simp [← hl], ?_, ?_⟩
    · intro hw
      cases hs <;> first | rfl | exact absurd hw (by simp [IsWrite])
    · rintro i rfl
      cases hs with
      | entered _ h => exact .inl ⟨rfl, hempty.1 h⟩
      | refused _ h => exact .inr ⟨rfl, fun h' => h (hempty.2 h')⟩

theorem steps_listed {s s' : State} {evs : List DirEvent} {rs : List (Res Unit)} (h : Steps cwd P s evs rs s') (hne : .emptied ∉ evs)
    (hinv : s.Empty → ∀ i k, ¬ s.listed i k) :
    ∀ i k, s'.listed i k ↔ s.listed i k ∨ ∃ b, DirEvent.put i k b ∈ evs := by
  induction h with
  | nil => simp
  | @cons s s1 s' ev r evs rs hs _ ih =>
    have hne' : .emptied ∉ evs := fun h => hne (List.mem_cons_of_mem _ h)
    have hinv' : s1.Empty → ∀ i k, ¬ s1.listed i k := by
      intro he
      have he0 := ((step_empty hs (fun h => hne (h ▸ List.mem_cons_self ..))).1 he)
      cases hs with
      | entered j h =>
        intro i k
        by_cases hij : i = j
        · simp [hij]
        · simp only [hij, if_false]; exact hinv h i k
      | refused j h => exact hinv he
      | put j k b => exact absurd trivial he0.2
      | exit j t h => exact absurd trivial he0.2
      | emptied => exact absurd (List.mem_cons_self ..) hne
    intro i k
    rw [ih hne' hinv' i k]
    cases hs with
    | entered j h =>
      have := hinv h i k
      by_cases hij : i = j <;> simp [hij, this, hinv h]
    | refused j h => simp
    | put j k' b =>
      simp only [List.mem_cons, DirEvent.put.injEq]
      constructor
      · rintro ((h | ⟨rfl, rfl⟩) | ⟨b', h⟩)
        · exact .inl h
        · exact .inr ⟨b, .inl ⟨rfl, rfl, rfl⟩⟩
        · exact .inr ⟨b', .inr h⟩
      · rintro (h | ⟨b', ⟨rfl, rfl, rfl⟩ | h⟩)
        · exact .inl (.inl h)
        · exact .inl (.inr ⟨rfl, rfl⟩)
        · exact .inr ⟨b', h⟩
    | exit j t h => simp
    | emptied => exact absurd (List.mem_cons_self ..) hne

theorem lastPut_cons {V : Type} (e : Str × V) (puts : List (Str × V)) (k : Str) :
    lastPut (e :: puts) k = (lastPut puts k).or (if e.1 = k then some e.2 else none) := by
  unfold lastPut
  rw [List.reverse_cons, List.find?_append]
  cases (puts.reverse.find? fun e => decide (e.1 = k)) with
  | some x => simp
  | none => by_cases h : e.1 = k <;> simp [h]

/-- What is in a file other than the index. -/
theorem steps_content {s s' : State} {evs : List DirEvent} {rs : List (Res Unit)} (h : Steps cwd P s evs rs s') (hne : .emptied ∉ evs)
    {k : Str} (hk : k ≠ "_index".toList) : s'.content k = (lastPut (putsOf evs) k).or (s.content k) := by
  induction h with
  | nil => simp [putsOf, lastPut]
  | @cons s s1 s' ev r evs rs hs _ ih =>
    rw [ih fun h => hne (List.mem_cons_of_mem _ h)]
    cases hs with
    | entered j h => rfl
    | refused j h => rfl
    | put j k' b =>
      have : putsOf (.put j k' b :: evs) = (k', b) :: putsOf evs := rfl
      rw [this, lastPut_cons]
      cases lastPut (putsOf evs) k with
      | some x => simp
      | none => by_cases h : k = k' <;> simp [h, eq_comm]
    | exit j t h =>
      have : putsOf (.exit j :: evs) = putsOf evs := rfl
      rw [this]
      simp only [hk, if_false]
    | emptied => exact absurd (List.mem_cons_self ..) hne

/-- The index stays as it is as long as no sink is left and nothing is put under its name. -/
theorem steps_index {s s' : State} {evs : List DirEvent} {rs : List (Res Unit)} (h : Steps cwd P s evs rs s') (hne : .emptied ∉ evs)
    (hexit : ∀ i, .exit i ∉ evs) (hput : ∀ i b, .put i "_index".toList b ∉ evs) : s'.content "_index".toList = s.content "_index".toList := by
  induction h with
  | nil => rfl
  | @cons s s1 s' ev r evs rs hs _ ih =>
    rw [ih (fun h => hne (List.mem_cons_of_mem _ h)) (fun i h => hexit i (List.mem_cons_of_mem _ h))
      (fun i b h => hput i b (List.mem_cons_of_mem _ h))]
    cases hs with
    | entered j h => rfl
    | refused j h => rfl
    | put j k' b =>
      have : "_index".toList ≠ k' := by rintro rfl; exact hput j b (List.mem_cons_self ..)
      simp only [this, if_false]
    | exit j t h => exact absurd (List.mem_cons_self ..) (hexit j)
    | emptied => exact absurd (List.mem_cons_self ..) hne

/-- Reading an index. -/
theorem read_index (hcwd : cwd.Normal) (hroot : cwd.root ≠ []) (hP : P.Normal) (hsafe : ∀ w ∈ (PyPath.absolute cwd P).parts, TextSafe w)
    {keys : Str → Prop} (hkeys : ∀ k, keys k → FileKey k) {text : Str} (htext : IsIndex cwd P keys text) {fs : FS}
    (hfs : fs.node (PyPath.resolve cwd P ++ ["_index".toList]) = some (.file (.data (encodeUtf8 text)))) :
    ∃ m, docMapEntries cwd (P.div (PyPath.parse "_index".toList)) fs = (.ok m, fs) ∧ (m.map (·.1)).Nodup ∧
      ∀ k p, (k, p) ∈ m ↔ keys k ∧ p = (PyPath.absolute cwd ⟨P.root, P.parts ++ [k]⟩).render := by
  obtain ⟨ks, h1, h2, rfl⟩ := htext
  have hnd : ks.Nodup := h1.imp fun h => h.1
  have hroot' : (PyPath.absolute cwd P).root = ['/'] ∨ (PyPath.absolute cwd P).root = ['/', '/'] := by
    rcases (absolute_normal hcwd hP).root with h | h | h
    · exfalso
      unfold PyPath.absolute at h
      split at h
      · rename_i h'; exact h' h
      · exact hroot h
    · exact .inl h
    · exact .inr h
  have hnorm : ∀ k, FileKey k → (PyPath.absolute cwd ⟨P.root, P.parts ++ [k]⟩).Normal := by
    intro k hk
    refine absolute_normal hcwd ⟨hP.root, fun w hw => ?_⟩
    rcases List.mem_append.1 hw with hw | hw
    · exact hP.parts w hw
    · rw [List.mem_singleton.1 hw]; exact ⟨hk.nonempty, hk.dot, hk.slash⟩
  generalize hd : ks.map (fun k => (k, (⟨P.root, P.parts ++ [k]⟩ : PyPath))) = d
  have hfst : d.map (·.1) = ks := by rw [← hd, List.map_map]; simp [Function.comp_def]
  have hdn : (d.map (·.1)).Nodup := hfst ▸ hnd
  have hmem : ∀ k p, (k, p) ∈ d ↔ keys k ∧ p = ⟨P.root, P.parts ++ [k]⟩ := by
    intro k p
    rw [← hd, List.mem_map]
    constructor
    · rintro ⟨k', hk', he⟩
      simp only [Prod.mk.injEq] at he
      obtain ⟨rfl, rfl⟩ := he
      exact ⟨(h2 _).1 hk', rfl⟩
    · rintro ⟨hk, rfl⟩; exact ⟨k, (h2 k).2 hk, rfl⟩
  have hsort : stableSort strLe (d.map (·.1)) = ks := by
    rw [hfst]
    exact List.Perm.eq_of_pairwise (le := fun a b => strLe a b = true) (fun a b _ _ h h' => strLe_antisymm h h')
      (stableSort_sorted strLe_total (fun _ _ _ h1 h2 => strLe_trans h1 h2) _) (h1.imp fun h => h.2) (stableSort_perm strLe ks)
  have hdoc : docMapText cwd d = (ks.map fun k => k ++ '\t' :: (PyPath.absolute cwd ⟨P.root, P.parts ++ [k]⟩).render ++ ['\n']).flatten := by
    unfold docMapText
    rw [hsort]
    congr 1
    refine List.map_congr_left fun k hk => ?_
    have : dictGet d k = some ⟨P.root, P.parts ++ [k]⟩ := by
      rw [dictGet_iff hdn, hmem]; exact ⟨(h2 k).1 hk, rfl⟩
    simp [docMapLine, this]
  rw [← hdoc] at hfs
  have hcr : '\r' ∉ docMapText cwd d := by
    rw [hdoc]
    intro h
    obtain ⟨l, hl, hc⟩ := List.mem_flatten.1 h
    obtain ⟨k, hk, rfl⟩ := List.mem_map.1 hl
    have hk' := hkeys k ((h2 k).1 hk)
    simp only [List.mem_append, List.mem_cons, List.not_mem_nil, or_false] at hc
    rcases hc with (hc | hc | hc) | hc
    · exact hk'.safe.2.2 hc
    · exact absurd hc (by decide)
    · exact (render_key hroot' hsafe hk').2 hc
    · exact absurd hc (by decide)
  have hsrc : fileSource (PyPath.resolve cwd P ++ ["_index".toList]) fs = (.ok (docMapText cwd d), fs) := by
    simp only [fileSource, readData, readFile, hfs, Prog.bind_apply, Prog.pure_apply, Prog.ofRes_apply, translatedText_encode hcr]
  have hentry : ∀ e ∈ d, FileKey e.1 ∧ e.2 = ⟨P.root, P.parts ++ [e.1]⟩ := by
    rintro ⟨k, p⟩ he
    obtain ⟨a, b⟩ := (hmem k p).1 he
    exact ⟨hkeys k a, b⟩
  obtain ⟨m, e1, e2, e3⟩ := docMap_roundtrip cwd d hdn
    (fun e he => ⟨(hentry e he).1.safe.1, (hentry e he).1.safe.2.1, (hentry e he).1.head, (hentry e he).1.last⟩)
    (fun e he => by
      obtain ⟨hk, hp⟩ := hentry e he
      rw [hp]; exact ⟨(render_key hroot' hsafe hk).1, hnorm _ hk⟩) _ fs hsrc
  refine ⟨m.map fun e => (e.1, e.2.render), ?_, ?_, ?_⟩
  · rw [docMapEntries, div_fileKey index_key, resolve_snoc _ index_key.dotdot]
    simp only [Prog.bind_apply, e1, Prog.pure_apply]
  · simp only [List.map_map]
    exact (e3.imp fun h => h.1)
  · intro k p
    rw [List.mem_map]
    constructor
    · rintro ⟨⟨k', q⟩, hq, heq⟩
      simp only [Prod.mk.injEq] at heq
      obtain ⟨rfl, rfl⟩ := heq
      obtain ⟨p', hp', rfl⟩ := (e2 _ _).1 hq
      obtain ⟨a, rfl⟩ := (hmem _ _).1 hp'
      exact ⟨a, rfl⟩
    · rintro ⟨hk, rfl⟩
      exact ⟨(k, _), (e2 k _).2 ⟨_, (hmem k _).2 ⟨hk, rfl⟩, rfl⟩, rfl⟩

/-- What a source made from the index serves after any history in which nobody else empties the directory: exactly the keys that had
been put through the sink object that was left last, up to then; each with the last value put for it through any of the sink objects,
even after the sink was left.  (A key put through another object, or too late, is not there.) -/
theorem C98_source (hcwd : cwd.Normal) (hroot : cwd.root ≠ []) (hP : P.Normal) (hsafe : ∀ w ∈ (PyPath.absolute cwd P).parts, TextSafe w)
    (hname : ∃ n, P.parts.getLast? = some n ∧ n ≠ ['.', '.']) (before after : List DirEvent) (i : Nat)
    (hkeys : ∀ j k b, .put j k b ∈ before ++ after → FileKey k ∧ k ≠ "_index".toList)
    (hne : .emptied ∉ before ++ after) (hlast : ∀ j, .exit j ∉ after)
    (s : State) (fs : FS) (hd : OnDisk (PyPath.resolve cwd P) s fs) (hnew : ∀ i k, ¬ s.listed i k)
    (served : Str → Option Bytes)
    (hserved : ∀ k, ((∃ b, .put i k b ∈ before) → served k = lastPut (putsOf (before ++ after)) k) ∧ ((¬ ∃ b, .put i k b ∈ before) → served k = none)) :
    ∃ results sinks fs' m, DirSink.happenAll cwd (PyPath.resolve cwd P) (fun _ => DirSink.new P) fs (before ++ .exit i :: after) = (results, sinks, fs') ∧
      docMapEntries cwd (P.div (PyPath.parse "_index".toList)) fs' = (.ok m, fs') ∧
      Zip.Serves (docMapSource readBytesFile cwd m fs') (fun _ => True) served := by
  have hplain : PlainKeys (before ++ .exit i :: after) := by
    intro j k b hm
    have hm' : .put j k b ∈ before ++ after := by
      rw [List.mem_append, List.mem_cons] at hm
      rw [List.mem_append]
      rcases hm with h | h | h
      · exact .inl h
      · exact absurd h (by simp)
      · exact .inr h
    obtain ⟨h, -⟩ := hkeys j k b hm'
    exact ⟨h.nonempty, h.dot, h.dotdot, h.slash⟩
  have hneb : .emptied ∉ before := fun h => hne (List.mem_append.2 (.inl h))
  have hnea : .emptied ∉ after := fun h => hne (List.mem_append.2 (.inr h))
  obtain ⟨results, sinks, fs', s', h1, h2, h3, -⟩ := C98_life hname _ hplain s fs hd hnew
  obtain ⟨r1, r2, s1, rfl, -, b1, b2⟩ := steps_append h2
  have hlisted := steps_listed b1 hneb (fun _ => hnew)
  cases b2 with
  | cons hs hss =>
    rename_i r rs s2
    generalize hev : DirEvent.exit i = ev at hs
    cases hs with
    | entered | refused | put | emptied => cases hev
    | exit i' text htext =>
    cases hev
    have hkeys1 : ∀ k, s1.listed i k → FileKey k ∧ k ≠ "_index".toList := by
      intro k hk
      rcases (hlisted i k).1 hk with h | ⟨b, h⟩
      · exact absurd h (hnew i k)
      · exact hkeys i k b (List.mem_append.2 (.inl h))
    have hindex : s'.content "_index".toList = some (encodeUtf8 text) := by
      rw [steps_index hss hnea hlast (fun j b h => (hkeys j _ b (List.mem_append.2 (.inr h))).2 rfl)]
      simp only [if_true]
    have hfile := h3.content "_index".toList
    rw [hindex] at hfile
    obtain ⟨m, m1, m2, m3⟩ := read_index hcwd hroot hP hsafe (fun k hk => (hkeys1 k hk).1) htext hfile
    refine ⟨_, _, _, m, h1, m1, ?_⟩
    have hcontent : ∀ k, s1.listed i k → ∃ b, served k = some b ∧ s'.content k = some b := by
      intro k hk
      have hput : ∃ b, .put i k b ∈ before := by
        rcases (hlisted i k).1 hk with h | h
        · exact absurd h (hnew i k)
        · exact h
      have hs0 := (hserved k).1 hput
      have hmem : k ∈ (putsOf (before ++ after)).map (·.1) := by
        obtain ⟨b, hb⟩ := hput
        exact List.mem_map.2 ⟨(k, b), List.mem_filterMap.2 ⟨_, List.mem_append.2 (.inl hb), rfl⟩, rfl⟩
      obtain ⟨b, hb⟩ := Option.isSome_iff_exists.1 ((lastPut_isSome _ _).2 hmem)
      refine ⟨b, by rw [hs0, hb], ?_⟩
      have hall : .emptied ∉ before ++ .exit i :: after := by
        rw [List.mem_append, List.mem_cons]
        rintro (h | h | h)
        · exact hneb h
        · cases h
        · exact hnea h
      rw [steps_content h2 hall (hkeys1 k hk).2]
      have : putsOf (before ++ .exit i :: after) = putsOf (before ++ after) := by simp [putsOf, List.filterMap_append, List.filterMap_cons]
      rw [this, hb]; rfl
    have hnot : ∀ k, ¬ s1.listed i k → served k = none := by
      intro k hk
      exact (hserved k).2 fun h => hk ((hlisted i k).2 (.inr h))
    have hkm : ∀ k, k ∈ m.map (·.1) ↔ s1.listed i k := by
      intro k
      rw [List.mem_map]
      constructor
      · rintro ⟨⟨k', p⟩, he, rfl⟩; exact ((m3 _ _).1 he).1
      · intro h; exact ⟨(k, _), (m3 k _).2 ⟨h, rfl⟩, rfl⟩
    refine ⟨⟨m.map (·.1), rfl, m2, fun k => ?_⟩, ?_, ?_⟩
    · rw [hkm]
      constructor
      · intro h; obtain ⟨b, hb, -⟩ := hcontent k h; rw [hb]; rfl
      · intro h
        by_contra hk
        rw [hnot k hk] at h; simp at h
    · intro k v hv
      have hk : s1.listed i k := by
        by_contra hk
        rw [hnot k hk] at hv; simp at hv
      obtain ⟨b, hb, hc⟩ := hcontent k hk
      rw [hv, Option.some.injEq] at hb
      have hget := (dictGet_iff m2 k _).2 ((m3 k _).2 ⟨hk, rfl⟩)
      have hf := h3.content k
      rw [hc] at hf
      have hf' := filesOf_key hcwd hroot hP (hkeys1 k hk).1 hf
      simp [docMapSource, pathMapping, hget, readBytesFile, hf', hb, bind, Except.bind]
    · intro k _ hk
      have : dictGet m k = none := by
        rw [dictGet_none_iff, hkm]
        intro h
        obtain ⟨b, hb, -⟩ := hcontent k h
        rw [hk] at hb; simp at hb
      simp [docMapSource, pathMapping, this]

/-! ## Examples and counterexamples -/

namespace Example
open DocMapExample (home dir fs)

/-- An empty directory, `/home/d`. -/
theorem onDisk : OnDisk (PyPath.resolve home dir) ⟨true, fun _ => none, fun _ _ => False⟩ fs where
  tree := DocMapExample.fs_tree
  free := by
    rintro ⟨q, c, -, hc⟩
    unfold FS.node at hc
    split at hc
    · cases hc
    · simp only [fs, dictGet, List.lookup] at hc
      split at hc
      · cases hc
      · split at hc <;> cases hc
  there := by simp [DocMapExample.fs_empty.1]
  content k := DocMapExample.fs_empty.2 k

def v (s : String) : Bytes := encodeUtf8 s.toList

/-- What the calls give, and what a source made from the index serves: its keys, and the text under `a`. -/
def outcome (evs : List DirEvent) : List Bool × List Str × Option Str :=
  let r := DirSink.happenAll home (PyPath.resolve home dir) (fun _ => DirSink.new dir) fs evs
  (r.1.map fun x => match x with | .ok _ => true | .error _ => false,
   match docMapEntries home (dir.div (PyPath.parse "_index".toList)) r.2.2 with
   | (.ok m, _) => (m.map (·.1), match (docMapSource readTextFile home m r.2.2).getItem "a".toList with | .ok t => some t | .error _ => none)
   | (.error _, _) => ([], none))

def history : List DirEvent := [.enter 0, .put 0 "a".toList (v "1"), .put 0 "b".toList (v "2"), .exit 0, .put 1 "a".toList (v "3")]

example : PlainKeys history := by
  intro i k b h
  simp only [history, List.mem_cons, DirEvent.put.injEq, reduceCtorEq, false_or, List.not_mem_nil, or_false] at h
  rcases h with ⟨-, rfl, -⟩ | ⟨-, rfl, -⟩ | ⟨-, rfl, -⟩ <;> decide

example : outcome history = ([true, true, true, true, true], ["a".toList, "b".toList], some "3".toList) := by decide +kernel
/-- Emptied by somebody else, the directory can be used again; the sink begins anew. -/
example : outcome (history ++ [.emptied, .enter 0, .put 0 "c".toList (v "4"), .exit 0]) =
    ([true, true, true, true, true, true, true, true, true], ["c".toList], none) := by decide +kernel

end Example

/-- A second `with` block on the same sink, or on another sink for the directory, is refused. -/
theorem C98_second_block_counterexample :
    (Example.outcome [.enter 0, .put 0 "a".toList (Example.v "1"), .exit 0, .enter 0, .enter 1]).1 = [true, true, true, false, false] := by
  decide +kernel

/-- A value put after the `with` block is written, but no source finds it. -/
theorem C98_late_put_counterexample :
    Example.outcome [.enter 0, .exit 0, .put 0 "a".toList (Example.v "1")] = ([true, true, true], [], none) := by decide +kernel

/-- Of two sinks for the same directory, both entered before anything is put, the one left first loses its keys. -/
theorem C98_two_sinks_counterexample :
    Example.outcome [.enter 0, .enter 1, .put 0 "a".toList (Example.v "1"), .put 1 "b".toList (Example.v "2"), .exit 0, .exit 1] =
      ([true, true, true, true, true, true], ["b".toList], none) := by decide +kernel

end DirLife
end Vista
