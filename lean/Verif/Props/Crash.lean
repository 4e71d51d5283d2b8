import Verif.Props.Checkpoints
import Verif.Model.Crash

/-!
# C91: checkpoints survive being killed
-/
set_option linter.unusedSectionVars false
set_option linter.unusedSimpArgs false
namespace Vista

namespace Checkpoints

/-- A program of which the states where it can be killed are known does, when it is not killed, the same. -/
theorem same_start (cwd P : PyPath) : (fromDirectoryK cwd P).run = fromDirectory cwd P := rfl
theorem same_set (cwd P : PyPath) (n : Str) : (setK cwd P n).run = set cwd P (some n) := rfl
theorem same_reset (cwd P : PyPath) : (resetAllK cwd P).run = resetAll cwd P := rfl

/-! ## Specification -/

/-- The name was set, by a call that returned, and no reset was begun since; or was there at the start and no reset was begun. -/
def Must (start : Str → Prop) (evs : List Ev) (n : Str) : Prop :=
  (∃ before after, evs = before ++ .set n :: after ∧ .reset ∉ after ∧ .resetKilled ∉ after) ∨
  (start n ∧ .reset ∉ evs ∧ .resetKilled ∉ evs)

/-- Setting the name was begun, and no reset was completed since; or it was there at the start and no reset was completed. -/
def May (start : Str → Prop) (evs : List Ev) (n : Str) : Prop :=
  (∃ before e after, evs = before ++ e :: after ∧ (e = .set n ∨ e = .setKilled n) ∧ .reset ∉ after) ∨ (start n ∧ .reset ∉ evs)

theorem must_snoc {start : Str → Prop} {evs : List Ev} {e : Ev} {n : Str} (h : Must start (evs ++ [e]) n) :
    e ≠ .reset ∧ e ≠ .resetKilled ∧ (e = .set n ∨ Must start evs n) := by
  rcases h with ⟨before, after, h, h1, h2⟩ | ⟨h, h1, h2⟩
  · rcases nil_or_snoc after with rfl | ⟨a, x, rfl⟩
    · have := List.append_inj' h rfl
      simp only [List.cons.injEq, and_true] at this
      obtain ⟨-, rfl⟩ := this
      simp
    · rw [← List.cons_append, ← List.append_assoc] at h
      have := List.append_inj' h rfl
      simp only [List.cons.injEq, and_true] at this
      obtain ⟨rfl, rfl⟩ := this
      simp only [List.mem_append, List.mem_singleton, not_or] at h1 h2
      exact ⟨Ne.symm h1.2, Ne.symm h2.2, .inr (.inl ⟨_, _, rfl, h1.1, h2.1⟩)⟩
  · simp only [List.mem_append, List.mem_singleton, not_or] at h1 h2
    exact ⟨Ne.symm h1.2, Ne.symm h2.2, .inr (.inr ⟨h, h1.1, h2.1⟩)⟩

theorem may_snoc {start : Str → Prop} {evs : List Ev} {e : Ev} {n : Str} (he : e ≠ .reset) (h : May start evs n) :
    May start (evs ++ [e]) n := by
  rcases h with ⟨before, x, after, rfl, hx, h1⟩ | ⟨h, h1⟩
  · exact .inl ⟨before, x, after ++ [e], by simp, hx, by simp [h1, Ne.symm he]⟩
  · exact .inr ⟨h, by simp [h1, Ne.symm he]⟩

theorem may_now {start : Str → Prop} {evs : List Ev} {e : Ev} {n : Str} (he : e = .set n ∨ e = .setKilled n) :
    May start (evs ++ [e]) n := .inl ⟨evs, e, [], rfl, he, by simp⟩

/-! ## The invariant -/

variable {cwd P : PyPath}

/-- What holds whatever happened. -/
structure Inv (D : Loc) (fs0 : FS) (evs : List Ev) (fs : FS) : Prop where
  tree : fs.Tree
  free : ¬ fs.Blocked D
  outside : ∀ q, ¬ D <+: q → ¬ q <+: D → fs.node q = fs0.node q
  above : ∀ q, q <+: D → q ≠ D → fs.node q = some .dir ∨ fs.node q = fs0.node q
  dirs : ∀ n, fs.node (D ++ [n]) = some .dir → fs0.node (D ++ [n]) = some .dir
  must : ∀ n, Must (fun n => ∃ c, fs0.node (D ++ [n]) = some (.file c)) evs n → ∃ c, fs.node (D ++ [n]) = some (.file c)
  may : ∀ n c, fs.node (D ++ [n]) = some (.file c) → May (fun n => ∃ c, fs0.node (D ++ [n]) = some (.file c)) evs n

/-- A step after which nothing that was set is gone. -/
theorem Inv.keep {D : Loc} {fs0 fs fs' : FS} {evs : List Ev} {e : Ev} (I : Inv D fs0 evs fs) (he : e ≠ .reset) (heset : ∀ n, e ≠ .set n)
    (tree : fs'.Tree) (free : ¬ fs'.Blocked D) (h1 : ∀ q, ¬ q <+: D → fs'.node q = fs.node q)
    (h2 : ∀ q, q <+: D → q ≠ D → fs'.node q = some .dir ∨ fs'.node q = fs.node q) : Inv D fs0 (evs ++ [e]) fs' := by
  have hn : ∀ n, fs'.node (D ++ [n]) = fs.node (D ++ [n]) := fun n => h1 _ (fun h => by have := h.length_le; simp at this; omega)
  refine ⟨tree, free, fun q hq hq' => by rw [h1 q hq', I.outside q hq hq'], fun q hq hne => ?_, fun n h => I.dirs n (by rwa [← hn]),
    fun n h => ?_, fun n c h => may_snoc he (I.may n c (by rwa [← hn]))⟩
  · rcases h2 q hq hne with h | h
    · exact .inl h
    · rw [h]; exact I.above q hq hne
  · rw [hn]
    rcases must_snoc h with ⟨-, -, h | h⟩
    · exact absurd h (heset n)
    · exact I.must n h

theorem WithDirs.notBlocked {fs fs' : FS} {p : Loc} (h : fs.WithDirs p fs') : ¬ fs'.Blocked p := by
  rintro ⟨q, c, hq, hc⟩
  rw [h.1 q hq] at hc
  cases hc

/-- Making some of the directories. -/
theorem mkdirs_prefix {fs : FS} (ht : fs.Tree) {D q : Loc} (hb : ¬ fs.Blocked D) (hq : q <+: D) :
    ∃ fs', Vista.mkdirs q fs = (.ok (), fs') ∧ fs'.Tree ∧ ¬ fs'.Blocked D ∧ (∀ r, ¬ r <+: D → fs'.node r = fs.node r) ∧
      (∀ r, r <+: D → fs'.node r = some .dir ∨ fs'.node r = fs.node r) := by
  have hb' : ¬ fs.Blocked q := fun ⟨r, c, hr, hc⟩ => hb ⟨r, c, hr.trans hq, hc⟩
  obtain ⟨fs', h1, h2, h3⟩ := (mkdirs_spec ht q).1 hb'
  have hor : ∀ r, fs'.node r = some .dir ∨ fs'.node r = fs.node r := by
    intro r
    by_cases hr : r <+: q
    · exact .inl (h2.1 r hr)
    · exact .inr (h2.2 r hr)
  refine ⟨fs', h1, h3, ?_, fun r hr => h2.2 r (fun h => hr (h.trans hq)), fun r _ => hor r⟩
  rintro ⟨r, c, hr, hc⟩
  rcases hor r with h | h
  · rw [h] at hc; cases hc
  · exact hb ⟨r, c, hr, by rw [← h, hc]⟩

theorem name_not_prefix (D : Loc) (n : Str) : ¬ D ++ [n] <+: D := fun h => by have := h.length_le; simp at this; omega

/-- Removing some things below a directory. -/
theorem partly_removed {D : Loc} {fs0 fs : FS} {evs : List Ev} (I : Inv D fs0 evs fs) (hD : D ≠ []) (gone : Loc → Bool)
    (h1 : ∀ q, gone q = true → D <+: q) (h2 : ∀ q r, gone q = true → q <+: r → gone r = true) :
    Inv D fs0 (evs ++ [.resetKilled]) (fs.filter fun e => !gone e.1) := by
  have hroot : gone [] = false := by
    cases h : gone [] with
    | false => rfl
    | true => have := h1 _ h; rw [List.prefix_nil] at this; exact absurd this hD
  have hnode : ∀ q, FS.node (fs.filter fun e => !gone e.1) q = if gone q = true then none else fs.node q := by
    intro q
    unfold FS.node
    by_cases hq : q = []
    · subst hq; simp [hroot]
    · rw [if_neg hq, FS.dictGet_filter fs (fun k => !gone k) q, if_neg hq]
      cases gone q <;> simp
  have hor : ∀ q, FS.node (fs.filter fun e => !gone e.1) q = none ∨ FS.node (fs.filter fun e => !gone e.1) q = fs.node q := by
    intro q; rw [hnode]; split <;> simp
  have hkeep : ∀ q, ¬ D <+: q → FS.node (fs.filter fun e => !gone e.1) q = fs.node q := by
    intro q hq; rw [hnode, if_neg (fun h => hq (h1 q h))]
  refine ⟨⟨fun q n hq => ?_, fun h => ?_⟩, ?_, fun q hq hq' => by rw [hkeep q hq, I.outside q hq hq'], fun q hq hne => ?_, fun n h => ?_, fun n h => ?_, fun n c h => ?_⟩
  · rw [hnode] at hq ⊢
    split at hq
    · exact absurd rfl hq
    · rename_i hg
      rw [if_neg (fun h => hg (h2 _ _ h (List.prefix_append _ _)))]
      exact I.tree.parents q n hq
  · apply I.tree.root
    obtain ⟨e, he, hE⟩ := List.mem_map.1 h
    exact List.mem_map.2 ⟨e, List.mem_of_mem_filter he, hE⟩
  · rintro ⟨q, c, hq, hc⟩
    rcases hor q with h | h
    · rw [h] at hc; cases hc
    · exact I.free ⟨q, c, hq, by rw [← h, hc]⟩
  · rw [hkeep q (fun h => hne (List.IsPrefix.eq_of_length_le hq h.length_le))]; exact I.above q hq hne
  · rcases hor (D ++ [n]) with h' | h'
    · rw [h'] at h; cases h
    · exact I.dirs n (by rw [← h', h])
  · exact absurd rfl (must_snoc h).2.1
  · rcases hor (D ++ [n]) with h' | h'
    · rw [h'] at h; cases h
    · exact may_snoc (by simp) (I.may n c (by rw [← h', h]))

theorem resolve_ne_nil (hname : ∃ n, P.parts.getLast? = some n ∧ n ≠ ['.', '.']) : PyPath.resolve cwd P ≠ [] := by
  obtain ⟨n, hn, hdd⟩ := hname
  obtain ⟨ws, hws⟩ := List.getLast?_eq_some_iff.1 hn
  have : P = ⟨P.root, ws ++ [n]⟩ := by rw [← hws]
  rw [this, resolve_snoc (P := ⟨P.root, ws⟩) n hdd]; simp

theorem rmtreePath_eq (hname : ∃ n, P.parts.getLast? = some n ∧ n ≠ ['.', '.']) : rmtreePath cwd P = rmtree (PyPath.resolve cwd P) := by
  obtain ⟨n, hn, hdd⟩ := hname
  unfold rmtreePath
  rw [if_neg]
  rintro (h | h)
  · rw [h] at hn; simp at hn
  · rw [h] at hn; exact hdd (Option.some.inj hn).symm

/-- What `touch` can do: nothing, or make an empty file. -/
theorem touch_cases {D : Loc} {n : Str} (fs : FS) :
    (touch (D ++ [n]) fs).2 = fs ∧ ((touch (D ++ [n]) fs).1 = .ok () → fs.node (D ++ [n]) ≠ none) ∨
    (fs.node D = some .dir ∧ fs.node (D ++ [n]) = none ∧ ∃ c, touch (D ++ [n]) fs = (.ok (), fs.set (D ++ [n]) (.file c))) := by
  unfold touch Prog.call
  cases h : fs.node (D ++ [n]) with
  | some v => left; simp [h]
  | none =>
    cases hw : fs.walk [] (D ++ [n]).dropLast with
    | error e => rw [List.dropLast_concat] at hw; left; simp [h, hw]
    | ok u =>
      rw [List.dropLast_concat] at hw
      right
      exact ⟨FS.parent_of_walk hw, rfl, _, by simp [h, hw]; rfl⟩

/-- A step that sets a name, or was killed while doing so. -/
theorem Inv.touched {D : Loc} {fs0 fs : FS} {evs : List Ev} {e : Ev} {n : Str} (I : Inv D fs0 evs fs) (he : e = .set n ∨ e = .setKilled n)
    (hD : fs.node D = some .dir) (hn : fs.node (D ++ [n]) = none) (c : Content) : Inv D fs0 (evs ++ [e]) (fs.set (D ++ [n]) (.file c)) := by
  have hne : D ++ [n] ≠ [] := by simp
  have her : e ≠ .reset := by rcases he with rfl | rfl <;> simp
  have hset : ∀ q, (fs.set (D ++ [n]) (.file c)).node q = if q = D ++ [n] then some (.file c) else fs.node q :=
    fun q => FS.node_set fs _ _ hne q
  refine ⟨FS.tree_set I.tree hne (by simpa using hD) _ (.inr fun m => ?_), ?_, fun q hq hq' => ?_, fun q hq hqn => ?_, fun m h => ?_, fun m h => ?_, fun m c' h => ?_⟩
  · exact I.tree.none_of_prefix (List.prefix_append _ _) hn
  · rintro ⟨q, c', hq, hc⟩
    rw [hset, if_neg (fun h : q = D ++ [n] => name_not_prefix D n (h ▸ hq))] at hc
    exact I.free ⟨q, c', hq, hc⟩
  · rw [hset, if_neg (fun h : q = D ++ [n] => hq (h ▸ List.prefix_append _ _))]; exact I.outside q hq hq'
  · rw [hset, if_neg (fun h : q = D ++ [n] => name_not_prefix D n (h ▸ hq))]; exact I.above q hq hqn
  · rw [hset] at h
    split at h
    · cases h
    · exact I.dirs m h
  · rw [hset]
    split
    · exact ⟨c, rfl⟩
    · rename_i hm
      rcases must_snoc h with ⟨-, -, h | h⟩
      · rcases he with rfl | rfl
        · simp only [Ev.set.injEq] at h; exact absurd (by rw [h]) hm
        · cases h
      · exact I.must m h
  · rw [hset] at h
    split at h
    · rename_i hm
      have : m = n := by simpa using hm
      subst this
      exact may_now he
    · exact may_snoc her (I.may m c' h)

/-- Every history, with programs killed at any point, keeps the invariant. -/
theorem life_inv (hname : ∃ n, P.parts.getLast? = some n ∧ n ≠ ['.', '.']) {fs0 : FS} (ht : fs0.Tree)
    (hb : ¬ fs0.Blocked (PyPath.resolve cwd P)) {evs : List Ev} {fs : FS} (L : Life cwd P fs0 evs fs)
    (hops : ∀ n, .set n ∈ evs ∨ .setKilled n ∈ evs → FileName n)
    (hfree : ∀ n, .set n ∈ evs → fs0.node (PyPath.resolve cwd P ++ [n]) ≠ some .dir) :
    Inv (PyPath.resolve cwd P) fs0 evs fs := by
  have hD : PyPath.resolve cwd P ≠ [] := resolve_ne_nil hname
  induction L with
  | nil =>
    refine ⟨ht, hb, fun _ _ _ => rfl, fun _ _ _ => .inr rfl, fun _ h => h, fun n h => ?_, fun n c h => .inr ⟨⟨c, h⟩, by simp⟩⟩
    rcases h with ⟨_, _, h, -⟩ | ⟨h, -⟩
    · simp at h
    · exact h
  | @start evs fs fs' L hrun ih =>
    have I := ih (fun n hn => hops n (by simpa using hn)) (fun n hn => hfree n (by simpa using hn))
    obtain ⟨fs1, h1, h2, h3, h4, h5⟩ := mkdirs_prefix I.tree I.free (List.prefix_refl _)
    have : fs' = fs1 := by
      rw [same_start] at hrun
      simp only [fromDirectory, Prog.bind_apply, Prog.pure_apply, h1] at hrun
      exact (Prod.mk.inj hrun).2.symm
    subst this
    exact I.keep (by simp) (by simp) h2 h3 h4 (fun q hq _ => h5 q hq)
  | @startKilled evs fs fs' L hk ih =>
    have I := ih (fun n hn => hops n (by simpa using hn)) (fun n hn => hfree n (by simpa using hn))
    have hk' : fs' = fs ∨ ∃ q, q <+: PyPath.resolve cwd P ∧ fs' = (Vista.mkdirs q fs).2 := by
      rcases hk with hk | ⟨a, fs1, hr, hk⟩
      · exact hk
      · right
        replace hk : fs' = fs1 := hk
        subst hk
        replace hr : Vista.mkdirs (PyPath.resolve cwd P) fs = (.ok a, fs') := hr
        exact ⟨_, List.prefix_refl _, by rw [hr]⟩
    rcases hk' with rfl | ⟨q, hq, rfl⟩
    · exact I.keep (by simp) (by simp) I.tree I.free (fun _ _ => rfl) (fun _ _ _ => .inr rfl)
    · obtain ⟨fs1, h1, h2, h3, h4, h5⟩ := mkdirs_prefix I.tree I.free hq
      rw [h1]
      exact I.keep (by simp) (by simp) h2 h3 h4 (fun q hq _ => h5 q hq)
  | @set evs fs fs' n L hrun ih =>
    have I := ih (fun n hn => hops n (by simp only [List.mem_append]; exact hn.imp .inl .inl)) (fun n hn => hfree n (by simp [hn]))
    have hn : FileName n := hops n (by simp)
    have hrun' : touch (PyPath.resolve cwd P ++ [n]) fs = (.ok (), fs') := by
      rw [← resolve_name hn]; exact hrun
    rcases touch_cases (D := PyPath.resolve cwd P) (n := n) fs with ⟨h1, h2⟩ | ⟨h1, h2, c, h3⟩
    · rw [hrun'] at h1 h2
      replace h1 : fs' = fs := h1
      subst h1
      refine ⟨I.tree, I.free, I.outside, I.above, I.dirs, fun m h => ?_, fun m c h => may_snoc (by simp) (I.may m c h)⟩
      rcases must_snoc h with ⟨-, -, h | h⟩
      · simp only [Ev.set.injEq] at h
        subst h
        cases hnode : fs'.node (PyPath.resolve cwd P ++ [n]) with
        | none => exact absurd hnode (h2 rfl)
        | some v =>
          cases v with
          | dir => exact absurd (I.dirs n hnode) (hfree n (by simp))
          | file c => exact ⟨c, rfl⟩
      · exact I.must m h
    · rw [hrun'] at h3
      have := (Prod.mk.inj h3).2
      subst this
      exact I.touched (.inl rfl) h1 h2 c
  | @setKilled evs fs fs' n L hk ih =>
    have I := ih (fun n hn => hops n (by simp only [List.mem_append]; exact hn.imp .inl .inl)) (fun n hn => hfree n (by simp [hn]))
    have hn : FileName n := hops n (by simp)
    have hk' : fs' = fs ∨ fs' = (touch (PyPath.resolve cwd P ++ [n]) fs).2 := by
      rcases hk with hk | ⟨a, fs1, hr, hk⟩
      · exact .inl hk
      · have hr' : (Except.ok n, fs) = (Except.ok a, fs1) := hr
        simp only [Prod.mk.injEq, Except.ok.injEq] at hr'
        obtain ⟨rfl, rfl⟩ := hr'
        rw [← resolve_name hn]
        exact hk
    have hsame : Inv (PyPath.resolve cwd P) fs0 (evs ++ [.setKilled n]) fs :=
      I.keep (by simp) (by simp) I.tree I.free (fun _ _ => rfl) (fun _ _ _ => .inr rfl)
    rcases hk' with rfl | rfl
    · exact hsame
    · rcases touch_cases (D := PyPath.resolve cwd P) (n := n) fs with ⟨h1, -⟩ | ⟨h1, h2, c, h3⟩
      · rw [h1]; exact hsame
      · rw [h3]; exact I.touched (.inr rfl) h1 h2 c
  | @reset evs fs fs' L hrun ih =>
    have I := ih (fun n hn => hops n (by simpa using hn)) (fun n hn => hfree n (by simpa using hn))
    rw [same_reset] at hrun
    have hdir : fs.node (PyPath.resolve cwd P) = some .dir := by
      by_contra h
      have h2 := (rmtree_spec I.tree _ hD).2 h
      rw [← rmtreePath_eq hname] at h2
      simp [resetAll, Prog.bind_apply, h2] at hrun
    obtain ⟨fs1, h1, h2, h3, h4⟩ := reset_spec (cwd := cwd) I.tree hname hdir
    rw [h1] at hrun
    have := (Prod.mk.inj hrun).2
    subst this
    refine ⟨h2, ?_, fun q hq hq' => by rw [h4 q hq, I.outside q hq hq'], fun q hq hne => ?_, fun n h => ?_, fun n h => absurd rfl (must_snoc h).1,
      fun n c h => ?_⟩
    · rintro ⟨q, c, hq, hc⟩
      by_cases hqD : q = PyPath.resolve cwd P
      · rw [hqD, h3.1] at hc; cases hc
      · rw [h2.dir_of_prefix hq hqD (by rw [h3.1]; simp)] at hc; cases hc
    · rw [h4 q (fun h => hne (List.IsPrefix.eq_of_length_le hq h.length_le))]; exact I.above q hq hne
    · rw [h3.2] at h; cases h
    · rw [h3.2] at h; cases h
  | @resetKilled evs fs fs' L hk ih =>
    have I := ih (fun n hn => hops n (by simpa using hn)) (fun n hn => hfree n (by simpa using hn))
    have hsame : Inv (PyPath.resolve cwd P) fs0 (evs ++ [.resetKilled]) fs :=
      I.keep (by simp) (by simp) I.tree I.free (fun _ _ => rfl) (fun _ _ _ => .inr rfl)
    have herase : fs.eraseTree (PyPath.resolve cwd P) = fs.filter fun e => !(fun q => (PyPath.resolve cwd P).isPrefixOf q) e.1 := rfl
    have hgone : Inv (PyPath.resolve cwd P) fs0 (evs ++ [.resetKilled]) (fs.eraseTree (PyPath.resolve cwd P)) := by
      rw [herase]
      refine partly_removed I hD _ (fun q h => ?_) (fun q r h hqr => ?_)
      · simpa using h
      · rw [List.isPrefixOf_iff_prefix] at h ⊢; exact h.trans hqr
    have hrm : (rmtreePath cwd P fs).2 = fs ∨ (rmtreePath cwd P fs).2 = fs.eraseTree (PyPath.resolve cwd P) := by
      rw [rmtreePath_eq hname]
      unfold rmtree
      simp only [if_neg hD]
      split
      · exact .inr rfl
      · exact .inl rfl
    rcases hk with (rfl | rfl | ⟨gone, g1, g2, -, rfl⟩) | ⟨a, fs1, hr, hk⟩
    · exact hsame
    · rcases hrm with h | h <;> rw [h]
      · exact hsame
      · exact hgone
    · exact partly_removed I hD gone (fun q h => (g1 q h).1) g2
    · have hr' : rmtreePath cwd P fs = (.ok a, fs1) := hr
      rw [hr'] at hrm
      have I1 : Inv (PyPath.resolve cwd P) fs0 (evs ++ [.resetKilled]) fs1 := by
        rcases hrm with h | h
        · replace h : fs1 = fs := h
          rw [h]; exact hsame
        · replace h : fs1 = fs.eraseTree (PyPath.resolve cwd P) := h
          rw [h]; exact hgone
      have hkeep : ∀ {fs2 : FS}, fs2.Tree → ¬ fs2.Blocked (PyPath.resolve cwd P) →
          (∀ q, ¬ q <+: PyPath.resolve cwd P → fs2.node q = fs1.node q) →
          (∀ q, q <+: PyPath.resolve cwd P → fs2.node q = some .dir ∨ fs2.node q = fs1.node q) →
          Inv (PyPath.resolve cwd P) fs0 (evs ++ [.resetKilled]) fs2 := by
        intro fs2 t1 t2 t3 t4
        have hn : ∀ n, fs2.node (PyPath.resolve cwd P ++ [n]) = fs1.node (PyPath.resolve cwd P ++ [n]) :=
          fun n => t3 _ (name_not_prefix _ n)
        refine ⟨t1, t2, fun q hq hq' => by rw [t3 q hq', I1.outside q hq hq'], fun q hq hne => ?_, fun n h => I1.dirs n (by rwa [← hn]),
          fun n h => ?_, fun n c h => I1.may n c (by rwa [← hn])⟩
        · rcases t4 q hq with h | h
          · exact .inl h
          · rw [h]; exact I1.above q hq hne
        · rw [hn]; exact I1.must n h
      rcases hk with rfl | ⟨q, hq, rfl⟩
      · exact I1
      · obtain ⟨fs2, h1, h2, h3, h4, h5⟩ := mkdirs_prefix I1.tree I1.free hq
        rw [h1]
        exact hkeep h2 h3 h4 h5

/-! ## C91 -/

/-- After any history of programs, each possibly killed at any point of any call: a name whose `set` returned is there unless a reset was
begun since, a name that is there was set (or begun to be) since the last completed reset; nothing outside the directory changed,
except that directories above it may have been made. -/
theorem C91_history (hname : ∃ n, P.parts.getLast? = some n ∧ n ≠ ['.', '.']) {fs0 : FS} (ht : fs0.Tree)
    (hb : ¬ fs0.Blocked (PyPath.resolve cwd P)) {evs : List Ev} {fs : FS} (L : Life cwd P fs0 evs fs)
    (hops : ∀ n, .set n ∈ evs ∨ .setKilled n ∈ evs → FileName n)
    (hfree : ∀ n, .set n ∈ evs → fs0.node (PyPath.resolve cwd P ++ [n]) ≠ some .dir) :
    (∀ n, FileName n →
      (Must (fun n => ∃ c, fs0.node (PyPath.resolve cwd P ++ [n]) = some (.file c)) evs n → contains cwd P (some n) fs = (.ok true, fs)) ∧
      (¬ May (fun n => ∃ c, fs0.node (PyPath.resolve cwd P ++ [n]) = some (.file c)) evs n → contains cwd P (some n) fs = (.ok false, fs))) ∧
    (∀ q, ¬ PyPath.resolve cwd P <+: q → fs.node q = fs0.node q ∨ (q <+: PyPath.resolve cwd P ∧ fs.node q = some .dir)) := by
  have I := life_inv hname ht hb L hops hfree
  refine ⟨fun n hn => ?_, fun q hq => ?_⟩
  · have hc : contains cwd P (some n) fs = (.ok (fs.isFile (PyPath.resolve cwd P ++ [n])), fs) := by
      simp [contains, checkStr, resolve_name hn]
    rw [hc]
    constructor
    · intro h
      rw [(FS.isFile_iff _ _).2 (I.must n h)]
    · intro h
      cases hf : fs.isFile (PyPath.resolve cwd P ++ [n]) with
      | false => rfl
      | true =>
        obtain ⟨c, hc⟩ := (FS.isFile_iff _ _).1 hf
        exact absurd (I.may n c hc) h
  · by_cases hqD : q <+: PyPath.resolve cwd P
    · rcases I.above q hqD (fun h => hq (h ▸ List.prefix_refl _)) with h | h
      · exact .inr ⟨hqD, h⟩
      · exact .inl h
    · exact .inl (I.outside q hq hqD)

/-- And whatever happened, a new program that is not killed gets the checkpoints and all its calls succeed, with the names that are there
as the names set so far. -/
theorem C91_restart (hname : ∃ n, P.parts.getLast? = some n ∧ n ≠ ['.', '.']) {fs0 : FS} (ht : fs0.Tree)
    (hb : ¬ fs0.Blocked (PyPath.resolve cwd P)) {evs : List Ev} {fs : FS} (L : Life cwd P fs0 evs fs)
    (hops : ∀ n, .set n ∈ evs ∨ .setKilled n ∈ evs → FileName n)
    (hfree : ∀ n, .set n ∈ evs → fs0.node (PyPath.resolve cwd P ++ [n]) ≠ some .dir)
    (ops : List Op) (hops' : ∀ n, .set n ∈ ops → FileName n)
    (hfree' : ∀ n, .set n ∈ ops → fs0.node (PyPath.resolve cwd P ++ [n]) ≠ some .dir) :
    ∃ fs1 fs', fromDirectory cwd P fs = (.ok P, fs1) ∧ run cwd P ops fs1 = (.ok (), fs') ∧
      ∀ n, FileName n →
        (SetNow (fun n => contains cwd P (some n) fs = (.ok true, fs)) ops n ↔ contains cwd P (some n) fs' = (.ok true, fs')) := by
  have I := life_inv hname ht hb L hops hfree
  obtain ⟨fs1, fs', h1, h2, -, h3, -⟩ := C68_history (cwd := cwd) hname fs I.tree I.free ops hops' (fun n hn h => hfree' n hn (I.dirs n h))
  refine ⟨fs1, fs', h1, h2, fun n hn => ?_⟩
  have hc : contains cwd P (some n) fs = (.ok (fs.isFile (PyPath.resolve cwd P ++ [n])), fs) := by
    simp [contains, checkStr, resolve_name hn]
  have hstart : SetNow (fun n => contains cwd P (some n) fs = (.ok true, fs)) ops n ↔
      SetNow (fun n => ∃ c, fs.node (PyPath.resolve cwd P ++ [n]) = some (.file c)) ops n := by
    unfold SetNow
    simp only [hc, ← FS.isFile_iff]
    simp
  rw [hstart]
  constructor
  · exact (h3 n hn).1
  · intro h
    by_contra hno
    rw [(h3 n hn).2 hno] at h
    simp at h

/-! ## Examples -/

namespace CrashExample
open Example

theorem start_ok : (fromDirectoryK home dir).run fs = (.ok dir, after []) := by
  have h : ((fromDirectoryK home dir).run fs).1.toOption = some dir := by decide +kernel
  refine Prod.ext ?_ rfl
  cases hr : ((fromDirectoryK home dir).run fs).1 with
  | error e => rw [hr] at h; cases h
  | ok a => rw [hr] at h; exact congrArg Except.ok (Option.some.inj h)

theorem unit_error {r : Res Unit} (h : (match r with | .error .ioError => true | _ => false) = true) : r = .error .ioError := by
  split at h
  · rfl
  · cases h

theorem unit_ok {r : Res Unit × FS} (h : r.1.toOption.isSome = true) : r = (.ok (), r.2) := by
  refine Prod.ext ?_ rfl
  cases hr : r.1 with
  | error e => rw [hr] at h; cases h
  | ok a => rfl

def fsA : FS := (set home dir (some "a".toList) (after [])).2
def fsAB : FS := (set home dir (some "b".toList) fsA).2

theorem life_ab : Life home dir fs [.start, .set "a".toList, .set "b".toList] fsAB := by
  have h1 : Life home dir fs ([] ++ [.start]) (after []) := .start .nil start_ok
  have h2 : Life home dir fs ([.start] ++ [.set "a".toList]) fsA := .set h1 (unit_ok (r := (setK home dir "a".toList).run (after [])) (by decide +kernel))
  exact .set (evs := [.start, .set "a".toList]) h2 (unit_ok (r := (setK home dir "b".toList).run fsA) (by decide +kernel))

/-- One of two files was removed. -/
def half : FS := fsAB.filter fun e => !decide (["home".toList, "d".toList, "a".toList] <+: e.1)

theorem life_half : Life home dir fs [.start, .set "a".toList, .set "b".toList, .resetKilled] half := by
  refine .resetKilled (evs := [.start, .set "a".toList, .set "b".toList]) life_ab ?_
  left; right; right
  refine ⟨fun q => decide (["home".toList, "d".toList, "a".toList] <+: q), fun q h => ?_, fun q r h hqr => ?_, by decide +kernel, rfl⟩
  · have hr : PyPath.resolve home dir = ["home".toList, "d".toList] := by decide +kernel
    simp only [decide_eq_true_eq] at h
    rw [hr]
    refine ⟨List.IsPrefix.trans ⟨["a".toList], rfl⟩ h, fun hq => ?_⟩
    have := h.length_le
    rw [hq] at this
    simp at this
  · simp only [decide_eq_true_eq] at h ⊢
    exact h.trans hqr

/-- Is the name there? -/
def has (n : String) (s : FS) : Bool := match (contains home dir (some n.toList) s).1 with | .ok b => b | .error _ => false

/-- A reset that was killed can have removed some names and not others. -/
theorem _root_.Vista.Checkpoints.C91_reset_counterexample : ∃ evs s, Life home dir fs (evs ++ [.resetKilled]) s ∧
    .set "a".toList ∈ evs ∧ .set "b".toList ∈ evs ∧ .reset ∉ evs ∧ has "a" s = false ∧ has "b" s = true :=
  ⟨[.start, .set "a".toList, .set "b".toList], half, life_half, by simp, by simp, by simp, by decide +kernel, by decide +kernel⟩

/-- A reset that was killed can have removed the directory: a program that goes on without getting the checkpoints again fails. -/
theorem _root_.Vista.Checkpoints.C91_gone_counterexample : ∃ s, Life home dir fs [.start, .resetKilled] s ∧
    (set home dir (some "a".toList) s).1 = .error .ioError := by
  refine ⟨(rmtreePath home dir (after [])).2, ?_, unit_error (by decide +kernel)⟩
  exact .resetKilled (evs := [.start]) (.start .nil start_ok) (.inl (.inr (.inl rfl)))

/-- A `set` that was killed may have happened or not. -/
example : Life home dir fs [.start, .setKilled "a".toList] fsA ∧ Life home dir fs [.start, .setKilled "a".toList] (after []) :=
  ⟨.setKilled (evs := [.start]) (.start .nil start_ok) (.inr ⟨_, _, rfl, .inr rfl⟩),
   .setKilled (evs := [.start]) (.start .nil start_ok) (.inl rfl)⟩

example : contains home dir (some "b".toList) fsAB = (.ok true, fsAB) :=
  ((C91_history ⟨"d".toList, rfl, by decide⟩ fs_tree (fun ⟨q, c, _, h⟩ => nothing q c h) life_ab
    (by rintro n (h | h) <;> simp at h; rcases h with rfl | rfl <;> refine ⟨?_, ?_, ?_, ?_⟩ <;> decide)
    (by intro n h hd; rcases (FS.node_ne_none_iff fs _).1 (by rw [hd]; simp) with h' | h' <;> simp [fs] at h'
        have hr : PyPath.resolve home dir = ["home".toList, "d".toList] := by decide +kernel
        rw [hr] at h'; simp at h')).1 "b".toList (by refine ⟨?_, ?_, ?_, ?_⟩ <;> decide)).1
    (.inl ⟨[.start, .set "a".toList], [], rfl, by simp, by simp⟩)

end CrashExample
end Checkpoints
end Vista
