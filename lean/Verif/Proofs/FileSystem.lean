import Verif.Spec.FileSystem
import Verif.Proofs.Prelude
import Verif.Proofs.PyDict

/-!
# The file system: what the operations do
-/
set_option linter.unusedSectionVars false
set_option linter.unusedSimpArgs false
namespace Vista

theorem nil_or_snoc {α : Type} (l : List α) : l = [] ∨ ∃ q n, l = q ++ [n] := by
  rcases List.eq_nil_or_concat l with h | ⟨q, n, h⟩
  · exact .inl h
  · exact .inr ⟨q, n, by rw [h, List.concat_eq_append]⟩

/-! ## Programs -/
namespace Prog
variable {α β : Type}

@[simp] theorem bind_apply (x : Prog α) (f : α → Prog β) (fs : FS) :
    (x >>= f) fs = match x fs with | (.ok a, fs') => f a fs' | (.error e, fs') => (.error e, fs') := rfl
@[simp] theorem pure_apply (a : α) (fs : FS) : (Prog.pure a : Prog α) fs = (.ok a, fs) := rfl
@[simp] theorem pure_apply' (a : α) (fs : FS) : (Pure.pure a : Prog α) fs = (.ok a, fs) := rfl
@[simp] theorem ofRes_apply (r : Res α) (fs : FS) : (Prog.ofRes r : Prog α) fs = (r, fs) := rfl
@[simp] theorem get_apply (fs : FS) : Prog.get fs = (.ok fs, fs) := rfl
@[simp] theorem raise_apply (e : Exc) (fs : FS) : (Prog.raise e : Prog α) fs = (.error e, fs) := rfl

end Prog

namespace FS

@[simp] theorem node_nil (fs : FS) : fs.node [] = some .dir := by simp [node]

theorem node_set (fs : FS) (p : Loc) (n : Node) (hp : p ≠ []) (q : Loc) : (fs.set p n).node q = if q = p then some n else fs.node q := by
  unfold node set
  by_cases hq : q = []
  · subst hq
    simp [Ne.symm hp]
  · simp only [hq, if_false]
    rw [dictGet_dictSet]

theorem dictGet_filter {K V : Type} [DecidableEq K] (d : List (K × V)) (f : K → Bool) (k : K) :
    dictGet (d.filter fun e => f e.1) k = if f k then dictGet d k else none := by
  induction d with
  | nil => simp
  | cons e d ih =>
    obtain ⟨a, b⟩ := e
    rw [dictGet_cons]
    by_cases ha : f a = true
    · rw [List.filter_cons, if_pos ha, dictGet_cons, ih]
      by_cases hk : k = a
      · subst hk; simp [ha]
      · simp [hk]
    · rw [List.filter_cons, if_neg ha, ih]
      by_cases hk : k = a
      · subst hk; simp [ha]
      · simp [hk]

theorem node_eraseTree (fs : FS) (p : Loc) (hp : p ≠ []) (q : Loc) :
    (fs.eraseTree p).node q = if p <+: q then none else fs.node q := by
  unfold node eraseTree
  by_cases hq : q = []
  · subst hq
    rw [if_neg (fun h => hp (List.prefix_nil.1 h))]
    simp
  · simp only [hq, if_false]
    rw [dictGet_filter (f := fun k => !p.isPrefixOf k)]
    by_cases h : p <+: q
    · simp [h, List.isPrefixOf_iff_prefix]
    · simp [h, List.isPrefixOf_iff_prefix]

theorem isDir_iff (fs : FS) (p : Loc) : fs.isDir p = true ↔ fs.node p = some .dir := by
  unfold isDir
  split <;> simp_all

theorem isFile_iff (fs : FS) (p : Loc) : fs.isFile p = true ↔ ∃ c, fs.node p = some (.file c) := by
  unfold isFile
  split <;> simp_all

theorem exists_iff (fs : FS) (p : Loc) : fs.exists' p = true ↔ fs.node p ≠ none := by
  unfold exists'
  rw [Option.isSome_iff_ne_none]

theorem node_ne_none_iff (fs : FS) (p : Loc) : fs.node p ≠ none ↔ p = [] ∨ p ∈ fs.map (·.1) := by
  unfold node
  by_cases h : p = []
  · simp [h]
  · simp only [h, if_false, false_or, ne_eq, dictGet_none_iff, not_not]

theorem isEmptyDirectory_iff {fs : FS} {p : Loc} : fs.isEmptyDirectory p = true ↔ fs.EmptyDir p := by
  unfold isEmptyDirectory EmptyDir
  rw [Bool.and_eq_true, isDir_iff]
  refine and_congr_right fun _ => ?_
  simp only [Bool.not_eq_true', List.any_eq_false, Bool.and_eq_true, decide_eq_true_eq, not_and]
  constructor
  · intro h n
    by_contra hn
    rcases (node_ne_none_iff fs _).1 hn with h' | h'
    · simp at h'
    · obtain ⟨e, he, he'⟩ := List.mem_map.1 h'
      exact h e he (by rw [he']; simp) (by rw [he']; simp)
  · intro h e he hne hd
    have : fs.node (p ++ [e.1.getLast hne]) = none := h _
    rw [← hd, List.dropLast_append_getLast hne] at this
    exact absurd this ((node_ne_none_iff fs _).2 (.inr (List.mem_map.2 ⟨e, he, rfl⟩)))

namespace Tree

/-- What is below a missing place is missing too. -/
theorem none_of_prefix {fs : FS} (h : fs.Tree) {p q : Loc} (hpq : p <+: q) (hp : fs.node p = none) : fs.node q = none := by
  obtain ⟨r, rfl⟩ := hpq
  induction hk : r.length generalizing r with
  | zero => rw [List.length_eq_zero_iff.1 hk]; simpa using hp
  | succ k ih =>
    rcases nil_or_snoc r with rfl | ⟨r', n, rfl⟩
    · simp at hk
    · by_contra hne
      have := h.parents (p ++ r') n (by simpa [List.append_assoc] using hne)
      rw [ih r' (by simpa using hk)] at this; simp at this

/-- What is above something that is there is a directory. -/
theorem dir_of_prefix {fs : FS} (h : fs.Tree) {p q : Loc} (hpq : p <+: q) (hne : p ≠ q) (hq : fs.node q ≠ none) : fs.node p = some .dir := by
  obtain ⟨r, rfl⟩ := hpq
  cases r with
  | nil => simp at hne
  | cons n r =>
    have hpre : p ++ [n] <+: p ++ n :: r := ⟨r, by simp⟩
    refine h.parents p n fun h0 => hq (h.none_of_prefix hpre h0)

end Tree

theorem walk_ok {fs : FS} {before rest : List Str} :
    fs.walk before rest = .ok () ↔ ∀ q, q <+: rest → q ≠ [] → fs.node (before ++ q) = some .dir := by
  induction rest generalizing before with
  | nil =>
    simp only [walk, true_iff]
    intro q hq hne
    exact absurd (List.prefix_nil.1 hq) hne
  | cons n rest ih =>
    rw [walk]
    cases hn : fs.node (before ++ [n]) with
    | none =>
      simp only [reduceCtorEq, false_iff]
      intro h
      have := h [n] (by simp) (by simp)
      rw [hn] at this; simp at this
    | some x =>
      cases x with
      | file c =>
        simp only [reduceCtorEq, false_iff]
        intro h
        have := h [n] (by simp) (by simp)
        rw [hn] at this; simp at this
      | dir =>
        simp only [ih]
        constructor
        · intro h q hq hne
          cases q with
          | nil => exact absurd rfl hne
          | cons m q =>
            rw [List.cons_prefix_cons] at hq
            obtain ⟨rfl, hq⟩ := hq
            by_cases hq0 : q = []
            · subst hq0; exact hn
            · have := h q hq hq0; simpa using this
        · intro h q hq hne
          have := h (n :: q) (List.cons_prefix_cons.2 ⟨rfl, hq⟩) (by simp)
          simpa using this

/-- Why following a path fails: a missing place before anything else that is not a directory, or a file. -/
theorem walk_error {fs : FS} {before rest : List Str} {e : Errno} (h : fs.walk before rest = .error e) :
    (e = .noent ∧ ∃ q, q <+: rest ∧ fs.node (before ++ q) = none ∧ q ≠ []) ∨
    (e = .notdir ∧ ∃ q c, q <+: rest ∧ fs.node (before ++ q) = some (.file c) ∧ q ≠ []) := by
  induction rest generalizing before with
  | nil => simp [walk] at h
  | cons n rest ih =>
    rw [walk] at h
    cases hn : fs.node (before ++ [n]) with
    | none =>
      rw [hn] at h
      simp only [Except.error.injEq] at h
      exact .inl ⟨h.symm, [n], by simp, hn, by simp⟩
    | some x =>
      rw [hn] at h
      cases x with
      | file c =>
        simp only [Except.error.injEq] at h
        exact .inr ⟨h.symm, [n], c, by simp, hn, by simp⟩
      | dir =>
        rcases ih h with ⟨he, q, h1, h2, h3⟩ | ⟨he, q, c, h1, h2, h3⟩
        · exact .inl ⟨he, n :: q, List.cons_prefix_cons.2 ⟨rfl, h1⟩, by simpa using h2, by simp⟩
        · exact .inr ⟨he, n :: q, c, List.cons_prefix_cons.2 ⟨rfl, h1⟩, by simpa using h2, by simp⟩

end FS

/-- A prefix of `q ++ [n]` is a prefix of `q` or the whole. -/
theorem prefix_concat_iff' {α : Type} {r q : List α} {n : α} : r <+: q ++ [n] ↔ r = q ++ [n] ∨ r <+: q := List.prefix_concat_iff

namespace FS

theorem mkdir_spec {fs : FS} (h : fs.Tree) (q : Loc) (n : Str) :
    (fs.walk [] q = .ok () ∧ fs.node (q ++ [n]) = none ∧ fs.mkdir (q ++ [n]) = .ok (fs.set (q ++ [n]) .dir)) ∨
    (fs.walk [] q = .ok () ∧ fs.node (q ++ [n]) ≠ none ∧ fs.mkdir (q ++ [n]) = .error .exist) ∨
    (∃ e, fs.walk [] q = .error e ∧ fs.node (q ++ [n]) = none ∧ fs.mkdir (q ++ [n]) = .error e) := by
  have hne : q ++ [n] ≠ [] := by simp
  simp only [mkdir, hne, if_false, List.dropLast_concat]
  cases hw : fs.walk [] q with
  | ok u =>
    simp only
    cases hn : fs.node (q ++ [n]) with
    | none => simp
    | some x => simp
  | error e =>
    refine .inr (.inr ⟨e, rfl, ?_, rfl⟩)
    by_contra hne
    have : fs.walk [] q = .ok () := by
      rw [walk_ok]
      intro r hr hr0
      simp only [List.nil_append]
      refine h.dir_of_prefix (hr.trans (List.prefix_append _ _)) ?_ hne
      intro heq
      have := hr.length_le
      rw [heq] at this; simp at this; omega
    rw [hw] at this; simp at this

theorem tree_set {fs : FS} (h : fs.Tree) {p : Loc} (hp : p ≠ []) (hpar : fs.node p.dropLast = some .dir) (n : Node)
    (hn : n = .dir ∨ ∀ m, fs.node (p ++ [m]) = none) : (fs.set p n).Tree := by
  constructor
  · intro q m hq
    rw [node_set _ _ _ hp] at hq ⊢
    split at hq
    · rename_i heq
      have hqp : q = p.dropLast := by rw [← heq]; simp
      have : q ≠ p := by
        intro h'
        rw [h'] at heq
        have := congrArg List.length heq
        simp at this
      rw [if_neg this, hqp, hpar]
    · have := h.parents q m hq
      split
      · rename_i heq
        subst heq
        rcases hn with rfl | hn
        · rfl
        · exact absurd (hn m) hq
      · exact this
  · intro hmem
    unfold set at hmem
    rw [keys_dictSet] at hmem
    rcases hmem with h' | h'
    · exact hp (h'.symm)
    · exact h.root h'

theorem tree_eraseTree {fs : FS} (h : fs.Tree) {p : Loc} (hp : p ≠ []) : (fs.eraseTree p).Tree := by
  constructor
  · intro q m hq
    rw [node_eraseTree _ _ hp] at hq ⊢
    split at hq
    · exact absurd rfl hq
    · rename_i hpre
      rw [if_neg fun h' => hpre (h'.trans (List.prefix_append _ _))]
      exact h.parents q m hq
  · intro hmem
    refine h.root ?_
    obtain ⟨e, he, he'⟩ := List.mem_map.1 hmem
    exact List.mem_map.2 ⟨e, (List.mem_filter.1 he).1, he'⟩

end FS

/-- `Path.mkdir(parents=True, exist_ok=True)`: if no file is in the way, the directories are there afterwards and nothing else has
changed; otherwise an `OSError` and nothing has changed. -/
theorem mkdirsAt_spec {fs : FS} (h : fs.Tree) (p : Loc) :
    (¬ fs.Blocked p → ∃ fs', mkdirsAt p fs = (.ok (), fs') ∧ fs.WithDirs p fs' ∧ fs'.Tree) ∧
    (fs.Blocked p → mkdirsAt p fs = (.error .ioError, fs)) := by
  rcases nil_or_snoc p with rfl | ⟨q, n, rfl⟩
  · have : mkdirsAt [] fs = (.ok (), fs) := by
      rw [mkdirsAt]
      simp [FS.mkdir, FS.isDir_iff]
    refine ⟨fun _ => ⟨fs, this, ⟨fun q hq => ?_, fun q _ => rfl⟩, h⟩, fun ⟨q, c, hq, hc⟩ => ?_⟩
    · rw [List.prefix_nil.1 hq]; simp
    · rw [List.prefix_nil.1 hq] at hc; simp at hc
  · have hne : q ++ [n] ≠ [] := by simp
    have ih := mkdirsAt_spec h q
    rw [mkdirsAt]
    rcases FS.mkdir_spec h q n with ⟨hw, hn, hm⟩ | ⟨hw, hn, hm⟩ | ⟨e, hw, hn, hm⟩
    · -- the parent is there
      rw [hm]
      have hdirs : ∀ r, r <+: q → fs.node r = some .dir := by
        intro r hr
        by_cases hr0 : r = []
        · simp [hr0]
        · simpa using FS.walk_ok.1 hw r hr hr0
      refine ⟨fun _ => ⟨_, rfl, ⟨fun r hr => ?_, fun r hr => ?_⟩, FS.tree_set h hne (by simpa using hdirs q (List.prefix_refl _)) _ (.inl rfl)⟩, ?_⟩
      · rw [FS.node_set _ _ _ hne]
        rcases prefix_concat_iff'.1 hr with rfl | hr
        · simp
        · split
          · rfl
          · exact hdirs r hr
      · rw [FS.node_set _ _ _ hne, if_neg]
        rintro rfl; exact hr (List.prefix_refl _)
      · rintro ⟨r, c, hr, hc⟩
        rcases prefix_concat_iff'.1 hr with rfl | hr
        · rw [hn] at hc; simp at hc
        · rw [hdirs r hr] at hc; simp at hc
    · -- there is something
      rw [hm]
      have hdirs : ∀ r, r <+: q → fs.node r = some .dir := by
        intro r hr
        by_cases hr0 : r = []
        · simp [hr0]
        · simpa using FS.walk_ok.1 hw r hr hr0
      simp only
      cases hx : fs.node (q ++ [n]) with
      | none => exact absurd hx hn
      | some x =>
        cases x with
        | dir =>
          rw [if_pos ((FS.isDir_iff _ _).2 hx)]
          refine ⟨fun _ => ⟨fs, rfl, ⟨fun r hr => ?_, fun _ _ => rfl⟩, h⟩, ?_⟩
          · rcases prefix_concat_iff'.1 hr with rfl | hr
            · exact hx
            · exact hdirs r hr
          · rintro ⟨r, c, hr, hc⟩
            rcases prefix_concat_iff'.1 hr with rfl | hr
            · rw [hx] at hc; simp at hc
            · rw [hdirs r hr] at hc; simp at hc
        | file c =>
          rw [if_neg (by rw [FS.isDir_iff, hx]; simp)]
          exact ⟨fun hb => absurd ⟨_, c, List.prefix_refl _, hx⟩ hb, fun _ => rfl⟩
    · -- the parent is not there
      rw [hm]
      rcases FS.walk_error hw with ⟨rfl, r, hr, hr1, hr0⟩ | ⟨rfl, r, c, hr, hr1, hr0⟩
      · simp only [hne, dite_false, List.dropLast_concat]
        have hblock : fs.Blocked q ↔ fs.Blocked (q ++ [n]) := by
          constructor
          · rintro ⟨r, c, hr, hc⟩; exact ⟨r, c, hr.trans (List.prefix_append _ _), hc⟩
          · rintro ⟨r, c, hr, hc⟩
            rcases prefix_concat_iff'.1 hr with rfl | hr
            · rw [hn] at hc; simp at hc
            · exact ⟨r, c, hr, hc⟩
        constructor
        · intro hb
          obtain ⟨fs', h1, h2, h3⟩ := ih.1 (fun h' => hb (hblock.1 h'))
          rw [h1]
          simp only
          have hw' : fs'.walk [] q = .ok () := by
            rw [FS.walk_ok]; intro r hr _; simpa using h2.1 r hr
          have hn' : fs'.node (q ++ [n]) = none := by
            rw [h2.2 _ (fun hpre => by have := hpre.length_le; simp at this; omega), hn]
          rcases FS.mkdir_spec h3 q n with ⟨-, -, hm'⟩ | ⟨-, hn'', -⟩ | ⟨e, hw'', -⟩
          · rw [hm']
            refine ⟨_, rfl, ⟨fun r hr => ?_, fun r hr => ?_⟩, FS.tree_set h3 hne (by simpa using h2.1 q (List.prefix_refl _)) _ (.inl rfl)⟩
            · rw [FS.node_set _ _ _ hne]
              rcases prefix_concat_iff'.1 hr with rfl | hr
              · simp
              · split
                · rfl
                · exact h2.1 r hr
            · rw [FS.node_set _ _ _ hne, if_neg (by rintro rfl; exact hr (List.prefix_refl _))]
              exact h2.2 r fun hr' => hr (hr'.trans (List.prefix_append _ _))
          · exact absurd hn' hn''
          · rw [hw'] at hw''; simp at hw''
        · intro hb
          rw [ih.2 (hblock.2 hb)]
      · simp only
        rw [if_neg (by rw [FS.isDir_iff, hn]; simp)]
        exact ⟨fun hb => absurd ⟨r, c, hr.trans (List.prefix_append _ _), by simpa using hr1⟩ hb, fun _ => rfl⟩
termination_by p.length
decreasing_by simp_all

theorem mkdirs_spec {fs : FS} (h : fs.Tree) (p : Loc) :
    (¬ fs.Blocked p → ∃ fs', mkdirs p fs = (.ok (), fs') ∧ fs.WithDirs p fs' ∧ fs'.Tree) ∧
    (fs.Blocked p → mkdirs p fs = (.error .ioError, fs)) := mkdirsAt_spec h p

namespace FS

/-- The parent is there: following the path succeeds. -/
theorem walk_of_parent {fs : FS} (h : fs.Tree) {q : Loc} (hq : fs.node q = some .dir) : fs.walk [] q = .ok () := by
  rw [walk_ok]
  intro r hr _
  simp only [List.nil_append]
  by_cases hrq : r = q
  · rw [hrq, hq]
  · exact h.dir_of_prefix hr hrq (by rw [hq]; simp)

theorem parent_of_walk {fs : FS} {q : Loc} (h : fs.walk [] q = .ok ()) : fs.node q = some .dir := by
  by_cases hq : q = []
  · simp [hq]
  · simpa using walk_ok.1 h q (List.prefix_refl _) hq

theorem WithFile.of_set {fs : FS} {p : Loc} (hp : p ≠ []) (c : Content) : fs.WithFile p c (fs.set p (.file c)) := by
  constructor
  · rw [node_set _ _ _ hp, if_pos rfl]
  · intro q hq
    rw [node_set _ _ _ hp, if_neg hq]

theorem Without.of_eraseTree {fs : FS} {p : Loc} (hp : p ≠ []) : fs.Without p (fs.eraseTree p) := by
  constructor
  · intro q hq
    rw [node_eraseTree _ _ hp, if_pos hq]
  · intro q hq
    rw [node_eraseTree _ _ hp, if_neg hq]

end FS

/-- Writing a file: it works exactly if the parent is a directory and there is no directory at the place. -/
theorem writeFile_spec {fs : FS} (h : fs.Tree) (p : Loc) (c : Content) :
    (p ≠ [] → fs.node p.dropLast = some .dir → fs.node p ≠ some .dir →
      ∃ fs', writeFile p c fs = (.ok (), fs') ∧ fs.WithFile p c fs' ∧ fs'.Tree) ∧
    (¬ (p ≠ [] ∧ fs.node p.dropLast = some .dir ∧ fs.node p ≠ some .dir) → writeFile p c fs = (.error .ioError, fs)) := by
  constructor
  · intro hp hpar hn
    refine ⟨fs.set p (.file c), ?_, FS.WithFile.of_set hp c, FS.tree_set h hp hpar _ (.inr fun m => ?_)⟩
    · simp only [writeFile, Prog.call, hp, if_false, FS.walk_of_parent h hpar]
    · by_contra hm
      exact hn (h.parents p m hm)
  · intro hbad
    simp only [writeFile, Prog.call]
    by_cases hp : p = []
    · simp [hp]
    · simp only [hp, if_false]
      cases hw : fs.walk [] p.dropLast with
      | error e => rfl
      | ok u =>
        have hpar := FS.parent_of_walk hw
        have : fs.node p = some .dir := by
          by_contra hn; exact hbad ⟨hp, hpar, hn⟩
        simp [this]

theorem rmtree_spec {fs : FS} (h : fs.Tree) (p : Loc) (hp : p ≠ []) :
    (fs.node p = some .dir → ∃ fs', rmtree p fs = (.ok (), fs') ∧ fs.Without p fs' ∧ fs'.Tree) ∧
    (fs.node p ≠ some .dir → rmtree p fs = (.error .ioError, fs)) := by
  constructor
  · intro hd
    refine ⟨fs.eraseTree p, ?_, FS.Without.of_eraseTree hp, FS.tree_eraseTree h hp⟩
    simp only [rmtree, (FS.isDir_iff _ _).2 hd, if_true, hp, if_false]
  · intro hd
    simp only [rmtree]
    rw [if_neg]
    rw [FS.isDir_iff]; exact hd

theorem rmdir_spec {fs : FS} (h : fs.Tree) (p : Loc) :
    (p ≠ [] → fs.EmptyDir p → ∃ fs', rmdir p fs = (.ok (), fs') ∧ fs.Without p fs' ∧ fs'.Tree) ∧
    (¬ (p ≠ [] ∧ fs.EmptyDir p) → rmdir p fs = (.error .ioError, fs)) := by
  constructor
  · intro hp hd
    refine ⟨fs.eraseTree p, ?_, FS.Without.of_eraseTree hp, FS.tree_eraseTree h hp⟩
    simp only [rmdir, Prog.call, hp, if_false, hd.1, FS.isEmptyDirectory_iff.2 hd, if_true]
  · intro hd
    simp only [rmdir, Prog.call]
    by_cases hp : p = []
    · simp [hp]
    · simp only [hp, if_false]
      cases hx : fs.node p with
      | none => rfl
      | some x =>
        cases x with
        | file c => rfl
        | dir =>
          simp only
          rw [if_neg]
          rw [FS.isEmptyDirectory_iff]
          exact fun h' => hd ⟨hp, h'⟩

end Vista
