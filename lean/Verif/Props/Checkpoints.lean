import Verif.Props.DocMap
import Verif.Model.Checkpoints

/-!
# C68: checkpoints
-/
set_option linter.unusedSectionVars false
set_option linter.unusedSimpArgs false
namespace Vista
namespace Checkpoints

/-- A plain file name. -/
def FileName (n : Str) : Prop := n ≠ [] ∧ n ≠ ['.'] ∧ n ≠ ['.', '.'] ∧ '/' ∉ n

/-- The name was set since the last reset, or was there at the start and there was no reset. -/
def SetNow (start : Str → Prop) (ops : List Op) (n : Str) : Prop :=
  (∃ before after, ops = before ++ .set n :: after ∧ .reset ∉ after) ∨ (start n ∧ .reset ∉ ops)

theorem setNow_cons_set (start : Str → Prop) (m : Str) (ops : List Op) (n : Str) :
    SetNow start (.set m :: ops) n ↔ SetNow (fun k => k = m ∨ start k) ops n := by
  constructor
  · rintro (⟨before, after, h, hr⟩ | ⟨h, hr⟩)
    · cases before with
      | nil =>
        simp only [List.nil_append, List.cons.injEq, Op.set.injEq] at h
        exact .inr ⟨.inl h.1.symm, h.2 ▸ hr⟩
      | cons x before =>
        simp only [List.cons_append, List.cons.injEq] at h
        exact .inl ⟨before, after, h.2, hr⟩
    · exact .inr ⟨.inr h, fun h' => hr (by simp [h'])⟩
  · rintro (⟨before, after, h, hr⟩ | ⟨h | h, hr⟩)
    · exact .inl ⟨.set m :: before, after, by simp [h], hr⟩
    · exact .inl ⟨[], ops, by simp [h], hr⟩
    · exact .inr ⟨h, by simpa using hr⟩

theorem setNow_cons_reset (start : Str → Prop) (ops : List Op) (n : Str) :
    SetNow start (.reset :: ops) n ↔ SetNow (fun _ => False) ops n := by
  constructor
  · rintro (⟨before, after, h, hr⟩ | ⟨h, hr⟩)
    · cases before with
      | nil => simp at h
      | cons x before =>
        simp only [List.cons_append, List.cons.injEq] at h
        exact .inl ⟨before, after, h.2, hr⟩
    · simp at hr
  · rintro (⟨before, after, h, hr⟩ | ⟨h, hr⟩)
    · exact .inl ⟨.reset :: before, after, by simp [h], hr⟩
    · exact absurd h not_false

section
variable {cwd P : PyPath}

theorem resolve_name {n : Str} (h : FileName n) : PyPath.resolve cwd (P.div (PyPath.parse n)) = PyPath.resolve cwd P ++ [n] := by
  have : PyPath.parse n = ⟨[], [n]⟩ := by
    have hr : PyPath.render ⟨[], [n]⟩ = n := by simp [PyPath.render, joinWith]
    conv_lhs => rw [← hr]
    exact PyPath.parse_render ⟨.inl rfl, by simp [h.1, h.2.1, h.2.2.2]⟩
  rw [this]
  exact resolve_snoc n h.2.2.1

theorem touch_spec {fs : FS} (h : fs.Tree) {p : Loc} {n : Str} (hp : fs.node p = some .dir) (hn : fs.node (p ++ [n]) ≠ some .dir) :
    ∃ fs' c, touch (p ++ [n]) fs = (.ok (), fs') ∧ fs.WithFile (p ++ [n]) c fs' ∧ fs'.Tree ∧
      (∀ c', fs.node (p ++ [n]) = some (.file c') → c = c') := by
  cases hnode : fs.node (p ++ [n]) with
  | none =>
    refine ⟨fs.set (p ++ [n]) (.file (.data (encodeUtf8 []))), _, ?_, FS.WithFile.of_set (by simp) _, ?_, by simp⟩
    · simp [touch, Prog.call, hnode, FS.walk_of_parent h hp]
    · refine FS.tree_set h (by simp) (by simpa using hp) _ (.inr fun m => ?_)
      exact h.none_of_prefix (List.prefix_append _ _) hnode
  | some x =>
    cases x with
    | dir => exact absurd hnode hn
    | file c =>
      refine ⟨fs, c, by simp [touch, Prog.call, hnode], ⟨hnode, fun q _ => rfl⟩, h, ?_⟩
      intro c' hc'; simpa using hc'

theorem reset_spec {fs : FS} (ht : fs.Tree) (hname : ∃ n, P.parts.getLast? = some n ∧ n ≠ ['.', '.'])
    (hdir : fs.node (PyPath.resolve cwd P) = some .dir) :
    ∃ fs', resetAll cwd P fs = (.ok (), fs') ∧ fs'.Tree ∧ fs'.EmptyDir (PyPath.resolve cwd P) ∧
      ∀ q, ¬ PyPath.resolve cwd P <+: q → fs'.node q = fs.node q := by
  have hne : PyPath.resolve cwd P ≠ [] := by
    obtain ⟨n, hn, hdd⟩ := hname
    obtain ⟨ws, hws⟩ := List.getLast?_eq_some_iff.1 hn
    have : P = ⟨P.root, ws ++ [n]⟩ := by rw [← hws]
    rw [this, resolve_snoc (P := ⟨P.root, ws⟩) n hdd]; simp
  have hrm : rmtreePath cwd P = rmtree (PyPath.resolve cwd P) := by
    obtain ⟨n, hn, hdd⟩ := hname
    unfold rmtreePath
    rw [if_neg]
    rintro (h | h)
    · rw [h] at hn; simp at hn
    · rw [h] at hn; exact hdd (Option.some.inj hn).symm
  generalize hL : PyPath.resolve cwd P = L at *
  have hsnoc : ∀ n : Str, ¬ L ++ [n] <+: L := fun n hpre => by have := hpre.length_le; simp at this; omega
  obtain ⟨fs1, a1, a2, a3⟩ := (rmtree_spec ht L hne).1 hdir
  have hnb : ¬ fs1.Blocked L := by
    rintro ⟨q, c, hq, hc⟩
    by_cases hql : q = L
    · rw [hql, a2.1 _ (List.prefix_refl _)] at hc; simp at hc
    · have hnl : ¬ L <+: q := fun h' => hql (hq.eq_of_length (Nat.le_antisymm hq.length_le h'.length_le))
      rw [a2.2 q hnl, ht.dir_of_prefix hq hql (by rw [hdir]; simp)] at hc
      simp at hc
  obtain ⟨fs2, b1, b2, b3⟩ := (mkdirs_spec a3 L).1 hnb
  refine ⟨fs2, ?_, b3, ⟨b2.1 _ (List.prefix_refl _), fun n => ?_⟩, fun q hq => ?_⟩
  · simp only [resetAll, hrm, Prog.bind_apply, a1, hL, b1]
  · rw [b2.2 _ (hsnoc n), a2.1 _ (List.prefix_append _ _)]
  · by_cases hqL : q <+: L
    · rw [b2.1 q hqL]
      by_cases hql : q = L
      · rw [hql, hdir]
      · exact (ht.dir_of_prefix hqL hql (by rw [hdir]; simp)).symm
    · rw [b2.2 q hqL, a2.2 q hq]

theorem run_spec (hname : ∃ n, P.parts.getLast? = some n ∧ n ≠ ['.', '.']) (ops : List Op) (hops : ∀ n, .set n ∈ ops → FileName n)
    (fs : FS) (ht : fs.Tree) (hdir : fs.node (PyPath.resolve cwd P) = some .dir)
    (hfree : ∀ n, .set n ∈ ops → fs.node (PyPath.resolve cwd P ++ [n]) ≠ some .dir) :
    ∃ fs', run cwd P ops fs = (.ok (), fs') ∧ fs'.Tree ∧ fs'.node (PyPath.resolve cwd P) = some .dir ∧
      (∀ n, (∃ c, fs'.node (PyPath.resolve cwd P ++ [n]) = some (.file c)) ↔
        SetNow (fun n => ∃ c, fs.node (PyPath.resolve cwd P ++ [n]) = some (.file c)) ops n) ∧
      ∀ q, ¬ PyPath.resolve cwd P <+: q → fs'.node q = fs.node q := by
  induction ops generalizing fs with
  | nil => exact ⟨fs, rfl, ht, hdir, fun n => by simp [SetNow], fun q _ => rfl⟩
  | cons op ops ih =>
    cases op with
    | set m =>
      have hm := hops m (by simp)
      obtain ⟨fs1, c, a1, a2, a3, -⟩ := touch_spec ht hdir (hfree m (by simp))
      have hne : ∀ n : Str, PyPath.resolve cwd P ++ [n] ≠ PyPath.resolve cwd P := fun n h => by
        have := congrArg List.length h; simp at this
      obtain ⟨fs2, b1, b2, b3, b4, b5⟩ := ih (fun n hn => hops n (by simp [hn])) fs1 a3 (by rw [a2.2 _ (hne m).symm]; exact hdir)
        (fun n hn => by
          by_cases hnm : n = m
          · rw [hnm, a2.1]; simp
          · rw [a2.2 _ (by simpa using hnm)]; exact hfree n (by simp [hn]))
      refine ⟨fs2, ?_, b2, b3, fun n => ?_, fun q hq => ?_⟩
      · simp only [run, apply, set, checkStr, Prog.bind_apply, Prog.ofRes_apply, resolve_name hm, a1, b1]
      · rw [b4 n, setNow_cons_set]
        have : (fun n => ∃ c, fs1.node (PyPath.resolve cwd P ++ [n]) = some (.file c)) =
            fun k => k = m ∨ ∃ c, fs.node (PyPath.resolve cwd P ++ [k]) = some (.file c) := by
          funext k
          by_cases hk : k = m
          · subst hk; simp [a2.1]
          · rw [a2.2 _ (by simpa using hk)]; simp [hk]
        rw [this]
      · rw [b5 q hq, a2.2 q fun h => hq (h ▸ List.prefix_append _ _)]
    | reset =>
      obtain ⟨fs1, a1, a2, a3, a4⟩ := reset_spec ht hname hdir
      obtain ⟨fs2, b1, b2, b3, b4, b5⟩ := ih (fun n hn => hops n (by simp [hn])) fs1 a2 a3.1 (fun n _ => by rw [a3.2]; simp)
      refine ⟨fs2, ?_, b2, b3, fun n => ?_, fun q hq => by rw [b5 q hq, a4 q hq]⟩
      · simp only [run, apply, Prog.bind_apply, a1, b1]
      · rw [b4 n, setNow_cons_reset]
        have : (fun n => ∃ c, fs1.node (PyPath.resolve cwd P ++ [n]) = some (.file c)) = fun _ => False := by
          funext k; rw [a3.2]; simp
        rw [this]

/-- Checkpoints in a directory, which is created if need be: for every history of `set` and `reset_all`, no operation raises, exactly
the names set since the last reset are in the checkpoints (and, if there was no reset, the files that were in the directory already, so
a later process sees what an earlier one set), and nothing outside the directory changes except that it and the directories above
it exist.  The names are plain file names, which no subdirectory has already. -/
theorem C68_history (hname : ∃ n, P.parts.getLast? = some n ∧ n ≠ ['.', '.']) (fs : FS) (ht : fs.Tree)
    (hb : ¬ fs.Blocked (PyPath.resolve cwd P)) (ops : List Op) (hops : ∀ n, .set n ∈ ops → FileName n)
    (hfree : ∀ n, .set n ∈ ops → fs.node (PyPath.resolve cwd P ++ [n]) ≠ some .dir) :
    ∃ fs1 fs', fromDirectory cwd P fs = (.ok P, fs1) ∧ run cwd P ops fs1 = (.ok (), fs') ∧ fs'.Tree ∧
      (∀ n, FileName n →
        (SetNow (fun n => ∃ c, fs.node (PyPath.resolve cwd P ++ [n]) = some (.file c)) ops n → contains cwd P (some n) fs' = (.ok true, fs')) ∧
        (¬ SetNow (fun n => ∃ c, fs.node (PyPath.resolve cwd P ++ [n]) = some (.file c)) ops n → contains cwd P (some n) fs' = (.ok false, fs'))) ∧
      (∀ q, q <+: PyPath.resolve cwd P → fs'.node q = some .dir) ∧
      ∀ q, ¬ PyPath.resolve cwd P <+: q → ¬ q <+: PyPath.resolve cwd P → fs'.node q = fs.node q := by
  obtain ⟨fs1, a1, a2, a3⟩ := (mkdirs_spec ht (PyPath.resolve cwd P)).1 hb
  have hsnoc : ∀ n : Str, ¬ PyPath.resolve cwd P ++ [n] <+: PyPath.resolve cwd P := fun n hpre => by
    have := hpre.length_le; simp at this; omega
  obtain ⟨fs2, b1, b2, b3, b4, b5⟩ := run_spec hname ops hops fs1 a3 (a2.1 _ (List.prefix_refl _))
    (fun n hn => by rw [a2.2 _ (hsnoc n)]; exact hfree n hn)
  have hstart : (fun n => ∃ c, fs1.node (PyPath.resolve cwd P ++ [n]) = some (.file c)) =
      fun n => ∃ c, fs.node (PyPath.resolve cwd P ++ [n]) = some (.file c) := by
    funext n; rw [a2.2 _ (hsnoc n)]
  rw [hstart] at b4
  refine ⟨fs1, fs2, by simp [fromDirectory, a1], b1, b2, fun n hn => ?_, fun q hq => ?_, fun q hq hq' => ?_⟩
  · simp only [contains, checkStr, Prog.bind_apply, Prog.ofRes_apply, Prog.get_apply, Prog.pure_apply, resolve_name hn]
    constructor
    · intro h
      rw [(FS.isFile_iff _ _).2 ((b4 n).2 h)]
    · intro h
      have : fs2.isFile (PyPath.resolve cwd P ++ [n]) = false := by
        rw [Bool.eq_false_iff, ne_eq, FS.isFile_iff]; exact fun h' => h ((b4 n).1 h')
      rw [this]
  · by_cases hqe : q = PyPath.resolve cwd P
    · rw [hqe, b3]
    · exact b2.dir_of_prefix hq hqe (by rw [b3]; simp)
  · rw [b5 q hq, a2.2 q hq']

/-- A name that is not a string raises `TypeError` and changes nothing; if a file is in the way, `from_directory` raises `OSError` and
changes nothing. -/
theorem C68_errors (fs : FS) (ht : fs.Tree) :
    set cwd P none fs = (.error .typeError, fs) ∧ contains cwd P none fs = (.error .typeError, fs) ∧
    (fs.Blocked (PyPath.resolve cwd P) → fromDirectory cwd P fs = (.error .ioError, fs)) := by
  refine ⟨rfl, rfl, fun h => ?_⟩
  simp [fromDirectory, (mkdirs_spec ht _).2 h]

end

/-! ## Examples and counterexamples -/

namespace Example

def home : PyPath := ⟨['/'], ["home".toList]⟩
def dir : PyPath := ⟨[], ["d".toList]⟩
def fs : FS := [(["home".toList], .dir)]
def after (ops : List Op) : FS := (run home dir ops (fromDirectory home dir fs).2).2
def has (ops : List Op) (n : Str) : Bool := match (contains home dir (some n) (after ops)).1 with | .ok b => b | .error _ => false

example : has [.set "a".toList, .reset, .set "b".toList, .set "b".toList] "b".toList = true ∧
    has [.set "a".toList, .reset, .set "b".toList, .set "b".toList] "a".toList = false := by decide +kernel

theorem fs_tree : fs.Tree where
  parents q n h := by
    rcases (FS.node_ne_none_iff fs _).1 h with h' | h'
    · simp at h'
    · simp only [fs, List.map_cons, List.map_nil, List.mem_cons, List.not_mem_nil, or_false] at h'
      have key : ∀ l : Loc, q ++ [n] = l → q = l.dropLast := fun l hl => by rw [← hl]; simp
      rw [key _ h']; exact (FS.isDir_iff _ _).1 (by decide +kernel)
  root := by decide +kernel

theorem nothing (q : Loc) (c : Content) : fs.node q ≠ some (.file c) := by
  intro hc
  rcases (FS.node_ne_none_iff fs q).1 (by rw [hc]; simp) with rfl | h
  · simp at hc
  · simp only [fs, List.map_cons, List.map_nil, List.mem_cons, List.not_mem_nil, or_false] at h
    have hd : fs.isDir q = true := by rw [h]; decide +kernel
    rw [(FS.isDir_iff _ _).1 hd] at hc
    simp at hc

/-- The hypotheses of `C68_history` hold of that history. -/
example : ∃ fs1 fs', fromDirectory home dir fs = (.ok dir, fs1) ∧
    run home dir [.set ['a'], .reset, .set ['b'], .set ['b']] fs1 = (.ok (), fs') := by
  obtain ⟨fs1, fs', h1, h2, -⟩ := C68_history (cwd := home) (P := dir) ⟨['d'], by decide, by decide⟩ fs fs_tree
    (by rintro ⟨q, c, -, hc⟩; exact nothing q c hc) [.set ['a'], .reset, .set ['b'], .set ['b']]
    (by
      intro n hn
      simp only [List.mem_cons, Op.set.injEq, reduceCtorEq, List.not_mem_nil, or_false, false_or] at hn
      rcases hn with rfl | rfl | rfl <;> exact ⟨by decide, by decide, by decide, by decide⟩)
    (by
      intro n hn h
      have e : PyPath.resolve home dir = ["home".toList, "d".toList] := by decide +kernel
      rw [e] at h
      rcases (FS.node_ne_none_iff fs _).1 (by rw [h]; simp) with h | h
      · simp at h
      · simp [fs] at h)
  exact ⟨fs1, fs', h1, h2⟩

end Example

/-- Setting the empty name raises nothing, but the name is not in the checkpoints afterwards. -/
theorem C68_empty_name_counterexample : Example.has [.set []] [] = false ∧ (Example.after [.set []]).length = 2 := by decide +kernel

/-- A name that leads out of the directory survives a reset. -/
theorem C68_outside_counterexample : Example.has [.set "../x".toList, .reset] "../x".toList = true := by decide +kernel

end Checkpoints
end Vista
