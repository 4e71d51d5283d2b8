import Verif.Proofs.FileSystem
import Verif.Model.ParamsFiles
import Verif.Props.ParamsAccess

/-!
# C73: parameters that name files and directories
-/
set_option linter.unusedSectionVars false
set_option linter.unusedSimpArgs false
namespace Vista
namespace Params

/-- The parameter is a string, and this is the resolved path it names. -/
def PathIs (cwd : PyPath) (p : Params) (param : Str) (l : Loc) : Prop :=
  ∃ s, Found p param .none (.str s) ∧ l = PyPath.resolve cwd (PyPath.parse s)

theorem pathParam_spec (cwd : PyPath) {p : Params} (h : p.WF) (param : Str) :
    (∀ l, p.pathParam cwd param = .ok l ↔ PathIs cwd p param l) ∧
    ((¬ ∃ l, PathIs cwd p param l) → ∃ e, Refused p param .none e ∧ p.pathParam cwd param = .error e) := by
  obtain ⟨h1, h2⟩ := C47_string p h param none .none
  have h1' : ∀ v, p.string param = .ok v ↔ Found p param .none v ∧ ∃ s, v = .str s := by
    intro v; rw [h1 v]; simp
  constructor
  · intro l
    simp only [pathParam, bind, Except.bind]
    cases hs : p.string param with
    | error e =>
      simp only [reduceCtorEq, false_iff]
      rintro ⟨s, hf, -⟩
      have := (h1' _).2 ⟨hf, s, rfl⟩
      rw [hs] at this; simp at this
    | ok v =>
      obtain ⟨hf, s, rfl⟩ := (h1' v).1 hs
      simp only [Except.ok.injEq]
      constructor
      · rintro rfl; exact ⟨s, hf, rfl⟩
      · rintro ⟨s', hf', rfl⟩
        have := (h1' _).2 ⟨hf', s', rfl⟩
        rw [hs] at this
        simp only [Except.ok.injEq, PVal.str.injEq] at this
        rw [this]
  · intro hno
    simp only [pathParam, bind, Except.bind]
    cases hs : p.string param with
    | error e => exact ⟨e, h2 e hs, rfl⟩
    | ok v =>
      obtain ⟨hf, s, rfl⟩ := (h1' v).1 hs
      exact absurd ⟨_, s, hf, rfl⟩ hno

/-- If the parameter is a string, a later failure is a `ParameterError`. -/
theorem refused_path {cwd : PyPath} {p : Params} (h : p.WF) {param : Str} {l : Loc} (hl : PathIs cwd p param l) :
    Refused p param .none .parameterError := by
  obtain ⟨s, hs, -⟩ := hl
  exact refused_printable (found_unique h hs) (not_unprintable rfl)

theorem pathIs_unique {cwd : PyPath} {p : Params} (h : p.WF) {param : Str} {l l' : Loc} (h1 : PathIs cwd p param l)
    (h2 : PathIs cwd p param l') : l = l' := by
  have a := ((pathParam_spec cwd h param).1 l).2 h1
  have b := ((pathParam_spec cwd h param).1 l').2 h2
  rw [a] at b; simpa using b

/-- `creatable_directory`: the directory and those above it exist afterwards, and nothing else has changed; an `OSError`, and no
change, exactly if a file is in the way; a `ParameterError`, and no change, if the parameter is not a string. -/
theorem C73_creatable_directory (cwd : PyPath) (p : Params) (h : p.WF) (param : Str) (fs : FS) (ht : fs.Tree) :
    (∀ l, PathIs cwd p param l → ¬ fs.Blocked l → ∃ fs', creatableDirectory cwd p param fs = (.ok l, fs') ∧ fs.WithDirs l fs' ∧ fs'.Tree) ∧
    (∀ l, PathIs cwd p param l → fs.Blocked l → creatableDirectory cwd p param fs = (.error .ioError, fs)) ∧
    ((¬ ∃ l, PathIs cwd p param l) → ∃ e, Refused p param .none e ∧ creatableDirectory cwd p param fs = (.error e, fs)) := by
  obtain ⟨h1, h2⟩ := pathParam_spec cwd h param
  refine ⟨fun l hl hb => ?_, fun l hl hb => ?_, fun hno => ?_⟩
  · obtain ⟨fs', a, b, c⟩ := (mkdirs_spec ht l).1 hb
    exact ⟨fs', by simp [creatableDirectory, (h1 l).2 hl, a], b, c⟩
  · simp [creatableDirectory, (h1 l).2 hl, (mkdirs_spec ht l).2 hb]
  · obtain ⟨e, he, hx⟩ := h2 hno
    exact ⟨e, he, by simp [creatableDirectory, hx]⟩

/-- `creatable_file`: the directories above the file exist afterwards, and nothing else has changed. -/
theorem C73_creatable_file (cwd : PyPath) (p : Params) (h : p.WF) (param : Str) (fs : FS) (ht : fs.Tree) :
    (∀ l, PathIs cwd p param l → ¬ fs.Blocked l.dropLast →
      ∃ fs', creatableFile cwd p param fs = (.ok l, fs') ∧ fs.WithDirs l.dropLast fs' ∧ fs'.Tree) ∧
    (∀ l, PathIs cwd p param l → fs.Blocked l.dropLast → creatableFile cwd p param fs = (.error .ioError, fs)) ∧
    ((¬ ∃ l, PathIs cwd p param l) → ∃ e, Refused p param .none e ∧ creatableFile cwd p param fs = (.error e, fs)) := by
  obtain ⟨h1, h2⟩ := pathParam_spec cwd h param
  refine ⟨fun l hl hb => ?_, fun l hl hb => ?_, fun hno => ?_⟩
  · obtain ⟨fs', a, b, c⟩ := (mkdirs_spec ht l.dropLast).1 hb
    exact ⟨fs', by simp [creatableFile, (h1 l).2 hl, a], b, c⟩
  · simp [creatableFile, (h1 l).2 hl, (mkdirs_spec ht l.dropLast).2 hb]
  · obtain ⟨e, he, hx⟩ := h2 hno
    exact ⟨e, he, by simp [creatableFile, hx]⟩

/-- `creatable_empty_directory`, by what is there: an empty directory is returned as it is; another directory is an error, without any
change, unless `delete` is on, when it is emptied and nothing else changes (for the root directory that cannot work); something that
is not a directory is an error without any change; otherwise the directory is created as by `creatable_directory`. -/
theorem C73_creatable_empty_directory (cwd : PyPath) (p : Params) (h : p.WF) (param : Str) (delete : Bool) (fs : FS) (ht : fs.Tree) (l : Loc)
    (hl : PathIs cwd p param l) :
    (fs.EmptyDir l → creatableEmptyDirectory cwd p param delete fs = (.ok l, fs)) ∧
    (fs.node l = some .dir → ¬ fs.EmptyDir l → delete = false → creatableEmptyDirectory cwd p param delete fs = (.error .parameterError, fs)) ∧
    (fs.node l = some .dir → ¬ fs.EmptyDir l → delete = true → l ≠ [] → ∃ fs', creatableEmptyDirectory cwd p param delete fs = (.ok l, fs') ∧
      fs'.EmptyDir l ∧ (∀ q, ¬ l <+: q → fs'.node q = fs.node q) ∧ fs'.Tree) ∧
    (∀ c, fs.node l = some (.file c) → creatableEmptyDirectory cwd p param delete fs = (.error .parameterError, fs)) ∧
    (fs.node l = none → ¬ fs.Blocked l → ∃ fs', creatableEmptyDirectory cwd p param delete fs = (.ok l, fs') ∧ fs'.EmptyDir l ∧
      fs.WithDirs l fs' ∧ fs'.Tree) ∧
    (fs.node l = none → fs.Blocked l → creatableEmptyDirectory cwd p param delete fs = (.error .ioError, fs)) := by
  have hp := ((pathParam_spec cwd h param).1 l).2 hl
  have hsnoc : ∀ n : Str, ¬ l ++ [n] <+: l := fun n hpre => by have := hpre.length_le; simp at this; omega
  refine ⟨fun he => ?_, fun hd he hdel => ?_, fun hd he hdel hroot => ?_, fun c hc => ?_, fun hn hb => ?_, fun hn hb => ?_⟩
  · simp [creatableEmptyDirectory, hp, (FS.isDir_iff _ _).2 he.1, FS.isEmptyDirectory_iff.2 he]
  · have : fs.isEmptyDirectory l = false := by
      rw [Bool.eq_false_iff, ne_eq, FS.isEmptyDirectory_iff]; exact he
    simp [creatableEmptyDirectory, hp, (FS.isDir_iff _ _).2 hd, this, hdel]
  · have : fs.isEmptyDirectory l = false := by
      rw [Bool.eq_false_iff, ne_eq, FS.isEmptyDirectory_iff]; exact he
    obtain ⟨fs1, a1, a2, a3⟩ := (rmtree_spec ht l hroot).1 hd
    have hnb : ¬ fs1.Blocked l := by
      rintro ⟨q, c, hq, hc⟩
      by_cases hql : q = l
      · rw [hql, a2.1 l (List.prefix_refl _)] at hc; simp at hc
      · have hnl : ¬ l <+: q := fun h' => hql (hq.eq_of_length (Nat.le_antisymm hq.length_le h'.length_le))
        rw [a2.2 q hnl, ht.dir_of_prefix hq hql (by rw [hd]; simp)] at hc
        simp at hc
    obtain ⟨fs2, b1, b2, b3⟩ := (mkdirs_spec a3 l).1 hnb
    refine ⟨fs2, by simp [creatableEmptyDirectory, hp, (FS.isDir_iff _ _).2 hd, this, hdel, a1, b1], ⟨b2.1 l (List.prefix_refl _), fun n => ?_⟩,
      fun q hq => ?_, b3⟩
    · rw [b2.2 _ (hsnoc n), a2.1 _ (List.prefix_append _ _)]
    · by_cases hql : q <+: l
      · rw [b2.1 q hql]
        have hne : q ≠ l := fun h' => hq (h' ▸ List.prefix_refl _)
        exact (ht.dir_of_prefix hql hne (by rw [hd]; simp)).symm
      · rw [b2.2 q hql, a2.2 q hq]
  · have h1 : fs.isDir l = false := by rw [Bool.eq_false_iff, ne_eq, FS.isDir_iff, hc]; simp
    have h2 : fs.exists' l = true := by rw [FS.exists_iff, hc]; simp
    simp [creatableEmptyDirectory, hp, h1, h2]
  · have h1 : fs.isDir l = false := by rw [Bool.eq_false_iff, ne_eq, FS.isDir_iff, hn]; simp
    have h2 : fs.exists' l = false := by rw [Bool.eq_false_iff, ne_eq, FS.exists_iff, hn]; simp
    obtain ⟨fs', a, b, c⟩ := (C73_creatable_directory cwd p h param fs ht).1 l hl hb
    refine ⟨fs', by simp [creatableEmptyDirectory, hp, h1, h2, a], ⟨b.1 l (List.prefix_refl _), fun n => ?_⟩, b, c⟩
    rw [b.2 _ (hsnoc n)]
    exact ht.none_of_prefix (List.prefix_append _ _) hn
  · have h1 : fs.isDir l = false := by rw [Bool.eq_false_iff, ne_eq, FS.isDir_iff, hn]; simp
    have h2 : fs.exists' l = false := by rw [Bool.eq_false_iff, ne_eq, FS.exists_iff, hn]; simp
    simp [creatableEmptyDirectory, hp, h1, h2, (C73_creatable_directory cwd p h param fs ht).2.1 l hl hb]

/-- `existing_file` returns the path if it is that of a file, raises `ParameterError` otherwise, and never changes anything. -/
theorem C73_existing_file (cwd : PyPath) (p : Params) (h : p.WF) (param : Str) (fs : FS) :
    (∀ l, PathIs cwd p param l → (∃ c, fs.node l = some (.file c)) → existingFile cwd p param fs = (.ok l, fs)) ∧
    ((¬ ∃ l, PathIs cwd p param l ∧ ∃ c, fs.node l = some (.file c)) →
      ∃ e, Refused p param .none e ∧ existingFile cwd p param fs = (.error e, fs)) := by
  obtain ⟨h1, h2⟩ := pathParam_spec cwd h param
  constructor
  · rintro l hl ⟨c, hc⟩
    simp [existingFile, (h1 l).2 hl, FS.exists', FS.isFile, hc]
  · intro hno
    by_cases hl : ∃ l, PathIs cwd p param l
    · obtain ⟨l, hl⟩ := hl
      have hf : fs.isFile l = false := by
        rw [Bool.eq_false_iff, ne_eq, FS.isFile_iff]; exact fun hc => hno ⟨l, hl, hc⟩
      refine ⟨_, refused_path h hl, ?_⟩
      simp only [existingFile, Prog.bind_apply, Prog.ofRes_apply, (h1 l).2 hl, Prog.get_apply, hf]
      split <;> rfl
    · obtain ⟨e, he, hx⟩ := h2 hl
      exact ⟨e, he, by simp [existingFile, hx]⟩

/-- `existing_directory`, likewise. -/
theorem C73_existing_directory (cwd : PyPath) (p : Params) (h : p.WF) (param : Str) (fs : FS) :
    (∀ l, PathIs cwd p param l → fs.node l = some .dir → existingDirectory cwd p param fs = (.ok l, fs)) ∧
    ((¬ ∃ l, PathIs cwd p param l ∧ fs.node l = some .dir) →
      ∃ e, Refused p param .none e ∧ existingDirectory cwd p param fs = (.error e, fs)) := by
  obtain ⟨h1, h2⟩ := pathParam_spec cwd h param
  constructor
  · rintro l hl hc
    simp [existingDirectory, (h1 l).2 hl, FS.exists', FS.isDir, hc]
  · intro hno
    by_cases hl : ∃ l, PathIs cwd p param l
    · obtain ⟨l, hl⟩ := hl
      have hf : fs.isDir l = false := by
        rw [Bool.eq_false_iff, ne_eq, FS.isDir_iff]; exact fun hc => hno ⟨l, hl, hc⟩
      refine ⟨_, refused_path h hl, ?_⟩
      simp only [existingDirectory, Prog.bind_apply, Prog.ofRes_apply, (h1 l).2 hl, Prog.get_apply, hf]
      split <;> rfl
    · obtain ⟨e, he, hx⟩ := h2 hl
      exact ⟨e, he, by simp [existingDirectory, hx]⟩

/-- The `optional_` variants: `None`, and no change, exactly if the parameter is absent; otherwise the same as without `optional_`. -/
theorem C73_optional {α : Type} (p : Params) (param : Str) (x : Prog α) (fs : FS) :
    (p.contains param = false → p.ifPresent param x fs = (.ok none, fs)) ∧
    (p.contains param = true → p.ifPresent param x fs = ((x fs).1.map some, (x fs).2)) := by
  constructor
  · intro h; simp [ifPresent, h]
  · intro h
    simp only [ifPresent, h, if_true, Prog.bind_apply]
    rcases x fs with ⟨r, fs'⟩
    cases r <;> rfl

/-- If the parameter is missing or is not a string, `creatable_empty_directory` raises the exception of the refused lookup (`ParameterError`, except for
a namespace that cannot be written) and changes nothing. -/
theorem C73_not_a_path (cwd : PyPath) (p : Params) (h : p.WF) (param : Str) (delete : Bool) (fs : FS) (hno : ¬ ∃ l, PathIs cwd p param l) :
    ∃ e, Refused p param .none e ∧ creatableEmptyDirectory cwd p param delete fs = (.error e, fs) := by
  obtain ⟨e, he, hx⟩ := (pathParam_spec cwd h param).2 hno
  exact ⟨e, he, by simp [creatableEmptyDirectory, hx]⟩

/-- A name of a file or directory. -/
def PlainName (w : Str) : Prop := w ≠ [] ∧ w ≠ ['.'] ∧ w ≠ ['.', '.'] ∧ '/' ∉ w

theorem resolve_steps (acc : Loc) (ws : List Str) (h : ∀ w ∈ ws, PlainName w) : ws.foldl resolveStep acc = acc ++ ws := by
  induction ws generalizing acc with
  | nil => simp
  | cons w ws ih =>
    rw [List.foldl_cons, ih _ fun x hx => h x (by simp [hx])]
    simp [resolveStep, (h w (by simp)).2.2.1]

theorem parse_join (ws : List Str) (h : ∀ w ∈ ws, PlainName w) : (PyPath.parse (joinWith '/' ws)).parts = ws ∧ (PyPath.parse ('/' :: joinWith '/' ws)).parts = ws := by
  have hsplit : (splitOn '/' (joinWith '/' ws)).filter (fun w => decide (w ≠ [] ∧ w ≠ ['.'])) = ws := by
    by_cases hw : ws = []
    · subst hw; decide
    · rw [splitOn_joinWith hw fun w hm => (h w hm).2.2.2]
      exact List.filter_eq_self.2 fun w hm => by simp [(h w hm).1, (h w hm).2.1]
  refine ⟨hsplit, ?_⟩
  have : splitOn '/' ('/' :: joinWith '/' ws) = [] :: splitOn '/' (joinWith '/' ws) := by simp [splitOn]
  simp only [PyPath.parse, this]
  rw [List.filter_cons_of_neg (by simp)]
  exact hsplit

/-- What path a string names: an absolute path of plain names is these names; a relative one is taken from the working directory. -/
theorem C73_resolve (cwd : Loc) (hcwd : ∀ w ∈ cwd, PlainName w) (ws : List Str) (h : ∀ w ∈ ws, PlainName w) :
    PyPath.resolve cwd.toPath (PyPath.parse ('/' :: joinWith '/' ws)) = ws ∧
    PyPath.resolve cwd.toPath (PyPath.parse (joinWith '/' ws)) = cwd ++ ws := by
  have hroot1 : (PyPath.parse ('/' :: joinWith '/' ws)).root ≠ [] := by
    simp only [PyPath.parse]
    unfold PyPath.rootOf
    split <;> simp_all
  have hroot2 : (PyPath.parse (joinWith '/' ws)).root = [] := by
    simp only [PyPath.parse]
    have hhead : ∀ c t, joinWith '/' ws = c :: t → c ≠ '/' := by
      intro c t ht
      cases ws with
      | nil => simp [joinWith] at ht
      | cons w ws =>
        obtain ⟨h1, -, -, h4⟩ := h w (by simp)
        cases w with
        | nil => exact absurd rfl h1
        | cons x w =>
          have : joinWith '/' ((x :: w) :: ws) = x :: (joinWith '/' ((x :: w) :: ws)).tail := by
            cases ws <;> simp [joinWith]
          rw [this] at ht
          simp only [List.cons.injEq] at ht
          rw [← ht.1]
          simp only [List.mem_cons, not_or] at h4
          exact fun h' => h4.1 h'.symm
    unfold PyPath.rootOf
    split
    · rename_i heq; exact absurd rfl (hhead _ _ heq)
    · rename_i heq; exact absurd rfl (hhead _ _ heq)
    · rename_i heq; exact absurd rfl (hhead _ _ heq)
    · rfl
  obtain ⟨p1, p2⟩ := parse_join ws h
  constructor
  · simp only [PyPath.resolve, PyPath.absolute, hroot1, ne_eq, not_false_eq_true, if_true, p2]
    rw [resolve_steps [] ws h, List.nil_append]
  · simp only [PyPath.resolve, PyPath.absolute, hroot2, ne_eq, not_true_eq_false, if_false, p1, Loc.toPath]
    rw [resolve_steps [] _ fun w hw => (List.mem_append.1 hw).elim (hcwd w) (h w), List.nil_append]

/-! ### Concrete cases -/

/-- Resolving follows `..` back: a name followed by `..` makes no difference, `..` at the root directory neither, and nothing in the
result is `..`. -/
theorem C73_resolve_dotdot (cwd : PyPath) (p : PyPath) :
    (∀ a n b, n ≠ ['.', '.'] → p.parts = a ++ n :: ['.', '.'] :: b → PyPath.resolve cwd p = PyPath.resolve cwd ⟨p.root, a ++ b⟩) ∧
    (∀ b, p.root ≠ [] → p.parts = ['.', '.'] :: b → PyPath.resolve cwd p = PyPath.resolve cwd ⟨p.root, b⟩) ∧
    ['.', '.'] ∉ PyPath.resolve cwd p := by
  refine ⟨fun a n b hn hp => ?_, fun b hr hp => ?_, ?_⟩
  · have step : ∀ acc : Loc, ([n, ['.', '.']] : List Str).foldl resolveStep acc = acc := by
      intro acc; simp [resolveStep, hn]
    have key : ∀ acc : Loc, (a ++ n :: ['.', '.'] :: b).foldl resolveStep acc = (a ++ b).foldl resolveStep acc := by
      intro acc
      have : a ++ n :: ['.', '.'] :: b = a ++ ([n, ['.', '.']] ++ b) := by simp
      rw [this, List.foldl_append, List.foldl_append, step, List.foldl_append]
    unfold PyPath.resolve PyPath.absolute
    split
    · rw [hp]; exact key _
    · simp only [List.foldl_append]
      rw [hp, key, List.foldl_append]
  · unfold PyPath.resolve PyPath.absolute
    simp [hr, hp, resolveStep]
  · unfold PyPath.resolve
    generalize (PyPath.absolute cwd p).parts = ws
    have key : ∀ acc : Loc, ['.', '.'] ∉ acc → ['.', '.'] ∉ ws.foldl resolveStep acc := by
      induction ws with
      | nil => intro acc h; exact h
      | cons w ws ih =>
        intro acc h
        rw [List.foldl_cons]
        refine ih _ ?_
        unfold resolveStep
        split
        · exact fun h' => h ((List.dropLast_sublist acc).mem h')
        · rename_i hw
          simp only [List.mem_append, List.mem_singleton, not_or]
          exact ⟨h, fun h' => hw h'.symm⟩
    exact key [] (by simp)

namespace FilesExample

def fs : FS := [(["home".toList], .dir), (["home".toList, "f".toList], .file (.data (encodeUtf8 "x".toList))),
  (["home".toList, "d".toList], .dir), (["home".toList, "d".toList, "g".toList], .file (.data (encodeUtf8 "y".toList)))]

def p : Params := ⟨[], [("out".toList, .str "../home/new/sub".toList), ("file".toList, .str "f".toList), ("dir".toList, .str "d".toList),
  ("below".toList, .str "f/x".toList)]⟩

def cwd : Loc := ["home".toList]

def isOkAt (r : Res Loc × FS) (l : Loc) : Bool := match r.1 with | .ok l' => decide (l' = l) | .error _ => false
def isError (r : Res Loc × FS) (e : Exc) : Bool := match r.1 with | .ok _ => false | .error e' => decide (e = e')

example : isOkAt (creatableDirectory cwd.toPath p "out".toList fs) ["home".toList, "new".toList, "sub".toList] = true ∧
    (creatableDirectory cwd.toPath p "out".toList fs).2.length = 6 := by decide +kernel
example : isError (creatableDirectory cwd.toPath p "below".toList fs) .ioError = true := by decide +kernel
example : isOkAt (existingFile cwd.toPath p "file".toList fs) ["home".toList, "f".toList] = true := by decide +kernel
example : isError (existingFile cwd.toPath p "dir".toList fs) .parameterError = true := by decide +kernel
example : isError (creatableEmptyDirectory cwd.toPath p "dir".toList false fs) .parameterError = true := by decide +kernel
/-- `delete` is off unless given. -/
example : isError ((creatableEmptyDirectory cwd.toPath p "dir".toList : Prog Loc) fs) .parameterError = true := by decide +kernel
example : isOkAt (creatableEmptyDirectory cwd.toPath p "dir".toList true fs) ["home".toList, "d".toList] = true ∧
    (creatableEmptyDirectory cwd.toPath p "dir".toList true fs).2.length = 3 := by decide +kernel

/-- The file system of the example is a tree. -/
example : fs.Tree where
  parents q n h := by
    rcases (FS.node_ne_none_iff fs _).1 h with h' | h'
    · simp at h'
    · simp only [fs, List.map_cons, List.map_nil, List.mem_cons, List.not_mem_nil, or_false] at h'
      have key : ∀ l : Loc, q ++ [n] = l → q = l.dropLast := fun l hl => by rw [← hl]; simp
      rcases h' with h' | h' | h' | h' <;> rw [key _ h'] <;> exact (FS.isDir_iff _ _).1 (by decide +kernel)
  root := by decide +kernel

end FilesExample

end Params
end Vista
