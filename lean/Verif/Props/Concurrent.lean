import Verif.Spec.Concurrent
import Verif.Props.Checkpoints
import Verif.Props.Crash

/-!
# C94: processes sharing a checkpoint directory
-/
set_option linter.unusedSectionVars false
namespace Vista
namespace Concurrent
open Checkpoints (FileName resolve_name)

/-! ## Programs as trees -/

namespace Sys

theorem alone_bind {α β : Type} (x : Sys α) (f : α → Sys β) (fs : FS) :
    (x.bind f).alone fs = match x.alone fs with
      | (.ok a, fs') => (f a).alone fs'
      | (.error e, fs') => (.error e, fs') := by
  induction x generalizing fs with
  | ret r => cases r <;> rfl
  | call c k ih => exact ih _ _

end Sys

/-! ## What the others can do in between -/

/-- The file system has grown: directories on the way to `D` were made, and files in `D` with names in `A`. -/
structure Grow (D : Loc) (A : Str → Prop) (fs fs' : FS) : Prop where
  node : ∀ q, fs'.node q = fs.node q ∨ (fs.node q = none ∧
    ((q <+: D ∧ fs'.node q = some .dir) ∨ ∃ n c, A n ∧ q = D ++ [n] ∧ fs'.node q = some (.file c)))
  tree : fs.Tree → fs'.Tree

section
variable {D : Loc} {A : Str → Prop} {fs fs' fs'' : FS}

theorem Grow.refl (D : Loc) (A : Str → Prop) (fs : FS) : Grow D A fs fs := ⟨fun _ => .inl rfl, id⟩

theorem Grow.weaken (h : Grow D A fs fs') : Grow D (fun _ => True) fs fs' :=
  ⟨fun q => (h.node q).imp id fun ⟨h1, h2⟩ => ⟨h1, h2.imp id fun ⟨n, c, _, h3⟩ => ⟨n, c, trivial, h3⟩⟩, h.tree⟩

theorem Grow.keep (h : Grow D A fs fs') {q : Loc} {x : Node} (hq : fs.node q = some x) : fs'.node q = some x := by
  rcases h.node q with h' | ⟨h', -⟩
  · rw [h', hq]
  · rw [hq] at h'; cases h'

theorem Grow.trans (h : Grow D A fs fs') (h' : Grow D A fs' fs'') : Grow D A fs fs'' := by
  refine ⟨fun q => ?_, fun ht => h'.tree (h.tree ht)⟩
  rcases h.node q with e | ⟨e, h1⟩
  · rw [← e]; exact h'.node q
  · refine .inr ⟨e, ?_⟩
    rcases h1 with ⟨hq, hd⟩ | ⟨n, c, hn, hq, hd⟩
    · exact .inl ⟨hq, h'.keep hd⟩
    · exact .inr ⟨n, c, hn, hq, h'.keep hd⟩

theorem not_prefix (D : Loc) (n : Str) : ¬ D ++ [n] <+: D := fun h => by have := h.length_le; simp at this; omega

/-- The file system is a tree and no file is in the way of the directory. -/
structure Base (D : Loc) (fs : FS) : Prop where
  tree : fs.Tree
  free : ¬ fs.Blocked D

theorem Base.grow (b : Base D fs) (h : Grow D A fs fs') : Base D fs' := by
  refine ⟨h.tree b.tree, ?_⟩
  rintro ⟨q, c, hq, hc⟩
  rcases h.node q with e | ⟨-, ⟨-, e⟩ | ⟨n, c', -, rfl, -⟩⟩
  · exact b.free ⟨q, c, hq, by rw [← e, hc]⟩
  · rw [e] at hc; cases hc
  · exact not_prefix D n hq

theorem Grow.notDir (h : Grow D A fs fs') {n : Str} (hn : fs.node (D ++ [n]) ≠ some .dir) : fs'.node (D ++ [n]) ≠ some .dir := by
  rcases h.node (D ++ [n]) with e | ⟨-, ⟨h1, -⟩ | ⟨m, c, -, -, e⟩⟩
  · rw [e]; exact hn
  · exact absurd h1 (not_prefix D n)
  · rw [e]; simp

/-! ## Rely and guarantee -/

/-- The program cannot raise, however the file system grows between its system calls; it only makes files with names in `A`; and what it
returns fits `Q`. -/
def RG (D : Loc) (A : Str → Prop) {α : Type} (Q : α → FS → Prop) : Sys α → FS → Prop
  | .ret r, fs => ∃ a, r = .ok a ∧ Q a fs
  | .call c k, fs => ∀ fs', Grow D (fun _ => True) fs fs' → Grow D A fs' (c.exec fs').2 ∧ RG D A Q (k (c.exec fs').1) (c.exec fs').2

theorem RG.stable {α : Type} {Q : α → FS → Prop} (hQ : ∀ a fs fs', Q a fs → Grow D (fun _ => True) fs fs' → Q a fs') {x : Sys α}
    (h : RG D A Q x fs) (hg : Grow D (fun _ => True) fs fs') : RG D A Q x fs' := by
  cases x with
  | ret r =>
    obtain ⟨a, h1, h2⟩ := h
    exact ⟨a, h1, hQ a _ _ h2 hg⟩
  | call c k => exact fun fs'' hg' => h fs'' (hg.trans hg')

theorem RG.bind {α β : Type} {Q : α → FS → Prop} {Q' : β → FS → Prop} {x : Sys α} {f : α → Sys β} (h : RG D A Q x fs)
    (hf : ∀ a fs, Q a fs → RG D A Q' (f a) fs) : RG D A Q' (x.bind f) fs := by
  induction x generalizing fs with
  | ret r =>
    obtain ⟨a, rfl, h2⟩ := h
    exact hf a fs h2
  | call c k ih => exact fun fs' hg => ⟨(h fs' hg).1, ih _ (h fs' hg).2⟩

/-! ## Making directories -/

theorem orIsDir_rg (b : Base D fs) {p : Loc} (hp : fs.node p = some .dir) : RG D A (fun _ fs => Base D fs ∧ fs.node p = some .dir) (orIsDir p) fs := by
  intro fs' hg
  have hd : fs'.isDir p = true := (FS.isDir_iff _ _).2 (hg.keep hp)
  refine ⟨Grow.refl _ _ _, ?_⟩
  simp only [Call.exec, hd]
  exact ⟨(), rfl, b.grow hg, hg.keep hp⟩

theorem mkdir_cases (b : Base D fs) {p : Loc} (hp : p <+: D) :
    ((Call.mkdir p).exec fs = (.ok true, fs.set p .dir) ∧ Grow D A fs (fs.set p .dir) ∧ (fs.set p .dir).node p = some .dir) ∨
    ((Call.mkdir p).exec fs = (.error .exist, fs) ∧ fs.node p = some .dir) ∨
    ((Call.mkdir p).exec fs = (.error .noent, fs) ∧ p ≠ [] ∧ fs.node p.dropLast ≠ some .dir) := by
  rcases nil_or_snoc p with rfl | ⟨q, n, rfl⟩
  · exact .inr (.inl ⟨by simp [Call.exec, FS.mkdir], by simp [FS.node]⟩)
  · rcases FS.mkdir_spec b.tree q n with ⟨h1, h2, h3⟩ | ⟨h1, h2, h3⟩ | ⟨e, h1, h2, h3⟩
    · refine .inl ⟨by simp [Call.exec, h3], ⟨fun r => ?_, fun ht => ?_⟩, by rw [FS.node_set _ _ _ (by simp)]; simp⟩
      · rw [FS.node_set _ _ _ (by simp)]
        by_cases hr : r = q ++ [n]
        · rw [if_pos hr]; exact .inr ⟨hr ▸ h2, .inl ⟨hr ▸ hp, rfl⟩⟩
        · rw [if_neg hr]; exact .inl rfl
      · exact FS.tree_set ht (by simp) (by simpa using FS.parent_of_walk h1) _ (.inl rfl)
    · refine .inr (.inl ⟨by simp [Call.exec, h3], ?_⟩)
      cases hn : fs.node (q ++ [n]) with
      | none => exact absurd hn h2
      | some x =>
        cases x with
        | dir => rfl
        | file c => exact absurd ⟨_, c, hp, hn⟩ b.free
    · rcases FS.walk_error h1 with ⟨rfl, -⟩ | ⟨rfl, r, c, hr, hc, -⟩
      · refine .inr (.inr ⟨by simp [Call.exec, h3], by simp, ?_⟩)
        intro hd
        rw [List.dropLast_concat] at hd
        rw [FS.walk_of_parent b.tree hd] at h1
        cases h1
      · exact absurd ⟨r, c, hr.trans ((List.prefix_append q [n]).trans hp), by simpa using hc⟩ b.free

theorem mkdirCode_rg (b : Base D fs) {p : Loc} (hp : p <+: D) (hpar : fs.node p.dropLast = some .dir) :
    RG D A (fun _ fs => Base D fs ∧ fs.node p = some .dir) (mkdirCode p) fs := by
  intro fs' hg
  rcases mkdir_cases (A := A) (b.grow hg) hp with ⟨h1, h2, h3⟩ | ⟨h1, h2⟩ | ⟨-, -, h3⟩
  · rw [h1]; exact ⟨h2, (), rfl, (b.grow hg).grow h2, h3⟩
  · rw [h1]; exact ⟨Grow.refl _ _ _, orIsDir_rg (b.grow hg) h2⟩
  · exact absurd (hg.keep hpar) h3

theorem mkdirsCode_rg (b : Base D fs) {p : Loc} (hp : p <+: D) :
    RG D A (fun _ fs => Base D fs ∧ fs.node p = some .dir) (mkdirsCode p) fs := by
  induction hl : p.length using Nat.strong_induction_on generalizing p fs with
  | _ l ih =>
    subst hl
    rw [mkdirsCode]
    intro fs' hg
    rcases mkdir_cases (A := A) (b.grow hg) hp with ⟨h1, h2, h3⟩ | ⟨h1, h2⟩ | ⟨h1, h2, -⟩
    · rw [h1]; exact ⟨h2, (), rfl, (b.grow hg).grow h2, h3⟩
    · rw [h1]; exact ⟨Grow.refl _ _ _, orIsDir_rg (b.grow hg) h2⟩
    · rw [h1]
      refine ⟨Grow.refl _ _ _, ?_⟩
      simp only [dif_neg h2]
      refine (ih p.dropLast.length (by cases p with | nil => exact absurd rfl h2 | cons a l => simp) (b.grow hg)
        ((List.dropLast_prefix p).trans hp) rfl).bind fun a fs2 h => ?_
      exact mkdirCode_rg h.1 hp h.2

/-! ## Setting and asking -/

theorem touchCode_rg (b : Base D fs) {n : Str} (hD : fs.node D = some .dir) (hn : fs.node (D ++ [n]) ≠ some .dir) :
    RG D (· = n) (fun _ fs => Base D fs ∧ fs.isFile (D ++ [n]) = true) (touchCode (D ++ [n])) fs := by
  intro fs' hg
  have hn' := hg.notDir hn
  have b' := b.grow hg
  have hD' := hg.keep hD
  cases hx : fs'.node (D ++ [n]) with
  | some x =>
    have : (Call.utime (D ++ [n])).exec fs' = (.ok true, fs') := by simp only [Call.exec, hx]
    rw [this]
    refine ⟨Grow.refl _ _ _, (), rfl, b', (FS.isFile_iff _ _).2 ?_⟩
    cases x with
    | dir => exact absurd hx hn'
    | file c => exact ⟨c, hx⟩
  | none =>
    have : (Call.utime (D ++ [n])).exec fs' = (.error .noent, fs') := by simp only [Call.exec, hx]
    rw [this]
    refine ⟨Grow.refl _ _ _, fun fs2 hg2 => ?_⟩
    have hn2 := hg2.notDir hn'
    have b2 := b'.grow hg2
    have hD2 := hg2.keep hD'
    have hne : D ++ [n] ≠ [] := by simp
    have hw : fs2.walk [] (D ++ [n]).dropLast = .ok () := by rw [List.dropLast_concat]; exact FS.walk_of_parent b2.tree hD2
    cases hy : fs2.node (D ++ [n]) with
    | some x =>
      cases x with
      | dir => exact absurd hy hn2
      | file c =>
        have : (Call.creat (D ++ [n])).exec fs2 = (.ok true, fs2) := by simp only [Call.exec, if_neg hne, hw, hy]
        rw [this]
        exact ⟨Grow.refl _ _ _, (), rfl, b2, (FS.isFile_iff _ _).2 ⟨c, hy⟩⟩
    | none =>
      have : (Call.creat (D ++ [n])).exec fs2 = (.ok true, fs2.set (D ++ [n]) (.file (.data (encodeUtf8 [])))) := by
        simp only [Call.exec, if_neg hne, hw, hy]
      rw [this]
      have hset : ∀ q, (fs2.set (D ++ [n]) (.file (.data (encodeUtf8 [])))).node q = _ := FS.node_set _ _ _ hne
      have hgrow : Grow D (· = n) fs2 (fs2.set (D ++ [n]) (.file (.data (encodeUtf8 [])))) := by
        refine ⟨fun q => ?_, fun ht => FS.tree_set ht hne (by simpa using hD2) _ (.inr fun m => ht.none_of_prefix (List.prefix_append _ _) hy)⟩
        rw [hset]
        by_cases hq : q = D ++ [n]
        · rw [if_pos hq]; exact .inr ⟨hq ▸ hy, .inr ⟨n, _, rfl, hq, rfl⟩⟩
        · rw [if_neg hq]; exact .inl rfl
      refine ⟨hgrow, (), rfl, b2.grow hgrow, (FS.isFile_iff _ _).2 ⟨.data (encodeUtf8 []), ?_⟩⟩
      rw [hset]; simp

end

/-! ## The calls -/

/-- What a call has brought about when it returns; `F`: whether the name asked for was certain when the question began. -/
def Post (D : Loc) (F : Str → Prop) : Op → Bool → FS → Prop
  | .start, _, fs => fs.node D = some .dir
  | .set n, _, fs => fs.isFile (D ++ [n]) = true
  | .has n, b, fs => (b = true → fs.isFile (D ++ [n]) = true) ∧ (F n → b = true)
  | .reset, _, _ => False

/-- Which files a call can make. -/
def Makes : Op → Str → Prop
  | .set n, m => m = n
  | _, _ => False

section
variable {cwd P : PyPath} {fs fs' : FS}

local notation "D" => PyPath.resolve cwd P

theorem isFile_keep {l : Loc} {A : Str → Prop} {L : Loc} (h : fs.isFile l = true) (hg : Grow L A fs fs') : fs'.isFile l = true := by
  obtain ⟨c, hc⟩ := (FS.isFile_iff _ _).1 h
  exact (FS.isFile_iff _ _).2 ⟨c, hg.keep hc⟩

theorem post_stable (L : Loc) (F : Str → Prop) (op : Op) (b : Bool) (fs fs' : FS) (h : Post L F op b fs) (hg : Grow L (fun _ => True) fs fs') :
    Post L F op b fs' := by
  cases op with
  | start => exact hg.keep h
  | set n => exact isFile_keep h hg
  | has n => exact ⟨fun hb => isFile_keep (h.1 hb) hg, h.2⟩
  | reset => exact h

theorem RG.post {α : Type} {L : Loc} {A : Str → Prop} {Q Q' : α → FS → Prop} {x : Sys α} (h : RG L A Q x fs) (hQ : ∀ a fs, Q a fs → Q' a fs) : RG L A Q' x fs := by
  induction x generalizing fs with
  | ret r =>
    obtain ⟨a, h1, h2⟩ := h
    exact ⟨a, h1, hQ _ _ h2⟩
  | call c k ih => exact fun fs' hg => ⟨(h fs' hg).1, ih _ (h fs' hg).2⟩

/-- A call can be made: its name is a file name and not that of a directory, and it is not a reset. -/
def Fit (L : Loc) (fs0 : FS) : Op → Prop
  | .start => True
  | .set n => FileName n ∧ fs0.node (L ++ [n]) ≠ some .dir
  | .has n => FileName n
  | .reset => False

theorem code_rg (b : Base D fs) {F : Str → Prop} {op : Op} (hop : Fit D fs op) (hD : op = .start ∨ fs.node D = some .dir ∨ ∃ n, op = .has n)
    (hF : ∀ n, F n → fs.isFile (D ++ [n]) = true) : RG D (Makes op) (Post D F op) (code cwd P op) fs := by
  cases op with
  | start => exact (mkdirsCode_rg b (List.prefix_refl _)).bind fun _ fs h => ⟨true, rfl, h.2⟩
  | set n =>
    have hd : fs.node D = some .dir := by
      rcases hD with h | h | ⟨m, h⟩
      · cases h
      · exact h
      · cases h
    simp only [code]
    rw [resolve_name hop.1]
    exact (touchCode_rg b hd hop.2).bind fun _ fs h => ⟨true, rfl, h.2⟩
  | has n =>
    simp only [code]
    rw [resolve_name (show FileName n from hop)]
    intro fs' hg
    refine ⟨Grow.refl _ _ _, _, rfl, fun h => h, fun h => isFile_keep (hF n h) hg⟩
  | reset => exact absurd hop id

end

/-! ## The invariant -/

/-- What is known of a process. -/
def Local (L : Loc) (start : Str → Prop) (fs0 : FS) (c : Config) (i : Nat) : Proc → Prop
  | .idle rest => (∀ op ∈ rest, Fit L fs0 op) ∧ (c.fs.node L = some .dir ∨ rest.head? = some .start)
  | .busy op x rest => (∀ op ∈ rest, Fit L fs0 op) ∧ (c.fs.node L = some .dir ∨ op = .start) ∧
    ∃ pre mid, c.trace = pre ++ .begun i op :: mid ∧ (∀ op', .begun i op' ∉ mid) ∧
      RG L (Makes op) (Post L (Certain start pre) op) x c.fs
  | .dead => False

/-- What holds at any time. -/
structure Inv (L : Loc) (start : Str → Prop) (fs0 : FS) (c : Config) : Prop where
  base : Base L c.fs
  grow : Grow L (fun _ => True) fs0 c.fs
  possible : ∀ n, c.fs.isFile (L ++ [n]) = true → Possible start c.trace n
  certain : ∀ n, Certain start c.trace n → c.fs.isFile (L ++ [n]) = true
  noRaise : ∀ i op e, .raised i op e ∉ c.trace
  consistent : Consistent start c.trace
  procs : ∀ i pr, c.procs[i]? = some pr → Local L start fs0 c i pr

theorem Certain.mono {start : Str → Prop} {tr tr' : List Event} {n : Str} (h : Certain start tr n) (ht : tr ⊆ tr') : Certain start tr' n := by
  rcases h with h | ⟨j, b, h⟩ | ⟨j, h⟩
  · exact .inl h
  · exact .inr (.inl ⟨j, b, ht h⟩)
  · exact .inr (.inr ⟨j, ht h⟩)

theorem Possible.mono {start : Str → Prop} {tr tr' : List Event} {n : Str} (h : Possible start tr n) (ht : tr ⊆ tr') : Possible start tr' n :=
  h.imp id fun ⟨j, h⟩ => ⟨j, ht h⟩

/-- The last of some kind of event is in one place only. -/
theorem last_unique {α : Type} (p : α → Prop) {pre pre' mid mid' : List α} {a a' : α} (h : pre ++ a :: mid = pre' ++ a' :: mid') (ha : p a) (ha' : p a')
    (hm : ∀ x ∈ mid, ¬ p x) (hm' : ∀ x ∈ mid', ¬ p x) : pre = pre' := by
  rcases List.append_eq_append_iff.1 h with ⟨l, h1, h2⟩ | ⟨l, h1, h2⟩
  · cases l with
    | nil => simpa using h1.symm
    | cons x l =>
      simp only [List.cons_append, List.cons.injEq] at h2
      exact absurd ha' (hm a' (by rw [h2.2]; simp))
  · cases l with
    | nil => simpa using h1
    | cons x l =>
      simp only [List.cons_append, List.cons.injEq] at h2
      exact absurd ha (hm' a (by rw [h2.2]; simp))

/-- A process that did not move still knows what it knew. -/
theorem Local.keep {L : Loc} {start : Str → Prop} {fs0 : FS} {c c' : Config} {i : Nat} {pr : Proc} (h : Local L start fs0 c i pr)
    (hg : Grow L (fun _ => True) c.fs c'.fs) (ht : c'.trace = c.trace ∨ ∃ e, c'.trace = c.trace ++ [e] ∧ ∀ op, e ≠ .begun i op) : Local L start fs0 c' i pr := by
  cases pr with
  | idle rest => exact ⟨h.1, h.2.imp hg.keep id⟩
  | busy op x rest =>
    obtain ⟨h1, h2, pre, mid, h3, h4, h5⟩ := h
    refine ⟨h1, h2.imp hg.keep id, ?_⟩
    have h5' := h5.stable (post_stable L _ op) hg
    rcases ht with ht | ⟨e, ht, he⟩
    · exact ⟨pre, mid, by rw [ht, h3], h4, h5'⟩
    · refine ⟨pre, mid ++ [e], by rw [ht, h3]; simp, ?_, h5'⟩
      intro op' hm
      rcases List.mem_append.1 hm with hm | hm
      · exact h4 op' hm
      · exact he op' (List.mem_singleton.1 hm).symm
  | dead => exact h

/-- An event that is not the answer to a question adds nothing to check. -/
theorem Consistent.snoc {start : Str → Prop} {tr : List Event} (h : Consistent start tr) (e : Event)
    (hy : ∀ i n, e = .returned i (.has n) true → Possible start tr n)
    (hn : ∀ i n, e = .returned i (.has n) false → ∀ pre1 pre2, tr = pre1 ++ .begun i (.has n) :: pre2 → (∀ op, .begun i op ∉ pre2) → ¬ Certain start pre1 n) :
    Consistent start (tr ++ [e]) := by
  constructor
  · intro pre i n post ht
    rcases nil_or_snoc post with rfl | ⟨post, e', rfl⟩
    · obtain ⟨rfl, he⟩ := List.append_inj' ht rfl
      exact hy i n (by simpa using he)
    · rw [← List.cons_append, ← List.append_assoc] at ht
      obtain ⟨ht, -⟩ := List.append_inj' ht rfl
      exact h.yes pre i n post ht
  · intro pre1 pre2 i n post ht hb
    rcases nil_or_snoc post with rfl | ⟨post, e', rfl⟩
    · rw [show pre1 ++ Event.begun i (.has n) :: (pre2 ++ [.returned i (.has n) false]) = (pre1 ++ .begun i (.has n) :: pre2) ++ [.returned i (.has n) false] by simp] at ht
      obtain ⟨ht, he⟩ := List.append_inj' ht rfl
      exact hn i n (by simpa using he) pre1 pre2 ht hb
    · rw [show pre1 ++ Event.begun i (.has n) :: (pre2 ++ .returned i (.has n) false :: (post ++ [e'])) =
        (pre1 ++ .begun i (.has n) :: (pre2 ++ .returned i (.has n) false :: post)) ++ [e'] by simp] at ht
      obtain ⟨ht, -⟩ := List.append_inj' ht rfl
      exact h.no pre1 pre2 i n post ht hb

section
variable {cwd P : PyPath}

local notation "D" => PyPath.resolve cwd P

theorem get_set {α : Type} {l : List α} {i j : Nat} {a b : α} (h : (l.set i a)[j]? = some b) : (j = i ∧ b = a) ∨ (j ≠ i ∧ l[j]? = some b) := by
  by_cases hj : j = i
  · subst hj
    rw [List.getElem?_set_self'] at h
    cases hl : l[j]? with
    | none => rw [hl] at h; cases h
    | some x => rw [hl] at h; simp at h; exact .inl ⟨rfl, h.symm⟩
  · rw [List.getElem?_set_ne (Ne.symm hj)] at h
    exact .inr ⟨hj, h⟩

theorem step_inv {start : Str → Prop} {fs0 : FS} {c c' : Config} (I : Inv D start fs0 c) (h : Step cwd P c c') : Inv D start fs0 c' := by
  cases h with
  | @begin i op rest hp =>
    obtain ⟨hfit, hhead⟩ := I.procs i _ hp
    have hsub : c.trace ⊆ c.trace ++ [.begun i op] := List.subset_append_left _ _
    refine ⟨I.base, I.grow, fun n hn => (I.possible n hn).mono hsub, fun n hn => I.certain n ?_, ?_, ?_, fun j pr hj => ?_⟩
    · rcases hn with h | ⟨j, b, h⟩ | ⟨j, h⟩
      · exact .inl h
      · exact .inr (.inl ⟨j, b, by simpa using h⟩)
      · exact .inr (.inr ⟨j, by simpa using h⟩)
    · intro j op' e hm
      exact I.noRaise j op' e (by simpa using hm)
    · exact I.consistent.snoc _ (by simp) (by simp)
    · rcases get_set hj with ⟨rfl, rfl⟩ | ⟨hne, hj⟩
      · have hop := hfit op (by simp)
        refine ⟨fun o ho => hfit o (by simp [ho]), ?_, c.trace, [], rfl, by simp, ?_⟩
        · simpa using hhead
        · refine code_rg I.base ?_ ?_ (fun n hn => I.certain n hn)
          · cases op with
            | start => trivial
            | set n => exact ⟨hop.1, I.grow.notDir hop.2⟩
            | has n => exact hop
            | reset => exact hop
          · rcases hhead with h | h
            · exact .inr (.inl h)
            · exact .inl (by simpa using h)
      · exact (I.procs j pr hj).keep (Grow.refl _ _ _) (.inr ⟨_, rfl, by intro op'; simp; intro h; exact absurd h.symm hne⟩)
  | @call i op s k rest hp =>
    obtain ⟨hfit, hstart, pre, mid, h3, h4, h5⟩ := I.procs i _ hp
    obtain ⟨g, h6⟩ := h5 c.fs (Grow.refl _ _ _)
    refine ⟨I.base.grow g, I.grow.trans g.weaken, fun n hn => ?_, fun n hn => isFile_keep (I.certain n hn) g, I.noRaise, I.consistent, fun j pr hj => ?_⟩
    · obtain ⟨x, hx⟩ := (FS.isFile_iff _ _).1 hn
      rcases g.node (D ++ [n]) with e | ⟨-, ⟨-, e⟩ | ⟨m, x', hm, he, -⟩⟩
      · exact I.possible n ((FS.isFile_iff _ _).2 ⟨x, by rw [← e]; exact hx⟩)
      · rw [show (Call.exec s c.fs).2.node _ = _ from hx] at e; cases e
      · simp only [List.append_cancel_left_eq, List.cons.injEq, and_true] at he
        subst he
        cases op with
        | set n' =>
          have : n = n' := hm
          subst this
          exact .inr ⟨i, by rw [h3]; simp⟩
        | start => exact absurd hm id
        | has n' => exact absurd hm id
        | reset => exact absurd hm id
    · rcases get_set hj with ⟨rfl, rfl⟩ | ⟨hne, hj⟩
      · exact ⟨hfit, hstart.imp g.keep id, pre, mid, h3, h4, h6⟩
      · exact (I.procs j pr hj).keep g.weaken (.inl rfl)
  | @done i op b rest hp =>
    obtain ⟨hfit, hstart, pre, mid, h3, h4, a, ha, h5⟩ := I.procs i _ hp
    have hab : b = a := by simpa using ha
    subst hab
    have hsub : c.trace ⊆ c.trace ++ [.returned i op b] := List.subset_append_left _ _
    refine ⟨I.base, I.grow, fun n hn => (I.possible n hn).mono hsub, fun n hn => ?_, ?_, ?_, fun j pr hj => ?_⟩
    · rcases hn with h | ⟨j, b', h⟩ | ⟨j, h⟩
      · exact I.certain n (.inl h)
      · rcases List.mem_append.1 h with h | h
        · exact I.certain n (.inr (.inl ⟨j, b', h⟩))
        · obtain ⟨-, rfl, -⟩ : j = i ∧ Op.set n = op ∧ b' = b := by simpa using h
          exact h5
      · rcases List.mem_append.1 h with h | h
        · exact I.certain n (.inr (.inr ⟨j, h⟩))
        · obtain ⟨-, rfl, rfl⟩ : j = i ∧ Op.has n = op ∧ true = b := by simpa using h
          exact h5.1 rfl
    · intro j op' e hm
      exact I.noRaise j op' e (by simpa using hm)
    · refine I.consistent.snoc _ ?_ ?_
      · intro i' n he
        obtain ⟨rfl, rfl, rfl⟩ : i = i' ∧ op = Op.has n ∧ b = true := by simpa using he
        exact I.possible n (h5.1 rfl)
      · intro i' n he pre1 pre2 htr hb hc
        obtain ⟨rfl, rfl, rfl⟩ : i = i' ∧ op = Op.has n ∧ b = false := by simpa using he
        have : pre1 = pre := last_unique (fun e => ∃ op, e = .begun i op) (htr.symm.trans h3) ⟨_, rfl⟩ ⟨_, rfl⟩
          (by rintro x hx ⟨op, rfl⟩; exact hb op hx) (by rintro x hx ⟨op, rfl⟩; exact h4 op hx)
        subst this
        exact absurd (h5.2 hc) (by simp)
    · rcases get_set hj with ⟨rfl, rfl⟩ | ⟨hne, hj⟩
      · refine ⟨hfit, .inl ?_⟩
        rcases hstart with h | rfl
        · exact h
        · exact h5
      · exact (I.procs j pr hj).keep (Grow.refl _ _ _) (.inr ⟨_, rfl, by simp⟩)
  | @raise i op e rest hp =>
    obtain ⟨hfit, hstart, pre, mid, h3, h4, a, ha, -⟩ := I.procs i _ hp
    cases ha

theorem steps_inv {start : Str → Prop} {fs0 : FS} {k : Nat} {c c' : Config} (I : Inv D start fs0 c) (h : Steps cwd P k c c') : Inv D start fs0 c' := by
  induction h with
  | zero => exact I
  | succ _ hs ih => exact step_inv (ih I) hs

/-- The programs: each gets the checkpoints first, and then sets names and asks for names, which are file names. -/
def Programs (L : Loc) (fs0 : FS) (programs : List (List Op)) : Prop :=
  ∀ prog ∈ programs, ∃ rest, prog = .start :: rest ∧
    ∀ op ∈ rest, op = .start ∨ (∃ n, op = .set n ∧ FileName n ∧ fs0.node (L ++ [n]) ≠ some .dir) ∨ ∃ n, op = .has n ∧ FileName n

theorem initial_inv {fs0 : FS} (ht : fs0.Tree) (hb : ¬ fs0.Blocked D) {programs : List (List Op)} (hp : Programs D fs0 programs) :
    Inv D (fun n => fs0.isFile (D ++ [n]) = true) fs0 (initial programs fs0) := by
  refine ⟨⟨ht, hb⟩, Grow.refl _ _ _, fun n h => .inl h, fun n h => ?_, by simp [initial], ⟨by simp [initial], by simp [initial]⟩, fun i pr hi => ?_⟩
  · rcases h with h | ⟨j, b, h⟩ | ⟨j, h⟩
    · exact h
    · simp [initial] at h
    · simp [initial] at h
  · simp only [initial, List.getElem?_map, Option.map_eq_some_iff] at hi
    obtain ⟨prog, hprog, rfl⟩ := hi
    obtain ⟨rest, rfl, hrest⟩ := hp prog (List.mem_of_getElem? hprog)
    refine ⟨fun op hop => ?_, .inr rfl⟩
    rcases List.mem_cons.1 hop with rfl | hop
    · trivial
    · rcases hrest op hop with rfl | ⟨n, rfl, h⟩ | ⟨n, rfl, h⟩
      · trivial
      · exact h
      · exact h

/-! ## C94 -/

/-- Any number of processes that get the checkpoints of the same directory, set names and ask for names, under every schedule of their
system calls: none of them raises, and the answers are as if each call happened in one moment. -/
theorem C94_consistent {fs0 : FS} (ht : fs0.Tree) (hb : ¬ fs0.Blocked D) {programs : List (List Op)} (hp : Programs D fs0 programs) {k : Nat}
    {c : Config} (h : Steps cwd P k (initial programs fs0) c) :
    (∀ i op e, .raised i op e ∉ c.trace) ∧ Consistent (fun n => fs0.isFile (D ++ [n]) = true) c.trace :=
  have I := steps_inv (initial_inv ht hb hp) h
  ⟨I.noRaise, I.consistent⟩

/-- What is there at any time: the names whose `set` returned, and at most those whose `set` has begun; nothing is lost, and outside the
directory nothing is made but the directories above it. -/
theorem C94_files {fs0 : FS} (ht : fs0.Tree) (hb : ¬ fs0.Blocked D) {programs : List (List Op)} (hp : Programs D fs0 programs) {k : Nat}
    {c : Config} (h : Steps cwd P k (initial programs fs0) c) :
    (∀ n, Certain (fun n => fs0.isFile (D ++ [n]) = true) c.trace n → c.fs.isFile (D ++ [n]) = true) ∧
    (∀ n, c.fs.isFile (D ++ [n]) = true → Possible (fun n => fs0.isFile (D ++ [n]) = true) c.trace n) ∧
    (∀ q x, fs0.node q = some x → c.fs.node q = some x) ∧
    (∀ q, fs0.node q = none → c.fs.node q ≠ none → q <+: D ∨ ∃ n, q = D ++ [n]) := by
  have I := steps_inv (initial_inv ht hb hp) h
  refine ⟨I.certain, I.possible, fun q x hq => I.grow.keep hq, fun q hq hn => ?_⟩
  rcases I.grow.node q with e | ⟨-, ⟨e, -⟩ | ⟨n, _, -, e, -⟩⟩
  · rw [e, hq] at hn; exact absurd rfl hn
  · exact .inl e
  · exact .inr ⟨n, e⟩

/-! ## Progress -/

/-- The answers of the operating system. -/
def answers : List (Except Errno Bool) :=
  [.ok true, .ok false, .error .noent, .error .exist, .error .notdir, .error .isdir, .error .notempty, .error .busy]

theorem mem_answers (a : Except Errno Bool) : a ∈ answers := by
  cases a with
  | ok b => cases b <;> simp [answers]
  | error e => cases e <;> simp [answers]

/-- How many system calls a program can still make. -/
def Sys.height {α : Type} : Sys α → Nat
  | .ret _ => 0
  | .call _ k => 1 + (answers.map fun a => (k a).height).foldr max 0

theorem le_foldr_max {l : List Nat} {a : Nat} (h : a ∈ l) : a ≤ l.foldr max 0 := by
  induction l with
  | nil => cases h
  | cons b l ih =>
    simp only [List.foldr_cons]
    rcases List.mem_cons.1 h with rfl | h
    · exact le_max_left _ _
    · exact (ih h).trans (le_max_right _ _)

theorem Sys.height_lt {α : Type} (c : Call) (k : Except Errno Bool → Sys α) (a : Except Errno Bool) : (k a).height < (Sys.call c k).height := by
  have : (k a).height ≤ (answers.map fun a => (k a).height).foldr max 0 := le_foldr_max (List.mem_map.2 ⟨a, mem_answers a, rfl⟩)
  simp only [Sys.height]
  omega

/-- How many steps a list of calls can take. -/
def cost (cwd P : PyPath) (ops : List Op) : Nat := (ops.map fun op => (code cwd P op).height + 2).sum

/-- How many steps a process can still take. -/
def Proc.cost (cwd P : PyPath) : Proc → Nat
  | .idle rest => Concurrent.cost cwd P rest
  | .busy _ x rest => x.height + 1 + Concurrent.cost cwd P rest
  | .dead => 0

theorem sum_set {l : List Proc} {i : Nat} {a b : Proc} (h : l[i]? = some a) (f : Proc → Nat) (hlt : f b < f a) :
    ((l.set i b).map f).sum < (l.map f).sum := by
  induction l generalizing i with
  | nil => cases h
  | cons x l ih =>
    cases i with
    | zero =>
      have : x = a := by simpa using h
      subst this
      simpa using hlt
    | succ i =>
      have := ih (i := i) (by simpa using h)
      simpa using this

theorem step_cost {c c' : Config} (h : Step cwd P c c') : (c'.procs.map (Proc.cost cwd P)).sum < (c.procs.map (Proc.cost cwd P)).sum := by
  cases h with
  | begin hp => exact sum_set hp _ (by simp [Proc.cost, cost])
  | @call i op s k rest hp => exact sum_set hp _ (by have := Sys.height_lt s k (s.exec c.fs).1; simp only [Proc.cost]; omega)
  | done hp => exact sum_set hp _ (by simp only [Proc.cost, Sys.height]; omega)
  | raise hp => exact sum_set hp _ (by simp only [Proc.cost]; omega)

theorem steps_cost {k : Nat} {c c' : Config} (h : Steps cwd P k c c') :
    k + (c'.procs.map (Proc.cost cwd P)).sum ≤ (c.procs.map (Proc.cost cwd P)).sum := by
  induction h with
  | zero => omega
  | succ _ hs ih => have := step_cost hs; omega

theorem steps_length {k : Nat} {c c' : Config} (h : Steps cwd P k c c') : c'.procs.length = c.procs.length := by
  induction h with
  | zero => rfl
  | succ _ hs ih =>
    rw [← ih]
    cases hs <;> simp

/-- Whatever the programs (resets too) and the schedule, there are at most so many steps: no process waits for another, none runs on forever. -/
theorem C94_finite (programs : List (List Op)) (fs0 : FS) : ∃ bound, ∀ k c, Steps cwd P k (initial programs fs0) c → k ≤ bound := by
  refine ⟨((initial programs fs0).procs.map (Proc.cost cwd P)).sum, fun k c h => ?_⟩
  have := steps_cost h
  omega

/-- And if no process can take a step then each is done with all it wanted to do. -/
theorem C94_progress {fs0 : FS} (ht : fs0.Tree) (hb : ¬ fs0.Blocked D) {programs : List (List Op)} (hp : Programs D fs0 programs) {k : Nat}
    {c : Config} (h : Steps cwd P k (initial programs fs0) c) (hstuck : ∀ c', ¬ Step cwd P c c') :
    c.procs.length = programs.length ∧ ∀ pr ∈ c.procs, pr = .idle [] := by
  have I := steps_inv (initial_inv ht hb hp) h
  constructor
  · rw [steps_length h]
    simp [initial]
  · intro pr hpr
    obtain ⟨i, hi⟩ := List.mem_iff_getElem?.1 hpr
    have hl := I.procs i pr hi
    cases pr with
    | idle rest =>
      cases rest with
      | nil => rfl
      | cons op rest => exact absurd (Step.begin hi) (hstuck _)
    | busy op x rest =>
      cases x with
      | call s k => exact absurd (Step.call hi) (hstuck _)
      | ret r =>
        cases r with
        | ok b => exact absurd (Step.done hi) (hstuck _)
        | error e => exact absurd (Step.raise hi) (hstuck _)
    | dead => exact absurd hl id

/-! ## One process alone -/

theorem mkdirCode_alone {fs : FS} (ht : fs.Tree) {q : Loc} {n : Str} (hq : fs.node q = some .dir) :
    (mkdirCode (q ++ [n])).alone fs = match fs.mkdir (q ++ [n]) with
      | .ok fs' => (.ok (), fs')
      | .error _ => if fs.isDir (q ++ [n]) then (.ok (), fs) else (.error .ioError, fs) := by
  rcases FS.mkdir_spec ht q n with ⟨h1, h2, h3⟩ | ⟨h1, h2, h3⟩ | ⟨e, h1, h2, h3⟩
  · simp [mkdirCode, Sys.alone, Call.exec, h3]
  · simp only [mkdirCode, Sys.alone, Call.exec, h3, orIsDir]
    cases fs.isDir (q ++ [n]) <;> rfl
  · rw [FS.walk_of_parent ht hq] at h1
    cases h1

theorem mkdirsCode_alone {fs : FS} (ht : fs.Tree) (p : Loc) : (mkdirsCode p).alone fs = mkdirs p fs := by
  induction hl : p.length using Nat.strong_induction_on generalizing p with
  | _ l ih =>
    subst hl
    show _ = mkdirsAt p fs
    rw [mkdirsCode, mkdirsAt]
    simp only [Sys.alone, Call.exec]
    cases hm : fs.mkdir p with
    | ok fs' => rfl
    | error e =>
      have hother : ∀ e, e ≠ Errno.noent → (orIsDir p).alone fs = if fs.isDir p then (.ok (), fs) else (.error .ioError, fs) := by
        intro e _
        simp only [orIsDir, Sys.alone, Call.exec]
        cases fs.isDir p <;> rfl
      cases e with
      | noent =>
        simp only
        by_cases hp : p = []
        · simp only [dif_pos hp, Sys.alone]
        · simp only [dif_neg hp]
          rw [Sys.alone_bind, ih p.dropLast.length (by cases p with | nil => exact absurd rfl hp | cons a l => simp) p.dropLast rfl]
          rcases nil_or_snoc p with rfl | ⟨q, n, rfl⟩
          · exact absurd rfl hp
          · rw [List.dropLast_concat]
            by_cases hbl : fs.Blocked q
            · have := (mkdirs_spec ht q).2 hbl
              rw [this, show mkdirsAt q fs = _ from this]
            · obtain ⟨fs', h1, h2, h3⟩ := (mkdirs_spec ht q).1 hbl
              rw [h1, show mkdirsAt q fs = _ from h1]
              exact mkdirCode_alone h3 (h2.1 q (List.prefix_refl _))
      | exist => exact hother .exist (by simp)
      | notdir => exact hother .notdir (by simp)
      | isdir => exact hother .isdir (by simp)
      | notempty => exact hother .notempty (by simp)
      | busy => exact hother .busy (by simp)

theorem touchCode_alone (fs : FS) (p : Loc) : (touchCode p).alone fs = touch p fs := by
  simp only [touchCode, Sys.alone, Call.exec, touch, Prog.call]
  cases hn : fs.node p with
  | some x => rfl
  | none =>
    have hp : p ≠ [] := by rintro rfl; simp [FS.node] at hn
    cases hw : fs.walk [] p.dropLast with
    | error e => simp only [Sys.alone, Call.exec, if_neg hp, hw]
    | ok u => simp only [Sys.alone, Call.exec, if_neg hp, hw, hn]

/-- A process that is not disturbed does what the model of C68 says. -/
theorem C94_alone (fs : FS) (ht : fs.Tree) (n : Str) :
    ((code cwd P .start).alone fs = match Checkpoints.fromDirectory cwd P fs with
      | (.ok _, fs') => (.ok true, fs')
      | (.error e, fs') => (.error e, fs')) ∧
    ((code cwd P (.set n)).alone fs = match Checkpoints.set cwd P (some n) fs with
      | (.ok _, fs') => (.ok true, fs')
      | (.error e, fs') => (.error e, fs')) ∧
    (code cwd P (.has n)).alone fs = Checkpoints.contains cwd P (some n) fs ∧
    ((∃ n, P.parts.getLast? = some n ∧ n ≠ ['.', '.']) →
      (code cwd P .reset).alone fs = match Checkpoints.resetAll cwd P fs with
        | (.ok _, fs') => (.ok true, fs')
        | (.error e, fs') => (.error e, fs')) := by
  refine ⟨?_, ?_, rfl, fun hname => ?_⟩
  · simp only [code, Sys.alone_bind, mkdirsCode_alone ht, Checkpoints.fromDirectory, Prog.bind_apply, Prog.pure_apply, Sys.alone]
    rcases mkdirs D fs with ⟨r, fs'⟩
    cases r <;> rfl
  · simp only [code, Sys.alone_bind, touchCode_alone, Checkpoints.set, Checkpoints.checkStr, Prog.bind_apply, Prog.ofRes_apply, Sys.alone]
    rcases touch _ fs with ⟨r, fs'⟩
    cases r <;> rfl
  · have hD : D ≠ [] := Checkpoints.resolve_ne_nil hname
    simp only [code, Sys.alone, Call.exec, Checkpoints.resetAll, Prog.bind_apply, Checkpoints.rmtreePath_eq hname]
    have ht' : (Vista.rmtree D fs).2.Tree := by
      unfold Vista.rmtree
      by_cases hd : fs.isDir D
      · simp only [if_pos hd, if_neg hD]
        exact FS.tree_eraseTree ht hD
      · simp only [if_neg hd]; exact ht
    cases hr : Vista.rmtree D fs with
    | mk r fs' =>
      rw [hr] at ht'
      cases r with
      | ok u =>
        simp only [Sys.alone_bind, mkdirsCode_alone ht', Sys.alone]
        rcases mkdirs D fs' with ⟨r, fs''⟩
        cases r <;> rfl
      | error e =>
        have : e = .ioError := by
          simp only [Vista.rmtree, if_neg hD] at hr
          split at hr
          · cases hr
          · cases hr; rfl
        subst this
        rfl

/-! ## Where an undisturbed process can be killed -/

/-- The file system is in this state before or after one of the system calls. -/
def Sys.Visits {α : Type} : Sys α → FS → FS → Prop
  | .ret _, fs, s => s = fs
  | .call c k, fs, s => s = fs ∨ (k (c.exec fs).1).Visits (c.exec fs).2 s

theorem Sys.visits_bind {α β : Type} {x : Sys α} {f : α → Sys β} {fs s : FS} (h : (x.bind f).Visits fs s) :
    x.Visits fs s ∨ ∃ a, (x.alone fs).1 = .ok a ∧ (f a).Visits (x.alone fs).2 s := by
  induction x generalizing fs with
  | ret r =>
    cases r with
    | ok a => exact .inr ⟨a, rfl, h⟩
    | error e => exact .inl h
  | call c k ih =>
    rcases h with h | h
    · exact .inl (.inl h)
    · rcases ih _ h with h | h
      · exact .inl (.inr h)
      · exact .inr h

theorem orIsDir_visits {p : Loc} {fs s : FS} (h : (orIsDir p).Visits fs s) : s = fs := by
  rcases h with h | h
  · exact h
  · simp only [Call.exec] at h
    cases hd : fs.isDir p <;> rw [hd] at h <;> exact h

theorem mkdirCode_visits {p : Loc} {fs s : FS} (h : (mkdirCode p).Visits fs s) : s = fs ∨ s = ((mkdirCode p).alone fs).2 := by
  rcases h with h | h
  · exact .inl h
  · simp only [mkdirCode, Sys.alone]
    simp only [Call.exec] at h ⊢
    cases hm : fs.mkdir p with
    | ok fs' => rw [hm] at h; exact .inr h
    | error e =>
      rw [hm] at h
      left
      cases e <;> first | exact h | exact orIsDir_visits h

theorem mkdirsCode_visits {fs s : FS} (ht : fs.Tree) (p : Loc) (h : (mkdirsCode p).Visits fs s) : s = fs ∨ ∃ q, q <+: p ∧ s = (mkdirs q fs).2 := by
  induction hl : p.length using Nat.strong_induction_on generalizing p s with
  | _ l ih =>
    subst hl
    have hal := mkdirsCode_alone ht p
    rw [mkdirsCode] at h hal
    rcases h with h | h
    · exact .inl h
    · simp only [Sys.alone, Call.exec] at hal
      simp only [Call.exec] at h
      cases hm : fs.mkdir p with
      | ok fs' =>
        rw [hm] at h hal
        refine .inr ⟨p, List.prefix_refl _, ?_⟩
        rw [← hal]
        exact h
      | error e =>
        rw [hm] at h hal
        cases e with
        | noent =>
          simp only at h hal
          by_cases hp : p = []
          · simp only [dif_pos hp] at h
            exact .inl h
          · simp only [dif_neg hp] at h hal
            rcases Sys.visits_bind h with h | ⟨a, ha, h⟩
            · rcases ih p.dropLast.length (by cases p with | nil => exact absurd rfl hp | cons a l => simp) p.dropLast h rfl with h | ⟨q, hq, h⟩
              · exact .inl h
              · exact .inr ⟨q, hq.trans (List.dropLast_prefix p), h⟩
            · right
              rw [Sys.alone_bind] at hal
              cases hx : (mkdirsCode p.dropLast).alone fs with
              | mk r fs1 =>
                rw [hx] at ha h hal
                have ha' : r = .ok a := ha
                subst ha'
                rcases mkdirCode_visits h with h | h
                · refine ⟨p.dropLast, List.dropLast_prefix p, ?_⟩
                  rw [← mkdirsCode_alone ht, hx]
                  exact h
                · refine ⟨p, List.prefix_refl _, ?_⟩
                  rw [← hal]
                  exact h
        | exist => exact .inl (orIsDir_visits h)
        | notdir => exact .inl (orIsDir_visits h)
        | isdir => exact .inl (orIsDir_visits h)
        | notempty => exact .inl (orIsDir_visits h)
        | busy => exact .inl (orIsDir_visits h)

/-- The states in which an undisturbed process can be killed while it gets the checkpoints or sets a name are among those of C91. -/
theorem C94_killed (fs s : FS) (ht : fs.Tree) (n : Str) :
    ((code cwd P .start).Visits fs s → (Checkpoints.fromDirectoryK cwd P).killed fs s) ∧
    ((code cwd P (.set n)).Visits fs s → (Checkpoints.setK cwd P n).killed fs s) := by
  constructor
  · intro h
    rcases Sys.visits_bind h with h | ⟨a, ha, h⟩
    · exact .inl (mkdirsCode_visits ht _ h)
    · have hs : s = ((mkdirsCode D).alone fs).2 := h
      rw [mkdirsCode_alone ht] at hs
      exact .inl (.inr ⟨_, List.prefix_refl _, hs⟩)
  · intro h
    refine .inr ⟨n, fs, rfl, ?_⟩
    show s = fs ∨ s = (touch (PyPath.resolve cwd (P.div (PyPath.parse n))) fs).2
    rw [← touchCode_alone]
    rcases Sys.visits_bind h with h | ⟨a, ha, h⟩
    · rcases h with h | h
      · exact .inl h
      · simp only [touchCode, Sys.alone]
        generalize PyPath.resolve cwd (P.div (PyPath.parse n)) = p at h ⊢
        simp only [Call.exec] at h ⊢
        cases hn : fs.node p with
        | some x => rw [hn] at h; exact .inl h
        | none =>
          rw [hn] at h
          rcases h with h | h
          · exact .inl h
          · right
            simp only [Sys.alone]
            cases hr : (Call.exec (.creat p) fs).1 with
            | ok b => rw [hr] at h; exact h
            | error e => rw [hr] at h; exact h
    · exact .inr h

end

/-! ## Examples -/

namespace Example
open Checkpoints.Example (home dir fs fs_tree)

/-- The next step of a process. -/
def stepAt (i : Nat) (c : Config) : Option Config :=
  match c.procs[i]? with
  | some (.idle (op :: rest)) => some ⟨c.procs.set i (.busy op (code home dir op) rest), c.fs, c.trace ++ [.begun i op]⟩
  | some (.busy op (.call s k) rest) => some ⟨c.procs.set i (.busy op (k (s.exec c.fs).1) rest), (s.exec c.fs).2, c.trace⟩
  | some (.busy op (.ret (.ok b)) rest) => some ⟨c.procs.set i (.idle rest), c.fs, c.trace ++ [.returned i op b]⟩
  | some (.busy op (.ret (.error e)) _) => some ⟨c.procs.set i .dead, c.fs, c.trace ++ [.raised i op e]⟩
  | _ => none

theorem stepAt_step {i : Nat} {c c' : Config} (h : stepAt i c = some c') : Step home dir c c' := by
  unfold stepAt at h
  split at h
  · rename_i hp; cases h; exact .begin hp
  · rename_i hp; cases h; exact .call hp
  · rename_i hp; cases h; exact .done hp
  · rename_i hp; cases h; exact .raise hp
  · cases h

/-- The processes take steps in the order of the schedule. -/
def follow : List Nat → Config → Option Config
  | [], c => some c
  | i :: is, c => (stepAt i c).bind (follow is)

theorem follow_steps {is : List Nat} {k : Nat} {c0 c c' : Config} (hc : Steps home dir k c0 c) (h : follow is c = some c') : Steps home dir (k + is.length) c0 c' := by
  induction is generalizing k c with
  | nil => cases h; exact hc
  | cons i is ih =>
    simp only [follow, Option.bind_eq_some_iff] at h
    obtain ⟨c1, h1, h2⟩ := h
    have := ih (hc.succ (stepAt_step h1)) h2
    rw [show k + (i :: is).length = k + 1 + is.length by simp; omega]
    exact this

def a : Str := "a".toList
def b : Str := "b".toList
def programs : List (List Op) := [[.start, .set a, .has b], [.start, .set b, .has a]]
/-- Both make the directory, and one is late. -/
def schedule : List Nat := [0, 1, 0, 1, 1, 1, 0, 1, 1, 0, 0, 0, 1, 1, 1, 0, 1, 1, 0, 0, 0]
def traceOf (ps : List (List Op)) (is : List Nat) : List Event :=
  match follow is (initial ps fs) with
  | some c => c.trace
  | none => []

theorem free : ¬ fs.Blocked (PyPath.resolve home dir) := by
  rintro ⟨q, c, -, hc⟩
  exact Checkpoints.Example.nothing q c hc

/-- The hypotheses of the theorems hold of two processes. -/
theorem fit : Programs (PyPath.resolve home dir) fs programs := by
  have e : PyPath.resolve home dir = ["home".toList, "d".toList] := by decide +kernel
  have hnone : ∀ n, fs.node (PyPath.resolve home dir ++ [n]) ≠ some .dir := by
    intro n h
    rw [e] at h
    have h' := (FS.node_ne_none_iff fs _).1 (by rw [h]; simp)
    simp [fs] at h'
  have ha : FileName a := ⟨by decide, by decide, by decide, by decide⟩
  have hb : FileName b := ⟨by decide, by decide, by decide, by decide⟩
  intro prog hp
  simp only [programs, List.mem_cons, List.not_mem_nil, or_false] at hp
  rcases hp with rfl | rfl
  · refine ⟨_, rfl, fun op hop => ?_⟩
    simp only [List.mem_cons, List.not_mem_nil, or_false] at hop
    rcases hop with rfl | rfl
    · exact .inr (.inl ⟨a, rfl, ha, hnone a⟩)
    · exact .inr (.inr ⟨b, rfl, hb⟩)
  · refine ⟨_, rfl, fun op hop => ?_⟩
    simp only [List.mem_cons, List.not_mem_nil, or_false] at hop
    rcases hop with rfl | rfl
    · exact .inr (.inl ⟨b, rfl, hb, hnone b⟩)
    · exact .inr (.inr ⟨a, rfl, ha⟩)

/-- Two processes that make the directory at the same time, set a name each and ask for the other's: all is done after 21 steps. -/
example : ∃ c, Steps home dir 21 (initial programs fs) c ∧ c.trace = [.begun 0 .start, .begun 1 .start, .returned 1 .start true,
    .returned 0 .start true, .begun 1 (.set b), .begun 0 (.set a), .returned 1 (.set b) true, .begun 1 (.has a), .returned 0 (.set a) true,
    .returned 1 (.has a) true, .begun 0 (.has b), .returned 0 (.has b) true] ∧
    Consistent (fun n => fs.isFile (PyPath.resolve home dir ++ [n]) = true) c.trace := by
  obtain ⟨c, hc⟩ := Option.isSome_iff_exists.1 (show (follow schedule (initial programs fs)).isSome = true by decide +kernel)
  have hs : Steps home dir 21 (initial programs fs) c := follow_steps (k := 0) .zero hc
  refine ⟨c, hs, ?_, (C94_consistent fs_tree free fit hs).2⟩
  have ht : c.trace = traceOf programs schedule := by simp only [traceOf, hc]
  rw [ht]
  decide +kernel

/-- An answer can be "no" while a `set` is under way. -/
example : ∃ k c, Steps home dir k (initial programs fs) c ∧ .begun 0 (.set a) ∈ c.trace ∧ .returned 1 (.has a) false ∈ c.trace := by
  have h := Option.isSome_iff_exists.1 (show (follow [0, 0, 0, 1, 1, 1, 1, 1, 1, 1, 1, 0, 0, 1, 1, 1] (initial programs fs)).isSome = true by decide +kernel)
  obtain ⟨c, hc⟩ := h
  refine ⟨_, c, follow_steps (k := 0) .zero hc, ?_⟩
  have ht : c.trace = traceOf programs [0, 0, 0, 1, 1, 1, 1, 1, 1, 1, 1, 0, 0, 1, 1, 1] := by simp only [traceOf, hc]
  rw [ht]
  decide +kernel

/-- With a reset it is otherwise: between the removal of the directory and its making, another process's `set` raises. -/
theorem _root_.Vista.Concurrent.C94_reset_counterexample : ∃ k c, Steps home dir k (initial [[.start, .set a], [.start, .reset]] fs) c ∧
    .raised 0 (.set a) .ioError ∈ c.trace := by
  obtain ⟨c, hc⟩ := Option.isSome_iff_exists.1 (show (follow [0, 0, 0, 1, 1, 1, 1, 1, 1, 0, 0, 0, 0] (initial [[.start, .set a], [.start, .reset]] fs)).isSome = true
    by decide +kernel)
  refine ⟨_, c, follow_steps (k := 0) .zero hc, ?_⟩
  have ht : c.trace = traceOf [[.start, .set a], [.start, .reset]] [0, 0, 0, 1, 1, 1, 1, 1, 1, 0, 0, 0, 0] := by simp only [traceOf, hc]
  rw [ht]
  decide +kernel

end Example

end Concurrent
end Vista
