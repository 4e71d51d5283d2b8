import Verif.Props.CrashDir

/-!
# C93: a process that is killed while it writes a file
-/
set_option linter.unusedSectionVars false
namespace Vista

/-! ## Specification -/

/-- What writing `b` to the file `k` in the directory `D` can leave if it is interrupted: directories on the way may have been made, and the
file may hold a beginning of what was to be written; all else is as before. -/
structure Torn (fs : FS) (D : Loc) (k : Str) (b : Bytes) (s : FS) : Prop where
  elsewhere : ∀ q, q ≠ D ++ [k] → s.node q = fs.node q ∨ (q <+: D ∧ fs.node q = none ∧ s.node q = some .dir)
  file : s.node (D ++ [k]) = fs.node (D ++ [k]) ∨ ∃ b' more, b = b' ++ more ∧ s.node (D ++ [k]) = some (.file (.data b'))

section
variable {cwd P : PyPath} {k : Str}

/-- Not killed, the program is the one modelled for text and bytes alike. -/
theorem writeBytesToK_same (cwd p : PyPath) (b : Bytes) : (writeBytesToK cwd p b).run = writeBytesTo cwd p b := rfl

/-! ## Making directories -/

theorem mkdirs_any {fs : FS} (h : fs.Tree) {D q : Loc} (hq : q <+: D) :
    (Vista.mkdirs q fs).2.Tree ∧ (∀ r, (Vista.mkdirs q fs).2.node r = fs.node r ∨ (r <+: D ∧ fs.node r = none ∧ (Vista.mkdirs q fs).2.node r = some .dir)) ∧
      (fs.Blocked D → ∀ r, (Vista.mkdirs q fs).2.node r = fs.node r) := by
  by_cases hb : fs.Blocked q
  · rw [(mkdirs_spec h q).2 hb]
    exact ⟨h, fun r => .inl rfl, fun _ r => rfl⟩
  · obtain ⟨fs1, h1, h2, h3⟩ := (mkdirs_spec h q).1 hb
    rw [h1]
    have hnode : ∀ r, r <+: q → fs.node r = none ∨ fs.node r = some .dir := by
      intro r hr
      cases hn : fs.node r with
      | none => exact .inl rfl
      | some n =>
        cases n with
        | dir => exact .inr rfl
        | file c => exact absurd ⟨r, c, hr, hn⟩ hb
    refine ⟨h3, fun r => ?_, fun hB r => ?_⟩
    · by_cases hr : r <+: q
      · rcases hnode r hr with hn | hn
        · exact .inr ⟨hr.trans hq, hn, h2.1 r hr⟩
        · exact .inl (by rw [hn]; exact h2.1 r hr)
      · exact .inl (h2.2 r hr)
    · by_cases hr : r <+: q
      · rw [show fs1.node r = some .dir from h2.1 r hr]
        obtain ⟨p, c, hp, hc⟩ := hB
        have hqp : q <+: p := by
          rcases List.prefix_or_prefix_of_prefix hp hq with h' | h'
          · exact absurd ⟨p, c, h', hc⟩ hb
          · exact h'
        have hne : r ≠ p := by
          rintro rfl
          exact hb ⟨r, c, hr, hc⟩
        exact (h.dir_of_prefix (hr.trans hqp) hne (by rw [hc]; simp)).symm
      · exact h2.2 r hr

/-! ## Writing -/

/-- When writing the file succeeds, and what it does. -/
theorem writeBytesTo_iff {fs : FS} (h : fs.Tree) (hk : k ≠ ['.', '.']) (b : Bytes) :
    (¬ fs.Blocked (PyPath.resolve cwd P) → fs.node (PyPath.resolve cwd P ++ [k]) ≠ some .dir →
      ∃ fs', writeBytesTo cwd ⟨P.root, P.parts ++ [k]⟩ b fs = (.ok (), fs') ∧ fs'.Tree ∧ (∀ q, q <+: PyPath.resolve cwd P → fs'.node q = some .dir) ∧
        fs'.node (PyPath.resolve cwd P ++ [k]) = some (.file (.data b)) ∧
        ∀ q, ¬ q <+: PyPath.resolve cwd P → q ≠ PyPath.resolve cwd P ++ [k] → fs'.node q = fs.node q) ∧
    ((fs.Blocked (PyPath.resolve cwd P) ∨ fs.node (PyPath.resolve cwd P ++ [k]) = some .dir) →
      (writeBytesTo cwd ⟨P.root, P.parts ++ [k]⟩ b fs).1 = .error .ioError) := by
  have hkp : ∀ q, q <+: PyPath.resolve cwd P → q ≠ PyPath.resolve cwd P ++ [k] := by
    rintro q hq rfl
    have := hq.length_le
    simp at this; omega
  have hkn : ¬ PyPath.resolve cwd P ++ [k] <+: PyPath.resolve cwd P := fun h => hkp _ h rfl
  constructor
  · intro hb hn
    obtain ⟨fs1, h1, h2, h3⟩ := (mkdirs_spec h (PyPath.resolve cwd P)).1 hb
    obtain ⟨fs2, b1, b2, b3⟩ := (writeFile_spec h3 (PyPath.resolve cwd P ++ [k]) (.data b)).1 (by simp)
      (by rw [List.dropLast_concat]; exact h2.1 _ (List.prefix_refl _)) (by rw [h2.2 _ hkn]; exact hn)
    refine ⟨fs2, ?_, b3, fun q hq => ?_, b2.1, fun q hq hne => ?_⟩
    · simp [writeBytesTo, parent_snoc, h1, resolve_snoc k hk, b1]
    · rw [b2.2 q (hkp q hq)]; exact h2.1 q hq
    · rw [b2.2 q hne]; exact h2.2 q hq
  · intro hb
    by_cases hB : fs.Blocked (PyPath.resolve cwd P)
    · simp [writeBytesTo, parent_snoc, (mkdirs_spec h _).2 hB]
    · have hn := hb.resolve_left hB
      obtain ⟨fs1, h1, h2, h3⟩ := (mkdirs_spec h (PyPath.resolve cwd P)).1 hB
      have := (writeFile_spec h3 (PyPath.resolve cwd P ++ [k]) (.data b)).2 (fun h' => h'.2.2 (by rw [h2.2 _ hkn]; exact hn))
      simp [writeBytesTo, parent_snoc, h1, resolve_snoc k hk, this]

theorem killed_cases {fs s : FS} (b : Bytes) (hk : k ≠ ['.', '.']) (hs : (writeBytesToK cwd ⟨P.root, P.parts ++ [k]⟩ b).killed fs s) :
    s = fs ∨ (∃ q, q <+: PyPath.resolve cwd P ∧ s = (Vista.mkdirs q fs).2) ∨
      ∃ fs1 b' more, Vista.mkdirs (PyPath.resolve cwd P) fs = (.ok (), fs1) ∧ b = b' ++ more ∧
        s = (Vista.writeFile (PyPath.resolve cwd P ++ [k]) (.data b') fs1).2 := by
  rcases hs with hs | ⟨a, fs1, hr, hs⟩
  · replace hs : s = fs ∨ ∃ q, q <+: PyPath.resolve cwd (PyPath.parent ⟨P.root, P.parts ++ [k]⟩) ∧ s = (Vista.mkdirs q fs).2 := hs
    rw [parent_snoc] at hs
    rcases hs with hs | hs
    · exact .inl hs
    · exact .inr (.inl hs)
  · replace hr : Vista.mkdirs (PyPath.resolve cwd (PyPath.parent ⟨P.root, P.parts ++ [k]⟩)) fs = (.ok a, fs1) := hr
    rw [parent_snoc] at hr
    replace hs : s = fs1 ∨ ∃ b' rest, b = b' ++ rest ∧
      s = (Vista.writeFile (PyPath.resolve cwd ⟨P.root, P.parts ++ [k]⟩) (.data b') fs1).2 := hs
    rcases hs with hs | ⟨b', more, hb, hs⟩
    · exact .inr (.inl ⟨_, List.prefix_refl _, by rw [hr, hs]⟩)
    · rw [resolve_snoc k hk] at hs
      exact .inr (.inr ⟨fs1, b', more, hr, hb, hs⟩)

/-- Writing text or bytes to a file and being killed at any point of it: directories on the way to the file may have been made, the file is
as before or holds a beginning of what was to be written, and nothing else is changed. -/
theorem C93_killed (fs : FS) (h : fs.Tree) (hk : k ≠ ['.', '.']) (b : Bytes) (s : FS)
    (hs : (writeBytesToK cwd ⟨P.root, P.parts ++ [k]⟩ b).killed fs s) : s.Tree ∧ Torn fs (PyPath.resolve cwd P) k b s := by
  have hkn : ¬ PyPath.resolve cwd P ++ [k] <+: PyPath.resolve cwd P := fun h => by have := h.length_le; simp at this; omega
  rcases killed_cases b hk hs with rfl | ⟨q, hq, rfl⟩ | ⟨fs1, b', more, hr, hb, rfl⟩
  · exact ⟨h, fun _ _ => .inl rfl, .inl rfl⟩
  · obtain ⟨h1, h2, -⟩ := mkdirs_any h hq
    exact ⟨h1, fun q _ => h2 q, .inl ((h2 _).resolve_right fun h => hkn h.1)⟩
  · obtain ⟨h1, h2, -⟩ := mkdirs_any h (List.prefix_refl (PyPath.resolve cwd P))
    rw [hr] at h1 h2
    by_cases hc : PyPath.resolve cwd P ++ [k] ≠ [] ∧ fs1.node (PyPath.resolve cwd P ++ [k]).dropLast = some .dir ∧
        fs1.node (PyPath.resolve cwd P ++ [k]) ≠ some .dir
    · obtain ⟨fs2, c1, c2, c3⟩ := (writeFile_spec h1 (PyPath.resolve cwd P ++ [k]) (.data b')).1 hc.1 hc.2.1 hc.2.2
      rw [c1]
      refine ⟨c3, fun q hq => ?_, .inr ⟨b', more, hb, c2.1⟩⟩
      rw [show fs2.node q = fs1.node q from c2.2 q hq]
      exact h2 q
    · rw [(writeFile_spec h1 (PyPath.resolve cwd P ++ [k]) (.data b')).2 hc]
      exact ⟨h1, fun q _ => h2 q, .inl ((h2 _).resolve_right fun h => hkn h.1)⟩

/-- If the write would have succeeded, then after a kill it succeeds when it is run again, and what is there then is what would be there had
it not been killed. -/
theorem C93_again (fs fs' : FS) (h : fs.Tree) (hk : k ≠ ['.', '.']) (b : Bytes) (s : FS)
    (hs : (writeBytesToK cwd ⟨P.root, P.parts ++ [k]⟩ b).killed fs s) (hok : writeBytesTo cwd ⟨P.root, P.parts ++ [k]⟩ b fs = (.ok (), fs')) :
    ∃ s', writeBytesTo cwd ⟨P.root, P.parts ++ [k]⟩ b s = (.ok (), s') ∧ ∀ q, s'.node q = fs'.node q := by
  have hcond : ¬ (fs.Blocked (PyPath.resolve cwd P) ∨ fs.node (PyPath.resolve cwd P ++ [k]) = some .dir) := by
    intro hc
    have := (writeBytesTo_iff h hk b).2 hc
    rw [hok] at this
    cases this
  push Not at hcond
  obtain ⟨ht, htorn⟩ := C93_killed fs h hk b s hs
  have hb : ¬ s.Blocked (PyPath.resolve cwd P) := by
    rintro ⟨q, c, hq, hc⟩
    have hne : q ≠ PyPath.resolve cwd P ++ [k] := by
      rintro rfl
      have := hq.length_le
      simp at this; omega
    rcases htorn.elsewhere q hne with h' | ⟨-, -, h'⟩
    · exact hcond.1 ⟨q, c, hq, by rw [← h', hc]⟩
    · rw [h'] at hc; cases hc
  have hn : s.node (PyPath.resolve cwd P ++ [k]) ≠ some .dir := by
    rcases htorn.file with h' | ⟨b', more, -, h'⟩
    · rw [h']; exact hcond.2
    · rw [h']; simp
  obtain ⟨s', a1, -, a3, a4, a5⟩ := (writeBytesTo_iff (cwd := cwd) (P := P) ht hk b).1 hb hn
  obtain ⟨fs1, e1, -, e3, e4, e5⟩ := (writeBytesTo_iff h hk b).1 hcond.1 hcond.2
  rw [hok] at e1
  obtain rfl : fs' = fs1 := (Prod.mk.inj e1).2
  refine ⟨s', a1, fun q => ?_⟩
  by_cases hq : q <+: PyPath.resolve cwd P
  · rw [a3 q hq, e3 q hq]
  · by_cases hqk : q = PyPath.resolve cwd P ++ [k]
    · rw [hqk, a4, e4]
    · rw [a5 q hq hqk, e5 q hq hqk]
      rcases htorn.elsewhere q hqk with h' | ⟨h', -⟩
      · exact h'
      · exact absurd h' hq

/-- If the write would have raised, then a kill leaves all as before. -/
theorem C93_raises (fs fs' : FS) (e : Exc) (h : fs.Tree) (hk : k ≠ ['.', '.']) (b : Bytes) (s : FS)
    (hs : (writeBytesToK cwd ⟨P.root, P.parts ++ [k]⟩ b).killed fs s) (herr : writeBytesTo cwd ⟨P.root, P.parts ++ [k]⟩ b fs = (.error e, fs')) :
    ∀ q, s.node q = fs.node q := by
  have hcond : fs.Blocked (PyPath.resolve cwd P) ∨ fs.node (PyPath.resolve cwd P ++ [k]) = some .dir := by
    by_contra hc
    push Not at hc
    obtain ⟨_, h1, -⟩ := (writeBytesTo_iff (cwd := cwd) (P := P) h hk b).1 hc.1 hc.2
    rw [herr] at h1
    cases (Prod.mk.inj h1).1
  have hmk : ∀ q, q <+: PyPath.resolve cwd P → ∀ r, (Vista.mkdirs q fs).2.node r = fs.node r := by
    intro q hq r
    rcases hcond with hc | hc
    · exact (mkdirs_any h hq).2.2 hc r
    · rcases (mkdirs_any h hq).2.1 r with h' | ⟨h1, h2, -⟩
      · exact h'
      · have := h.dir_of_prefix (h1.trans (List.prefix_append _ [k])) (by
          rintro rfl
          have := h1.length_le
          simp at this; omega) (by rw [hc]; simp)
        rw [h2] at this
        cases this
  rcases killed_cases b hk hs with rfl | ⟨q, hq, rfl⟩ | ⟨fs1, b', more, hr, hb, rfl⟩
  · exact fun _ => rfl
  · exact hmk q hq
  · have hn := hmk _ (List.prefix_refl _)
    have ht := (mkdirs_any h (List.prefix_refl (PyPath.resolve cwd P))).1
    have hB : ¬ fs.Blocked (PyPath.resolve cwd P) := by
      intro hB
      rw [(mkdirs_spec h _).2 hB] at hr
      cases hr
    rw [hr] at hn ht
    rw [(writeFile_spec ht (PyPath.resolve cwd P ++ [k]) (.data b')).2 (fun h' => h'.2.2 (by rw [show fs1.node _ = _ from hn _]; exact hcond.resolve_left hB))]
    exact hn

end

/-! ## Examples -/

namespace CrashFileExample
open DocMapExample

/-- A file with the text `old` in it. -/
def fs : FS := [(["home".toList], .dir), (["home".toList, "f".toList], .file (.data (encodeUtf8 "old".toList)))]

theorem tree : fs.Tree where
  parents q n h := by
    rcases (FS.node_ne_none_iff fs _).1 h with h' | h'
    · simp at h'
    · simp only [fs, List.map_cons, List.map_nil, List.mem_cons, List.not_mem_nil, or_false] at h'
      have key : ∀ l : Loc, q ++ [n] = l → q = l.dropLast := fun l hl => by rw [← hl]; simp
      rcases h' with h' | h' <;> rw [key _ h'] <;> exact (FS.isDir_iff _ _).1 (by decide +kernel)
  root := by decide +kernel

def text : Bytes := encodeUtf8 "new".toList

def afterDirs (p : PyPath) : FS := (Vista.mkdirs (PyPath.resolve home p) fs).2

theorem torn (p : PyPath) (k : Str) (h : (Vista.mkdirs (PyPath.resolve home p) fs).1.toOption = some ()) {b more : Bytes} (hb : text = b ++ more) :
    (writeBytesToK home ⟨p.root, p.parts ++ [k]⟩ text).killed fs (Vista.writeFile (PyPath.resolve home ⟨p.root, p.parts ++ [k]⟩) (.data b) (afterDirs p)).2 := by
  refine .inr ⟨(), afterDirs p, ?_, .inr ⟨b, more, hb, rfl⟩⟩
  show Vista.mkdirs (PyPath.resolve home (PyPath.parent ⟨p.root, p.parts ++ [k]⟩)) fs = _
  rw [parent_snoc]
  exact CrashDirExample.ran h

def cur : PyPath := ⟨[], []⟩
def sub : PyPath := ⟨[], ["x".toList, "y".toList]⟩

/-- The hypotheses of `C93_killed` and `C93_again`: the file is overwritten, or written with its directories. -/
example : ∃ s s', (writeBytesToK home ⟨cur.root, cur.parts ++ ["f".toList]⟩ text).killed fs s ∧
    writeBytesTo home ⟨cur.root, cur.parts ++ ["f".toList]⟩ text s = (.ok (), s') := by
  have h := torn cur "f".toList (by decide +kernel) (b := encodeUtf8 "ne".toList) (more := encodeUtf8 "w".toList) (by decide +kernel)
  obtain ⟨s', h1, -⟩ := C93_again (cwd := home) (P := cur) fs _ tree (by decide) text _ h (CrashDirExample.ran (by decide +kernel))
  exact ⟨_, s', h, h1⟩
example : ∃ s s', (writeBytesToK home ⟨sub.root, sub.parts ++ ["f".toList]⟩ text).killed fs s ∧
    writeBytesTo home ⟨sub.root, sub.parts ++ ["f".toList]⟩ text s = (.ok (), s') := by
  have h := torn sub "f".toList (by decide +kernel) (b := encodeUtf8 "ne".toList) (more := encodeUtf8 "w".toList) (by decide +kernel)
  obtain ⟨s', h1, -⟩ := C93_again (cwd := home) (P := sub) fs _ tree (by decide) text _ h (CrashDirExample.ran (by decide +kernel))
  exact ⟨_, s', h, h1⟩

/-- The hypotheses of `C93_raises`: a file is in the way of the directories. -/
example : ∃ s, (writeBytesToK home ⟨[], ["f".toList] ++ ["g".toList]⟩ text).killed fs s ∧
    ∃ e fs', writeBytesTo home ⟨[], ["f".toList] ++ ["g".toList]⟩ text fs = (.error e, fs') := by
  refine ⟨fs, .inl (.inl rfl), .ioError, (writeBytesTo home ⟨[], ["f".toList] ++ ["g".toList]⟩ text fs).2, Prod.ext ?_ rfl⟩
  exact Checkpoints.CrashExample.unit_error (by decide +kernel)

/-- Not atomic: the old content is gone, and of the new there is nothing yet. -/
theorem _root_.Vista.C93_old_content_counterexample :
    ∃ s, (writeBytesToK home ⟨cur.root, cur.parts ++ ["f".toList]⟩ text).killed fs s ∧
      (readData ["home".toList, "f".toList] fs).1.toOption = some (encodeUtf8 "old".toList) ∧
      (readData ["home".toList, "f".toList] s).1.toOption = some ByteArray.empty :=
  ⟨_, torn cur "f".toList (by decide +kernel) (b := ByteArray.empty) (more := text) (by decide +kernel), by decide +kernel, by decide +kernel⟩

end CrashFileExample
end Vista
