import Verif.Proofs.FileSystem
import Verif.Spec.Params
import Verif.Spec.FileSystem
import Mathlib.Data.List.Infix

/-!
# Checks for concrete parameters and file systems, used by the examples
-/
namespace Vista

theorem flat_wf (pfx : List Str) (es : Entries) (h : (es.map (·.1)).Nodup)
    (h' : (es.all fun e => decide ('.' ∉ e.1) && !e.2.isParams && !e.2.isMapping) = true) : (Params.mk pfx es).WF := by
  simp only [List.all_eq_true, Bool.and_eq_true, Bool.not_eq_true', decide_eq_true_eq] at h'
  exact .params h (fun e he => (h' e he).1.1) fun e he => .leaf ⟨(h' e he).1.2, (h' e he).2⟩

theorem tree_of_check {fs : FS} (h : (fs.all fun e => decide (e.1 ≠ []) && fs.isDir e.1.dropLast) = true) : fs.Tree := by
  simp only [List.all_eq_true, Bool.and_eq_true, decide_eq_true_eq, FS.isDir_iff] at h
  refine ⟨fun q n hn => ?_, fun hm => ?_⟩
  · rcases (FS.node_ne_none_iff fs _).1 hn with h' | h'
    · simp at h'
    · obtain ⟨e, he, h1⟩ := List.mem_map.1 h'
      have := (h e he).2
      rwa [h1, List.dropLast_concat] at this
  · obtain ⟨e, he, h1⟩ := List.mem_map.1 hm
    exact (h e he).1 h1

theorem not_blocked_of_check {fs : FS} {l : Loc} (h : (l.inits.all fun q => !fs.isFile q) = true) : ¬ fs.Blocked l := by
  rintro ⟨q, c, hq, hc⟩
  simp only [List.all_eq_true, Bool.not_eq_true', List.mem_inits] at h
  have := h q hq
  rw [Bool.eq_false_iff, ne_eq, FS.isFile_iff] at this
  exact this ⟨c, hc⟩

theorem not_dir_of_check {fs : FS} {l : Loc} (h : fs.isDir l = false) : fs.node l ≠ some .dir := by
  rw [Bool.eq_false_iff, ne_eq, FS.isDir_iff] at h; exact h

end Vista
