import Verif.Proofs.InterpolateBuilt

/-!
# Interpolation: the order of the parameters
-/
set_option linter.unusedSectionVars false
set_option linter.unusedSimpArgs false
namespace Vista
namespace Interp
open PVal Params

theorem dictify_truthy (v : PVal) : (dictify v).truthy = true ↔ ¬ v.Falsy ∧ ∀ pfx, v ≠ .params pfx [] := by
  cases v with
  | params pfx es =>
    have hf : ¬ (PVal.params pfx es).Falsy := fun h => by cases h
    cases es <;> simp [dictify, dictifyEntries, PVal.truthy, hf]
  | _ => simp [dictify, truthy_iff]

theorem nodup_split_unique {α : Type} {a a' x x' : List α} {n : α} (hn : (a ++ n :: x).Nodup) (h : a ++ n :: x = a' ++ n :: x') :
    a = a' ∧ x = x' := by
  induction a generalizing a' with
  | nil =>
    cases a' with
    | nil => simpa using h
    | cons b a' =>
      simp only [List.nil_append, List.cons_append, List.cons.injEq] at h
      obtain ⟨rfl, rfl⟩ := h
      simp at hn
  | cons b a ih =>
    cases a' with
    | nil =>
      simp only [List.nil_append, List.cons_append, List.cons.injEq] at h
      obtain ⟨rfl, rfl⟩ := h
      simp at hn
    | cons b' a' =>
      simp only [List.cons_append, List.cons.injEq] at h
      obtain ⟨rfl, h⟩ := h
      obtain ⟨rfl, rfl⟩ := ih (by simp only [List.cons_append, List.nodup_cons] at hn; exact hn.2) h
      exact ⟨rfl, rfl⟩

theorem env0 {file : Params} (h : file.Tree) : Env file (store0 file) := ⟨h, .refl _, store0_valid h⟩

theorem truthy_at {file : Params} (h : file.Tree) {q : List Str} (hq : q ≠ []) :
    truthy (store0 file) (at? (store0 file) q) = true ↔ ∃ v, file.toVal.Reaches q v ∧ (dictify v).truthy = true := by
  have key : ∀ v, file.toVal.Reaches q v → (truthy (store0 file) (at? (store0 file) q) = true ↔ (dictify v).truthy = true) := by
    intro v hv
    have h0 := (store0_get h q _).2 ⟨hq, v, hv, rfl⟩
    simp only [at?, h0, Option.getD_some]
    rcases v.shape with hl | ⟨es, rfl⟩ | ⟨pfx, es, rfl⟩
    · rw [dictify_leaf hl]
      simp [cellOf, hl.1, truthy]
    · exact absurd (PVal.Tree.reaches h hv).not_mapping (by simp [isMapping])
    · have hc : cellOf q (.params pfx es) = .ns q := by simp [cellOf, isParams]
      rw [hc, truthy_ns (env0 h) hv]
      simp only [dictify, PVal.truthy, dictifyEntries_eq]
      cases es <;> simp
  constructor
  · intro ht
    cases hg : dictGet (store0 file) q with
    | none => simp [at?, hg, truthy, PVal.truthy] at ht
    | some c =>
      obtain ⟨-, v, hv, -⟩ := (store0_get h q c).1 hg
      exact ⟨v, hv, (key v hv).1 ht⟩
  · rintro ⟨v, hv, ht⟩
    exact (key v hv).2 ht

section
variable {word : Char → Bool}

theorem clear_of_mentions {file : Params} (h : file.Tree) (hnl : NoneThroughLeaf word file) {path : List Str} {s m : Str}
    (hr : file.toVal.Reaches path (.str s)) (hm : Mentions word s m) : Clear (store0 file) (splitOn '.' m) := by
  intro a b hab _ hb c hc
  obtain ⟨-, v, hv, rfl⟩ := (store0_get h a c).1 hc
  have := hnl path s m hr hm a b v hab hb hv
  simp [cellOf, this]

/-- The graph is the one described by `DependsOn`, and the sort gives an order to work in. -/
theorem plan (hw : word '%' = false) {file : Params} (hf : file.Loaded) (hnl : NoneThroughLeaf word file) :
    ∃ nodes edges g, gather word (store0 file) file.namespacedItems = .ok (nodes, edges) ∧ Digraph.new nodes edges = .ok g ∧
      (g.topologicalSort.raised ≠ Option.none ↔ Cyclic word file) ∧
      (∀ e named, g.topologicalSort.raised = some (e, named) → e = .parameterInterpolationError) ∧
      (g.topologicalSort.raised = Option.none → Plan word (store0 file) g.topologicalSort.yielded.reverse) := by
  have ht : file.Tree := ((loaded_iff file).1 hf).tree
  have hitems : ∀ k s, (k, PVal.str s) ∈ file.namespacedItems ↔ file.toVal.Reaches (splitOn '.' k) (.str s) := by
    intro k s
    rw [C43_items file hf]
    simp [isParams]
  obtain ⟨nodes, edges, h1, h2, h3⟩ := gather_spec (word := word) (store0 file) (fun m => at? (store0 file) (splitOn '.' m))
    file.namespacedItems (by
      intro k s hk m hm
      have := clear_of_mentions ht hnl ((hitems k s).1 hk) ((placeholders_iff hw s m).1 hm)
      unfold root
      rw [getFrom_clear (.refl _) (store0_closed ht) _ _ (splitOn_ne_nil _ _) (by simpa using this)]
      simp)
  have hedge : ∀ k m, (k, m) ∈ edges ↔ DependsOn word file k m := by
    intro k m
    rw [h2]
    constructor
    · rintro ⟨s, a, b, c⟩
      obtain ⟨v, hv, hv'⟩ := (truthy_at ht (splitOn_ne_nil _ _)).1 c
      exact ⟨s, v, (hitems k s).1 a, (placeholders_iff hw s m).1 b, hv, (dictify_truthy v).1 hv'⟩
    · rintro ⟨s, v, a, b, hv, hv'⟩
      exact ⟨s, (hitems k s).2 a, (placeholders_iff hw s m).2 b, (truthy_at ht (splitOn_ne_nil _ _)).2 ⟨v, hv, (dictify_truthy v).2 hv'⟩⟩
  obtain ⟨g, hg⟩ := (Digraph.C40_constructor nodes edges).2 (by
    rintro ⟨k, m⟩ he
    obtain ⟨s, a, b, -⟩ := (h2 k m).1 he
    exact ⟨(h3 k).2 (.inl ⟨s, m, a, b⟩), (h3 m).2 (.inr ⟨k, he⟩)⟩)
  obtain ⟨c1, c2, -⟩ := Digraph.C40_raises_iff_cyclic nodes edges g hg
  have hrel : Digraph.HasEdge edges = DependsOn word file := by
    funext k m; exact propext (hedge k m)
  refine ⟨nodes, edges, g, h1, hg, ?_, fun e named h => (c2 e named h).1, ?_⟩
  · rw [c1]
    unfold Digraph.Cyclic Cyclic
    rw [hrel]
  · intro hr
    have hto := Digraph.C39_linear_extension nodes edges g hg hr
    refine ⟨(List.reverse_perm _).nodup_iff.2 hto.nodup, ?_, ?_, ?_⟩
    · intro n hn
      rw [List.mem_reverse, hto.nodes, h3] at hn
      rcases hn with ⟨s, m, a, b⟩ | ⟨k, he⟩
      · have hr := (hitems n s).1 a
        refine ⟨store0_clear_of_reaches ht hr, _, (store0_get ht _ _).2 ⟨splitOn_ne_nil _ _, _, hr, rfl⟩, ?_⟩
        exact str_truthy_of_mentions ((placeholders_iff hw s m).1 b)
      · obtain ⟨s, v, a, b, hv, hv'⟩ := (hedge k n).1 he
        have h0 := (store0_get ht _ _).2 ⟨splitOn_ne_nil '.' n, v, hv, rfl⟩
        refine ⟨store0_clear_of_reaches ht hv, _, h0, ?_⟩
        have := (truthy_at ht (splitOn_ne_nil '.' n)).2 ⟨v, hv, (dictify_truthy v).2 hv'⟩
        simpa [at?, h0] using this
    · intro q s m hq hm
      obtain ⟨hne, v, hv, hc⟩ := (store0_get ht _ _).1 hq
      have hv' : v = .str s := by
        unfold cellOf at hc
        split at hc
        · simp at hc
        · simpa using hc.symm
      subst hv'
      have hs := splitOn_joinWith hne (reaches_dotfree (PVal.Tree.wf ht) hv)
      refine ⟨⟨joinWith '.' q, ?_, hs⟩, clear_of_mentions ht hnl hv hm⟩
      rw [List.mem_reverse, hto.nodes, h3]
      exact .inl ⟨s, m, (hitems _ _).2 (hs.symm ▸ hv), (placeholders_iff hw s m).2 hm⟩
    · intro D n rest hL s m hs hm htr
      obtain ⟨-, v, hv, hc⟩ := (store0_get ht _ _).1 hs
      have hv' : v = .str s := by
        unfold cellOf at hc
        split at hc
        · simp at hc
        · simpa using hc.symm
      subst hv'
      have he : (n, m) ∈ edges := by
        rw [hedge]
        obtain ⟨v, hv1, hv2⟩ := (truthy_at ht (splitOn_ne_nil _ _)).1 htr
        exact ⟨s, v, hv, hm, hv1, (dictify_truthy v).1 hv2⟩
      obtain ⟨a, b, c, habc⟩ := hto.forward n m he
      have hL' : g.topologicalSort.yielded = rest.reverse ++ n :: D.reverse := by
        have := congrArg List.reverse hL
        simpa using this
      have hnd := hto.nodup
      rw [hL'] at hnd habc
      have := (nodup_split_unique hnd habc).2
      have hm' : m ∈ D.reverse := by rw [this]; simp
      simpa using hm'

end
end Interp
end Vista
