import Mathlib.Logic.Relation
import Verif.Proofs.PyDict
import Verif.Model.Graph

/-!
# Properties C39-C40: topological sorting
-/
set_option linter.unusedSectionVars false
namespace Vista
namespace Digraph
variable {N : Type} [DecidableEq N]
open Relation

/-! ## Specification -/

/-- There is an edge from `u` to `v` among the edges the graph was built from. -/
def HasEdge (edges : List (N × N)) (u v : N) : Prop := (u, v) ∈ edges

/-- The graph has a directed cycle. -/
def Cyclic (edges : List (N × N)) : Prop := ∃ n, TransGen (HasEdge edges) n n

/-- `u` comes strictly before `v` in the list. -/
def ComesBefore (l : List N) (u v : N) : Prop := ∃ a b c, l = a ++ u :: (b ++ v :: c)

/-- `l` is a linear extension of the graph: every node once, every edge forward. -/
structure IsTopologicalOrder (nodes : List N) (edges : List (N × N)) (l : List N) : Prop where
  nodup : l.Nodup
  nodes : ∀ n, n ∈ l ↔ n ∈ nodes
  forward : ∀ u v, (u, v) ∈ edges → ComesBefore l u v

/-! ## The graph built -/

theorem mem_dedup {α : Type} [DecidableEq α] (l : List α) (x : α) : x ∈ dedup l ↔ x ∈ l := by
  induction l with
  | nil => rfl
  | cons y l ih =>
    simp only [dedup, List.mem_cons, List.mem_filter, ih, decide_eq_true_eq]
    by_cases h : x = y <;> simp [h]

theorem nodup_dedup {α : Type} [DecidableEq α] (l : List α) : (dedup l).Nodup := by
  induction l with
  | nil => exact .nil
  | cons y l ih =>
    simp only [dedup, List.nodup_cons, List.mem_filter, decide_eq_true_eq]
    exact ⟨fun h => h.2 rfl, ih.filter _⟩

/-- A graph the constructor returned. -/
structure Ok (g : Digraph N) : Prop where
  nodesNodup : g.nodes.Nodup
  edgesNodup : g.edges.Nodup
  endpoints : ∀ e ∈ g.edges, e.1 ∈ g.nodes ∧ e.2 ∈ g.nodes

theorem new_ok {nodes : List N} {edges : List (N × N)} {g : Digraph N} (h : Digraph.new nodes edges = .ok g) :
    Ok g ∧ (∀ n, n ∈ g.nodes ↔ n ∈ nodes) ∧ (∀ e, e ∈ g.edges ↔ e ∈ edges) := by
  unfold Digraph.new at h
  simp only at h
  split at h
  · rename_i hall
    simp only [Except.ok.injEq] at h
    subst h
    refine ⟨⟨nodup_dedup _, nodup_dedup _, ?_⟩, mem_dedup _, mem_dedup _⟩
    intro e he
    have := List.all_eq_true.1 hall e he
    simpa using this
  · cases h

theorem mem_succ (g : Digraph N) (n c : N) : c ∈ g.succ n ↔ (n, c) ∈ g.edges := by
  simp only [succ, List.mem_map, List.mem_filter, decide_eq_true_eq]
  constructor
  · rintro ⟨⟨a, b⟩, ⟨h1, rfl⟩, rfl⟩; exact h1
  · intro h; exact ⟨(n, c), ⟨h, rfl⟩, rfl⟩

theorem mem_pred (g : Digraph N) (n c : N) : c ∈ g.pred n ↔ (c, n) ∈ g.edges := by
  simp only [pred, List.mem_map, List.mem_filter, decide_eq_true_eq]
  constructor
  · rintro ⟨⟨a, b⟩, ⟨h1, rfl⟩, rfl⟩; exact h1
  · intro h; exact ⟨(c, n), ⟨h, rfl⟩, rfl⟩

theorem nodup_succ {g : Digraph N} (h : Ok g) (n : N) : (g.succ n).Nodup := by
  unfold succ
  refine List.pairwise_map.2 (List.Pairwise.imp_of_mem ?_ (h.edgesNodup.filter _))
  intro a b ha hb hab heq
  have e1 := (List.mem_filter.1 ha).2
  have e2 := (List.mem_filter.1 hb).2
  simp only [decide_eq_true_eq] at e1 e2
  exact hab (Prod.ext (e1.trans e2.symm) heq)

theorem nodup_pred {g : Digraph N} (h : Ok g) (n : N) : (g.pred n).Nodup := by
  unfold pred
  refine List.pairwise_map.2 (List.Pairwise.imp_of_mem ?_ (h.edgesNodup.filter _))
  intro a b ha hb hab heq
  have e1 := (List.mem_filter.1 ha).2
  have e2 := (List.mem_filter.1 hb).2
  simp only [decide_eq_true_eq] at e1 e2
  exact hab (Prod.ext heq (e1.trans e2.symm))

/-! ## The dictionary operations -/

theorem lookup_dictDel {V : Type} (k : N) {d : List (N × V)} (hd : (d.map (·.1)).Nodup) (k' : N) :
    (dictDel k d).lookup k' = if k' = k then none else d.lookup k' := by
  induction d with
  | nil => simp [dictDel]
  | cons e d ih =>
    obtain ⟨a, b⟩ := e
    simp only [List.map_cons, List.nodup_cons] at hd
    unfold dictDel
    by_cases hk : a = k
    · subst hk
      rw [if_pos rfl]
      by_cases h : k' = a
      · subst h
        rw [if_pos rfl, lookup_none_iff]; exact hd.1
      · have : (k' == a) = false := by simpa using h
        rw [if_neg h]; simp [List.lookup, this]
    · rw [if_neg hk]
      by_cases h : k' = a
      · subst h; simp [List.lookup, hk]
      · have : (k' == a) = false := by simpa using h
        simp only [List.lookup, this]
        exact ih hd.2

theorem keys_dictDel_perm {V : Type} (k : N) (v : V) (d : List (N × V)) (h : d.lookup k = some v) :
    (d.map (·.1)).Perm (k :: (dictDel k d).map (·.1)) := by
  induction d with
  | nil => simp at h
  | cons e d ih =>
    obtain ⟨a, b⟩ := e
    unfold dictDel
    by_cases hk : a = k
    · subst hk; rw [if_pos rfl]; exact .refl _
    · rw [if_neg hk]
      have : (k == a) = false := by simpa using Ne.symm hk
      simp only [List.lookup, this] at h
      simp only [List.map_cons]
      exact ((ih h).cons a).trans (.swap k a _)

theorem keys_dictSet_eq {V : Type} (k : N) (v w : V) (d : List (N × V)) (h : d.lookup k = some v) :
    (dictSet k w d).map (·.1) = d.map (·.1) := by
  induction d with
  | nil => simp at h
  | cons e d ih =>
    obtain ⟨a, b⟩ := e
    unfold dictSet
    by_cases hk : a = k
    · subst hk; rw [if_pos rfl]; rfl
    · rw [if_neg hk]
      have : (k == a) = false := by simpa using Ne.symm hk
      simp only [List.lookup, this] at h
      simp only [List.map_cons, ih h]

/-- The effect of the inner loop. -/
theorem processChildren_spec (cs : List N) (hcs : cs.Nodup) (indeg : List (N × Nat)) (stack : List N)
    (hk : (indeg.map (·.1)).Nodup) (hin : ∀ c ∈ cs, ∃ d, indeg.lookup c = some (d + 1)) :
    ∃ indeg' stack', processChildren cs indeg stack = .ok (indeg', stack') ∧
      (indeg'.map (·.1)).Nodup ∧ (stack' ++ indeg'.map (·.1)).Perm (stack ++ indeg.map (·.1)) ∧
      (∀ v, v ∈ stack' ↔ v ∈ stack ∨ (v ∈ cs ∧ indeg.lookup v = some 1)) ∧
      (∀ v, v ∉ cs → indeg'.lookup v = indeg.lookup v) ∧
      (∀ v ∈ cs, ∀ d, indeg.lookup v = some (d + 1) → indeg'.lookup v = if d = 0 then none else some d) := by
  induction cs generalizing indeg stack with
  | nil => exact ⟨indeg, stack, rfl, hk, .refl _, by simp, by simp, by simp⟩
  | cons c cs ih =>
    rw [List.nodup_cons] at hcs
    obtain ⟨d, hd⟩ := hin c (by simp)
    unfold processChildren
    simp only [hd, Nat.add_sub_cancel]
    by_cases h0 : d = 0
    · subst h0
      rw [if_pos rfl]
      have hperm := keys_dictDel_perm c 1 indeg hd
      have hk' : ((dictDel c indeg).map (·.1)).Nodup := by
        have := hperm.nodup_iff.1 hk
        exact (List.nodup_cons.1 this).2
      have hl := lookup_dictDel c hk
      have hother : ∀ v, v ≠ c → (dictDel c indeg).lookup v = indeg.lookup v := fun v hv => by rw [hl, if_neg hv]
      obtain ⟨i', s', h1, h2, h3, h4, h5, h6⟩ := ih hcs.2 (dictDel c indeg) (c :: stack) hk' (fun x hx => by
        rw [hother x (fun e => hcs.1 (e ▸ hx))]
        exact hin x (by simp [hx]))
      refine ⟨i', s', h1, h2, ?_, ?_, ?_, ?_⟩
      · refine h3.trans ?_
        refine List.Perm.trans ?_ (hperm.symm.append_left stack)
        exact List.perm_middle.symm
      · intro v
        rw [h4]
        by_cases hvc : v = c
        · subst hvc; simp [hd]
        · rw [hother v hvc]; simp [hvc]
      · intro v hv
        simp only [List.mem_cons, not_or] at hv
        rw [h5 v hv.2, hother v hv.1]
      · intro v hv d' hd'
        by_cases hvc : v = c
        · subst hvc
          rw [hd] at hd'
          have : d' = 0 := by simpa using hd'.symm
          subst this
          rw [h5 v hcs.1, hl]; simp
        · have hv' : v ∈ cs := by simpa [hvc] using hv
          exact h6 v hv' d' (by rw [hother v hvc]; exact hd')
    · rw [if_neg h0]
      have hl := lookup_dictSet c d indeg
      have hother : ∀ v, v ≠ c → (dictSet c d indeg).lookup v = indeg.lookup v := fun v hv => by rw [hl, if_neg hv]
      have hkeys := keys_dictSet_eq c (d + 1) d indeg hd
      obtain ⟨i', s', h1, h2, h3, h4, h5, h6⟩ := ih hcs.2 (dictSet c d indeg) stack (by rw [hkeys]; exact hk) (fun x hx => by
        rw [hother x (fun e => hcs.1 (e ▸ hx))]
        exact hin x (by simp [hx]))
      refine ⟨i', s', h1, h2, by rw [hkeys] at h3; exact h3, ?_, ?_, ?_⟩
      · intro v
        rw [h4]
        by_cases hvc : v = c
        · subst hvc; simp [hd, hcs.1, h0]
        · rw [hother v hvc]; simp [hvc]
      · intro v hv
        simp only [List.mem_cons, not_or] at hv
        rw [h5 v hv.2, hother v hv.1]
      · intro v hv d' hd'
        by_cases hvc : v = c
        · subst hvc
          rw [hd] at hd'
          have : d' = d := by simpa using hd'.symm
          subst this
          rw [h5 v hcs.1, hl]; simp [h0]
        · have hv' : v ∈ cs := by simpa [hvc] using hv
          exact h6 v hv' d' (by rw [hother v hvc]; exact hd')

/-! ## The loop invariant -/

/-- The invariant of the main loop, after yielding `Y`. -/
structure TopoInv (g : Digraph N) (Y : List N) (indeg : List (N × Nat)) (stack : List N) : Prop where
  part : (Y ++ (stack ++ indeg.map (·.1))).Perm g.nodes
  count : ∀ v d, indeg.lookup v = some d → d = ((g.pred v).filter fun u => decide (u ∉ Y)).length ∧ 0 < d
  ready : ∀ v, v ∈ stack ∨ v ∈ Y → ∀ u, (u, v) ∈ g.edges → u ∈ Y
  order : ∀ v ∈ Y, ∀ u, (u, v) ∈ g.edges → ComesBefore Y u v

theorem filter_length_step {l : List N} (hl : l.Nodup) {Y : List N} {n : N} (hn : n ∉ Y) :
    (l.filter fun u => decide (u ∉ Y)).length =
      (l.filter fun u => decide (u ∉ Y ++ [n])).length + if n ∈ l then 1 else 0 := by
  induction l with
  | nil => simp
  | cons a l ih =>
    rw [List.nodup_cons] at hl
    have ih := ih hl.2
    by_cases han : a = n
    · subst han
      have e1 : decide (a ∉ Y) = true := by simpa using hn
      have e2 : decide (a ∉ Y ++ [a]) = false := by simp
      rw [List.filter_cons, e1, List.filter_cons, e2]
      simp only [if_true, Bool.false_eq_true, if_false, List.length_cons, ih, List.mem_cons, true_or]
      rw [if_neg hl.1]
    · have : decide (a ∉ Y ++ [n]) = decide (a ∉ Y) := by
        simp [han]
      rw [List.filter_cons, List.filter_cons, this]
      have hmem : (n ∈ a :: l) ↔ n ∈ l := by simp [Ne.symm han]
      rw [if_congr hmem rfl rfl]
      by_cases ha : decide (a ∉ Y) = true
      · rw [if_pos ha, if_pos ha]; simp only [List.length_cons, ih]; omega
      · rw [if_neg ha, if_neg ha]; exact ih

theorem comesBefore_append {l : List N} {u v : N} (h : ComesBefore l u v) (r : List N) : ComesBefore (l ++ r) u v := by
  obtain ⟨a, b, c, rfl⟩ := h
  exact ⟨a, b, c ++ r, by simp⟩

theorem comesBefore_last {l : List N} {u v : N} (h : u ∈ l) : ComesBefore (l ++ [v]) u v := by
  obtain ⟨a, b, rfl⟩ := List.append_of_mem h
  exact ⟨a, b, [], by simp⟩

theorem lookup_some_key {V : Type} {d : List (N × V)} {k : N} (h : k ∈ d.map (·.1)) : ∃ v, d.lookup k = some v := by
  cases hl : d.lookup k with
  | none => exact absurd h ((lookup_none_iff d k).1 hl)
  | some v => exact ⟨v, rfl⟩

theorem topoInv_step {g : Digraph N} (hg : Ok g) {Y : List N} {indeg : List (N × Nat)} {n : N} {rest : List N}
    (h : TopoInv g Y indeg (n :: rest)) :
    ∃ i' s', processChildren (g.succ n) indeg rest = .ok (i', s') ∧ TopoInv g (Y ++ [n]) i' s' := by
  have hnd : (Y ++ (n :: rest ++ indeg.map (·.1))).Nodup := h.part.nodup_iff.2 hg.nodesNodup
  obtain ⟨-, hnd2, hdisj⟩ := List.nodup_append.1 hnd
  have hnY : n ∉ Y := fun hy => hdisj n hy n (by simp) rfl
  obtain ⟨hsnd, hknd, hsk⟩ := List.nodup_append.1 hnd2
  -- children are still in the map
  have hchild : ∀ c, (n, c) ∈ g.edges → ∃ d, indeg.lookup c = some (d + 1) := by
    intro c hc
    have hcn := (hg.endpoints _ hc).2
    have hmem := h.part.mem_iff.2 hcn
    simp only [List.mem_append] at hmem
    rcases hmem with hm | hm | hm
    · exact absurd (h.ready c (.inr hm) n hc) hnY
    · exact absurd (h.ready c (.inl hm) n hc) hnY
    · obtain ⟨d, hd⟩ := lookup_some_key hm
      have := (h.count c d hd).2
      exact ⟨d - 1, by rw [hd]; congr 1; omega⟩
  obtain ⟨i', s', h1, h2, h3, h4, h5, h6⟩ := processChildren_spec (g.succ n) (nodup_succ hg n) indeg rest hknd
    (fun c hc => hchild c ((mem_succ g n c).1 hc))
  refine ⟨i', s', h1, ?_, ?_, ?_, ?_⟩
  · refine List.Perm.trans ?_ h.part
    rw [List.append_assoc]
    exact (List.Perm.cons n h3).append_left Y
  · intro v d hd
    by_cases hv : v ∈ g.succ n
    · obtain ⟨d', hd'⟩ := hchild v ((mem_succ g n v).1 hv)
      have hr := h6 v hv d' hd'
      rw [hd] at hr
      by_cases hz : d' = 0
      · simp [hz] at hr
      · rw [if_neg hz] at hr
        have hdd : d = d' := by simpa using hr
        subst hdd
        have hc := (h.count v _ hd').1
        rw [filter_length_step (nodup_pred hg v) hnY, if_pos ((mem_pred g v n).2 ((mem_succ g n v).1 hv))] at hc
        omega
    · have hl := h5 v hv
      rw [hd] at hl
      obtain ⟨hc, hp⟩ := h.count v d hl.symm
      rw [filter_length_step (nodup_pred hg v) hnY, if_neg (fun hm => hv ((mem_succ g n v).2 ((mem_pred g v n).1 hm)))] at hc
      exact ⟨by omega, hp⟩
  · intro v hv u hu
    rw [List.mem_append, List.mem_singleton]
    rcases hv with hv | hv
    · rcases (h4 v).1 hv with hv | ⟨hv, h1v⟩
      · exact .inl (h.ready v (.inl (by simp [hv])) u hu)
      · -- v just became ready: its only missing predecessor was n
        by_contra hc
        simp only [not_or] at hc
        have hcount := (h.count v 1 h1v).1
        rw [filter_length_step (nodup_pred hg v) hnY, if_pos ((mem_pred g v n).2 ((mem_succ g n v).1 hv))] at hcount
        have hzero : ((g.pred v).filter fun u => decide (u ∉ Y ++ [n])).length = 0 := by omega
        have hnil := List.length_eq_zero_iff.1 hzero
        rw [List.filter_eq_nil_iff] at hnil
        exact hnil u ((mem_pred g v u).2 hu) (by simp [hc.1, hc.2])
    · rcases List.mem_append.1 hv with hv | hv
      · exact .inl (h.ready v (.inr hv) u hu)
      · simp only [List.mem_singleton] at hv
        subst hv
        exact .inl (h.ready v (.inl (by simp)) u hu)
  · intro v hv u hu
    rcases List.mem_append.1 hv with hv | hv
    · exact comesBefore_append (h.order v hv u hu) _
    · simp only [List.mem_singleton] at hv
      subst hv
      exact comesBefore_last (h.ready v (.inl (by simp)) u hu)

/-- How the loop ends: everything yielded in order, or the nodes left over, each with a predecessor left over. -/
theorem topoLoop_spec {g : Digraph N} (hg : Ok g) (Y : List N) (indeg : List (N × Nat)) (stack : List N)
    (h : TopoInv g Y indeg stack) :
    ∃ ys left, (topoLoop g indeg stack).yielded = ys ∧
      (topoLoop g indeg stack).raised = (if left.isEmpty then none else some (.parameterInterpolationError, left)) ∧
      (Y ++ ys ++ left).Perm g.nodes ∧
      (∀ v ∈ Y ++ ys, ∀ u, (u, v) ∈ g.edges → ComesBefore (Y ++ ys) u v) ∧
      (∀ v ∈ left, ∃ u ∈ left, (u, v) ∈ g.edges) := by
  induction hm : indeg.length + stack.length using Nat.strong_induction_on generalizing Y indeg stack with
  | _ m ih =>
  cases stack with
  | nil =>
    refine ⟨[], indeg.map (·.1), by unfold topoLoop; rfl, ?_, ?_, ?_, ?_⟩
    · unfold topoLoop; simp
    · have := h.part; simpa using this
    · simpa using h.order
    · intro v hv
      obtain ⟨d, hd⟩ := lookup_some_key hv
      obtain ⟨h1, h2⟩ := h.count v d hd
      obtain ⟨u, hu⟩ : ∃ u, u ∈ (g.pred v).filter fun u => decide (u ∉ Y) := by
        cases hf : (g.pred v).filter fun u => decide (u ∉ Y) with
        | nil => rw [hf] at h1; simp at h1; omega
        | cons u l => exact ⟨u, by simp⟩
      obtain ⟨hu1, hu2⟩ := List.mem_filter.1 hu
      have hue := (mem_pred g v u).1 hu1
      have := h.part.mem_iff.2 (hg.endpoints _ hue).1
      simp only [List.nil_append, List.mem_append] at this
      rcases this with hY | hk
      · simp only [decide_eq_true_eq] at hu2; exact absurd hY hu2
      · exact ⟨u, hk, hue⟩
  | cons n rest =>
    obtain ⟨i', s', h1, h2⟩ := topoInv_step hg h
    have hsize := processChildren_size _ _ _ _ h1
    simp only [List.length_cons] at hm
    obtain ⟨ys, left, g1, g2, g3, g4, g5⟩ := ih (i'.length + s'.length) (by simp only at hsize; omega) (Y ++ [n]) i' s' h2 rfl
    have hstep : topoLoop g indeg (n :: rest) = ⟨n :: (topoLoop g i' s').yielded, (topoLoop g i' s').raised⟩ := by
      rw [topoLoop]
      split
      · rename_i e he; rw [h1] at he; cases he
      · rename_i r hr
        rw [h1] at hr
        simp only [Except.ok.injEq] at hr
        subst hr; rfl
    refine ⟨n :: ys, left, by rw [hstep]; simp [g1], by rw [hstep]; exact g2, ?_, ?_, g5⟩
    · have e : Y ++ n :: ys ++ left = Y ++ [n] ++ ys ++ left := by simp
      rw [e]; exact g3
    · have e : Y ++ n :: ys = Y ++ [n] ++ ys := by simp
      rw [e]; exact g4

theorem lookup_filter_map {g : Digraph N} {p : Nat → Bool} {v : N} {d : Nat}
    (h : (g.inDegree.filter fun e => p e.2).lookup v = some d) : d = (g.pred v).length ∧ p d = true ∧ v ∈ g.nodes := by
  have hm : (v, d) ∈ g.inDegree.filter fun e => p e.2 := by
    generalize g.inDegree.filter (fun e => p e.2) = l at h
    induction l with
    | nil => simp at h
    | cons e l ih =>
      obtain ⟨a, b⟩ := e
      by_cases hk : v = a
      · subst hk; simp [List.lookup] at h; subst h; simp
      · have : (v == a) = false := by simpa using hk
        simp only [List.lookup, this] at h
        exact List.mem_cons_of_mem _ (ih h)
  obtain ⟨h1, h2⟩ := List.mem_filter.1 hm
  simp only [inDegree, List.mem_map, Prod.mk.injEq] at h1
  obtain ⟨n, hn, rfl, rfl⟩ := h1
  exact ⟨rfl, h2, hn⟩

theorem topoInv_init {g : Digraph N} : TopoInv g [] (g.inDegree.filter fun e => decide (e.2 > 0))
    ((g.inDegree.filter fun e => decide (e.2 = 0)).map (·.1)).reverse := by
  refine ⟨?_, ?_, ?_, by simp⟩
  · rw [List.nil_append]
    refine ((List.reverse_perm _).append_right _).trans ?_
    rw [← List.map_append]
    have : (g.inDegree.filter (fun e => decide (e.2 = 0)) ++ g.inDegree.filter fun e => decide (e.2 > 0)).Perm g.inDegree := by
      have e : (fun e : N × Nat => decide (e.2 > 0)) = fun e => !decide (e.2 = 0) := by
        funext e
        by_cases h : e.2 = 0 <;> simp [h]; omega
      rw [e]
      exact List.filter_append_perm (fun e : N × Nat => decide (e.2 = 0)) _
    refine (this.map _).trans ?_
    simp [inDegree, List.map_map, Function.comp_def]
  · intro v d hd
    obtain ⟨h1, h2, h3⟩ := lookup_filter_map (p := fun k => decide (k > 0)) hd
    refine ⟨?_, by simpa using h2⟩
    rw [h1]
    congr 1
    rw [List.filter_eq_self.2]
    simp
  · rintro v (hv | hv) u hu
    · simp only [List.mem_reverse, List.mem_map, List.mem_filter, decide_eq_true_eq] at hv
      obtain ⟨⟨a, b⟩, ⟨ha, hb⟩, rfl⟩ := hv
      simp only [inDegree, List.mem_map, Prod.mk.injEq] at ha
      obtain ⟨n, hn, rfl, rfl⟩ := ha
      simp only [List.length_eq_zero_iff] at hb
      have := (mem_pred g n u).2 hu
      rw [hb] at this; simp at this
    · simp at hv

/-! ## Cycles -/

theorem comesBefore_ne {l : List N} (hl : l.Nodup) {u v : N} (h : ComesBefore l u v) : l.idxOf u < l.idxOf v := by
  obtain ⟨a, b, c, rfl⟩ := h
  obtain ⟨h1, h2, h3⟩ := List.nodup_append.1 hl
  have hu : u ∉ a := fun hu => h3 u hu u (by simp) rfl
  have hv : v ∉ a := fun hv => h3 v hv v (by simp) rfl
  rw [List.nodup_cons] at h2
  have huv : u ≠ v := fun e => h2.1 (by rw [e]; simp)
  rw [List.idxOf_append_of_notMem hu, List.idxOf_append_of_notMem hv]
  rw [List.idxOf_cons_self, List.idxOf_cons_ne _ huv]
  omega

theorem order_acyclic {edges : List (N × N)} {l : List N} (hl : l.Nodup)
    (hf : ∀ u v, (u, v) ∈ edges → ComesBefore l u v) : ¬ Cyclic edges := by
  rintro ⟨n, hn⟩
  have : ∀ {u v}, TransGen (HasEdge edges) u v → l.idxOf u < l.idxOf v := by
    intro u v h
    induction h with
    | single h => exact comesBefore_ne hl (hf _ _ h)
    | tail _ h ih => exact ih.trans (comesBefore_ne hl (hf _ _ h))
  exact absurd (this hn) (lt_irrefl _)

/-- In a finite set where everybody has a predecessor in the set, everybody is on or downstream of a cycle. -/
theorem downstream_of_cycle {edges : List (N × N)} (K : List N) (hK : ∀ v ∈ K, ∃ u ∈ K, (u, v) ∈ edges) {v : N} (hv : v ∈ K) :
    ∃ c ∈ K, TransGen (HasEdge edges) c c ∧ ReflTransGen (HasEdge edges) c v := by
  -- `P` is a set of nodes of K between `w` and `v`, each reachable from `w`
  have key : ∀ (k : Nat) (P : List N) (w : N), P.Nodup → P ⊆ K → w ∈ P → K.length - P.length = k →
      (∀ x ∈ P, ReflTransGen (HasEdge edges) w x ∧ ReflTransGen (HasEdge edges) x v) →
      ∃ c ∈ K, TransGen (HasEdge edges) c c ∧ ReflTransGen (HasEdge edges) c v := by
    intro k
    induction k using Nat.strong_induction_on with
    | _ k ih =>
    intro P w hnd hsub hw hk hP
    obtain ⟨u, hu, hue⟩ := hK w (hsub hw)
    by_cases huP : u ∈ P
    · refine ⟨u, hu, ?_, (hP u huP).2⟩
      exact TransGen.head' hue (hP u huP).1
    · have hlen : (u :: P).length ≤ K.length := by
        have hnd' : (u :: P).Nodup := List.nodup_cons.2 ⟨huP, hnd⟩
        have hsub' : (u :: P) ⊆ K := by
          intro x hx
          rcases List.mem_cons.1 hx with rfl | hx
          · exact hu
          · exact hsub hx
        exact (List.subperm_of_subset hnd' hsub').length_le
      simp only [List.length_cons] at hlen
      refine ih (K.length - (P.length + 1)) (by omega) (u :: P) u (List.nodup_cons.2 ⟨huP, hnd⟩) ?_ (by simp) (by simp) ?_
      · intro x hx
        rcases List.mem_cons.1 hx with rfl | hx
        · exact hu
        · exact hsub hx
      · intro x hx
        rcases List.mem_cons.1 hx with rfl | hx
        · exact ⟨.refl, ReflTransGen.head hue (hP w hw).2⟩
        · exact ⟨ReflTransGen.head hue (hP x hx).1, (hP x hx).2⟩
  exact key _ [v] v (by simp) (by intro x hx; simp at hx; subst hx; exact hv) (by simp) rfl
    (by intro x hx; simp at hx; subst hx; exact ⟨.refl, .refl⟩)

/-! ## C39, C40 -/

theorem topologicalSort_spec {nodes : List N} {edges : List (N × N)} {g : Digraph N} (h : Digraph.new nodes edges = .ok g) :
    ∃ left, g.topologicalSort.raised = (if left.isEmpty then none else some (.parameterInterpolationError, left)) ∧
      (g.topologicalSort.yielded ++ left).Nodup ∧ (∀ n, n ∈ g.topologicalSort.yielded ++ left ↔ n ∈ nodes) ∧
      (∀ u v, (u, v) ∈ edges → v ∈ g.topologicalSort.yielded → ComesBefore g.topologicalSort.yielded u v) ∧
      (∀ v ∈ left, ∃ u ∈ left, (u, v) ∈ edges) := by
  obtain ⟨hg, hn, he⟩ := new_ok h
  obtain ⟨ys, left, h1, h2, h3, h4, h5⟩ := topoLoop_spec hg [] _ _ topoInv_init
  refine ⟨left, h2, ?_, ?_, ?_, ?_⟩
  · show ((topoLoop g _ _).yielded ++ left).Nodup
    rw [h1]; exact h3.nodup_iff.2 hg.nodesNodup
  · intro n
    show n ∈ (topoLoop g _ _).yielded ++ left ↔ _
    rw [h1, ← hn]; exact h3.mem_iff
  · intro u v huv hv
    have hv' : v ∈ (topoLoop g (g.inDegree.filter fun e => decide (e.2 > 0))
        ((g.inDegree.filter fun e => decide (e.2 = 0)).map (·.1)).reverse).yielded := hv
    show ComesBefore (topoLoop g _ _).yielded u v
    rw [h1] at hv' ⊢
    exact h4 v hv' u ((he _).2 huv)
  · intro v hv
    obtain ⟨u, hu, hue⟩ := h5 v hv
    exact ⟨u, hu, (he _).1 hue⟩

/-- If the sort ends without an exception, its output is a linear extension of the graph. -/
theorem C39_linear_extension (nodes : List N) (edges : List (N × N)) (g : Digraph N) (h : Digraph.new nodes edges = .ok g)
    (hr : g.topologicalSort.raised = none) : IsTopologicalOrder nodes edges g.topologicalSort.yielded := by
  obtain ⟨left, h1, h2, h3, h4, h5⟩ := topologicalSort_spec h
  rw [hr] at h1
  have hleft : left = [] := by
    cases left with
    | nil => rfl
    | cons a l => simp at h1
  subst hleft
  rw [List.append_nil] at h2 h3
  refine ⟨h2, h3, fun u v huv => h4 u v huv ?_⟩
  obtain ⟨hg, hn, he⟩ := new_ok h
  exact (h3 v).2 ((hn v).1 (hg.endpoints _ ((he _).2 huv)).2)

/-- The sort raises iff the graph has a cycle; whatever happens, every node yielded comes after its predecessors. -/
theorem C40_raises_iff_cyclic (nodes : List N) (edges : List (N × N)) (g : Digraph N) (h : Digraph.new nodes edges = .ok g) :
    (g.topologicalSort.raised ≠ none ↔ Cyclic edges) ∧
    (∀ e named, g.topologicalSort.raised = some (e, named) → e = .parameterInterpolationError ∧
      -- the nodes named are exactly those not yielded, and each is on or downstream of a cycle
      (∀ n, n ∈ named ↔ n ∈ nodes ∧ n ∉ g.topologicalSort.yielded) ∧
      (∀ n ∈ named, ∃ c ∈ named, TransGen (HasEdge edges) c c ∧ ReflTransGen (HasEdge edges) c n)) ∧
    (∀ u v, (u, v) ∈ edges → v ∈ g.topologicalSort.yielded → ComesBefore g.topologicalSort.yielded u v) := by
  obtain ⟨left, h1, h2, h3, h4, h5⟩ := topologicalSort_spec h
  refine ⟨⟨?_, ?_⟩, ?_, h4⟩
  · intro hne
    cases left with
    | nil => simp at h1; exact absurd h1 hne
    | cons a l =>
      obtain ⟨c, -, hc, -⟩ := downstream_of_cycle (a :: l) h5 (List.mem_cons_self ..)
      exact ⟨c, hc⟩
  · intro hc hr
    exact order_acyclic (C39_linear_extension nodes edges g h hr).nodup (C39_linear_extension nodes edges g h hr).forward hc
  · intro e named hr
    rw [hr] at h1
    cases left with
    | nil => simp at h1
    | cons a l =>
      simp only [List.isEmpty_cons, Bool.false_eq_true, if_false, Option.some.injEq, Prod.mk.injEq] at h1
      obtain ⟨rfl, rfl⟩ := h1
      refine ⟨rfl, ?_, fun n hn => downstream_of_cycle _ h5 hn⟩
      intro n
      rw [← h3, List.mem_append]
      obtain ⟨-, -, hd⟩ := List.nodup_append.1 h2
      constructor
      · intro hn; exact ⟨.inr hn, fun hy => hd n hy n hn rfl⟩
      · rintro ⟨hy | hn, hny⟩
        · exact absurd hy hny
        · exact hn

/-- What is yielded is every node that is neither on nor downstream of a cycle, once; the others are named in the error. -/
theorem C40_yielded (nodes : List N) (edges : List (N × N)) (g : Digraph N) (h : Digraph.new nodes edges = .ok g) :
    g.topologicalSort.yielded.Nodup ∧
    (∀ n, n ∈ g.topologicalSort.yielded ↔ n ∈ nodes ∧ ¬ ∃ c, TransGen (HasEdge edges) c c ∧ ReflTransGen (HasEdge edges) c n) ∧
    (∀ e named, g.topologicalSort.raised = some (e, named) →
      ∀ n, n ∈ named ↔ n ∈ nodes ∧ ∃ c, TransGen (HasEdge edges) c c ∧ ReflTransGen (HasEdge edges) c n) := by
  obtain ⟨left, h1, h2, h3, h4, h5⟩ := topologicalSort_spec h
  have hnd : g.topologicalSort.yielded.Nodup := (List.nodup_append.1 h2).1
  -- going back along edges stays within what was yielded, and goes to earlier positions
  have back : ∀ u v, TransGen (HasEdge edges) u v → v ∈ g.topologicalSort.yielded →
      u ∈ g.topologicalSort.yielded ∧ g.topologicalSort.yielded.idxOf u < g.topologicalSort.yielded.idxOf v := by
    have one : ∀ u v, HasEdge edges u v → v ∈ g.topologicalSort.yielded →
        u ∈ g.topologicalSort.yielded ∧ g.topologicalSort.yielded.idxOf u < g.topologicalSort.yielded.idxOf v := by
      intro u v huv hv
      have hc := h4 u v huv hv
      refine ⟨?_, comesBefore_ne hnd hc⟩
      obtain ⟨a, b, c, e⟩ := hc
      rw [e]
      simp
    intro u v huv
    induction huv with
    | single huv => exact one _ _ huv
    | tail _ hbc ih =>
      intro hv
      obtain ⟨m1, m2⟩ := one _ _ hbc hv
      obtain ⟨m3, m4⟩ := ih m1
      exact ⟨m3, by omega⟩
  have hno : ∀ n c, TransGen (HasEdge edges) c c → ReflTransGen (HasEdge edges) c n → n ∉ g.topologicalSort.yielded := by
    intro n c hcc hcn hn
    have : TransGen (HasEdge edges) c n := hcc.trans_left hcn
    have hc := (back c n this hn).1
    exact absurd (back c c hcc hc).2 (by omega)
  have hyes : ∀ n ∈ left, ∃ c, TransGen (HasEdge edges) c c ∧ ReflTransGen (HasEdge edges) c n := by
    intro n hn
    obtain ⟨c, -, hc⟩ := downstream_of_cycle _ h5 hn
    exact ⟨c, hc⟩
  refine ⟨hnd, fun n => ⟨fun hn => ⟨(h3 n).1 (List.mem_append_left _ hn), fun ⟨c, a, b⟩ => hno n c a b hn⟩, fun ⟨hn, hcy⟩ => ?_⟩, fun e named hr n => ?_⟩
  · rcases List.mem_append.1 ((h3 n).2 hn) with hy | hl
    · exact hy
    · exact absurd (hyes n hl) hcy
  · obtain ⟨-, hnamed, -⟩ := (C40_raises_iff_cyclic nodes edges g h).2.1 e named hr
    rw [hnamed]
    refine and_congr_right fun hn => ⟨fun hny => ?_, fun ⟨c, a, b⟩ => hno n c a b⟩
    rcases List.mem_append.1 ((h3 n).2 hn) with hy | hl
    · exact absurd hy hny
    · exact hyes n hl

/-- The constructor raises `RuntimeError` iff an edge has an end that is not a node. -/
theorem C40_constructor (nodes : List N) (edges : List (N × N)) :
    ((∃ e ∈ edges, e.1 ∉ nodes ∨ e.2 ∉ nodes) → (match Digraph.new nodes edges with | .error e => e = .runtimeError | .ok _ => False)) ∧
    ((∀ e ∈ edges, e.1 ∈ nodes ∧ e.2 ∈ nodes) → ∃ g, Digraph.new nodes edges = .ok g) := by
  constructor
  · rintro ⟨e, he, hbad⟩
    unfold Digraph.new
    have : ((dedup edges).all fun e => decide (e.1 ∈ dedup nodes) && decide (e.2 ∈ dedup nodes)) = false := by
      rw [List.all_eq_false]
      refine ⟨e, (mem_dedup _ _).2 he, ?_⟩
      simp only [mem_dedup, Bool.and_eq_true, decide_eq_true_eq, not_and_or]
      exact hbad
    simp [this]
  · intro hall
    have : ((dedup edges).all fun e => decide (e.1 ∈ dedup nodes) && decide (e.2 ∈ dedup nodes)) = true := by
      rw [List.all_eq_true]
      intro e he
      simp only [mem_dedup, Bool.and_eq_true, decide_eq_true_eq]
      exact hall e ((mem_dedup _ _).1 he)
    exact ⟨⟨dedup nodes, dedup edges⟩, by unfold Digraph.new; simp only [this, if_true]⟩

/-! ## The hypotheses are met -/

/-- A diamond: nodes 1, 2, 3, 4 with edges 1→2, 1→3, 2→4, 3→4 (the edge 1→2 given twice). -/
example : ∃ g, Digraph.new [1, 2, 3, 4] [(1, 2), (1, 3), (2, 4), (3, 4), (1, 2)] = .ok g ∧
    g.topologicalSort.raised = none ∧ g.topologicalSort.yielded = [1, 3, 2, 4] :=
  ⟨_, rfl, by decide +kernel, by decide +kernel⟩

/-- A two-cycle 2⇄3 with a node 1 upstream and a node 4 downstream: 1 is yielded, then the error names 2, 3 and 4. -/
example : ∃ g, Digraph.new [1, 2, 3, 4] [(1, 2), (2, 3), (3, 2), (3, 4)] = .ok g ∧
    g.topologicalSort.raised = some (.parameterInterpolationError, [2, 3, 4]) ∧ g.topologicalSort.yielded = [1] :=
  ⟨_, rfl, by decide +kernel, by decide +kernel⟩

/-- An edge to an unknown node. -/
example : ∃ e ∈ [(1, 2)], e.1 ∉ [1] ∨ e.2 ∉ [1] := ⟨(1, 2), by decide⟩

end Digraph
end Vista
