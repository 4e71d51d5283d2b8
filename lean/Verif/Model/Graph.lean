import Verif.Model.Basic
import Verif.Model.PyDict

/-!
# `vistautils/_graph.py`

Nodes are of any type with decidable equality (the code uses strings).  The node set is a list without repetitions, the edge
multi-dict a list of pairs without repetitions; the order of either is arbitrary, so every iteration order of the underlying
sets is covered.
-/
namespace Vista
variable {N : Type} [DecidableEq N]

/-- `immutableset(items)`: repeated items are dropped, the first occurrence counts. -/
def dedup : List N → List N
  | [] => []
  | x :: xs => x :: (dedup xs).filter (· ≠ x)

/-- `_graph.py:49-67` `Digraph`. -/
structure Digraph (N : Type) where
  nodes : List N
  edges : List (N × N)

namespace Digraph

/-- `_graph.py:21-32`, `36-46`, `61-66`: the constructor (converters, then the validator). -/
def new (nodes : List N) (edges : List (N × N)) : Res (Digraph N) :=
  let ns := dedup nodes
  let es := dedup edges
  if es.all fun e => decide (e.1 ∈ ns) && decide (e.2 ∈ ns) then .ok ⟨ns, es⟩ else .error .runtimeError

/-- `self.edges[node]`: the successors. -/
def succ (g : Digraph N) (n : N) : List N := (g.edges.filter fun e => decide (e.1 = n)).map (·.2)
/-- `self.predecessors[node]`, `_graph.py:98-100`. -/
def pred (g : Digraph N) (n : N) : List N := (g.edges.filter fun e => decide (e.2 = n)).map (·.1)
/-- `_graph.py:116-118`: the (node, in-degree) pairs. -/
def inDegree (g : Digraph N) : List (N × Nat) := g.nodes.map fun n => (n, (g.pred n).length)
/-- `InDegreeView.__getitem__`, `_graph.py:69-70, 106-108, 113-114`: a multi-dict has the empty set for an absent key. -/
def inDegreeOf (g : Digraph N) (n : N) : Nat := (g.pred n).length

/-- `del d[k]` for a dict. -/
def dictDel {K V : Type} [DecidableEq K] (k : K) : List (K × V) → List (K × V)
  | [] => []
  | (k', v) :: d => if k' = k then d else (k', v) :: dictDel k d

/-- `_graph.py:82-86`: the loop over the children of a node.  The stack has its top (the end of the Python list) first. -/
def processChildren : List N → List (N × Nat) → List N → Res (List (N × Nat) × List N)
  | [], indeg, stack => .ok (indeg, stack)
  | c :: cs, indeg, stack =>
    match indeg.lookup c with
    | none => .error .keyError
    | some d =>
      if d - 1 = 0 then processChildren cs (dictDel c indeg) (c :: stack)
      else processChildren cs (dictSet c (d - 1) indeg) stack

theorem length_dictDel {K V : Type} [DecidableEq K] (k : K) (v : V) (d : List (K × V)) (h : d.lookup k = some v) :
    (dictDel k d).length + 1 = d.length := by
  induction d with
  | nil => simp at h
  | cons e d ih =>
    obtain ⟨a, b⟩ := e
    unfold dictDel
    by_cases hk : a = k
    · rw [if_pos hk]; rfl
    · rw [if_neg hk]
      have : (k == a) = false := by simp [Ne.symm hk]
      simp only [List.lookup, this] at h
      simp only [List.length_cons, ih h]

theorem length_dictSet {K V : Type} [DecidableEq K] (k : K) (v w : V) (d : List (K × V)) (h : d.lookup k = some v) :
    (dictSet k w d).length = d.length := by
  induction d with
  | nil => simp at h
  | cons e d ih =>
    obtain ⟨a, b⟩ := e
    unfold dictSet
    by_cases hk : a = k
    · rw [if_pos hk]; rfl
    · rw [if_neg hk]
      have : (k == a) = false := by simp [Ne.symm hk]
      simp only [List.lookup, this] at h
      simp only [List.length_cons, ih h]

/-- Nodes move from the map to the stack: the total size is unchanged (this is why the main loop ends). -/
theorem processChildren_size (cs : List N) (indeg : List (N × Nat)) (stack : List N) (r : List (N × Nat) × List N)
    (h : processChildren cs indeg stack = .ok r) : r.1.length + r.2.length = indeg.length + stack.length := by
  induction cs generalizing indeg stack with
  | nil => simp only [processChildren, Except.ok.injEq] at h; subst h; rfl
  | cons c cs ih =>
    unfold processChildren at h
    cases hl : indeg.lookup c with
    | none => simp [hl] at h
    | some d =>
      simp only [hl] at h
      have h1 := length_dictDel c d indeg hl
      have h2 := length_dictSet c d (d - 1) indeg hl
      split at h
      · have := ih _ _ h
        simp only [List.length_cons] at this; omega
      · have := ih _ _ h
        omega

/-- What running the generator to its end shows: the nodes yielded, then how it ended. -/
structure TopoRun (N : Type) where
  yielded : List N
  /-- `none`: normal end; `some (exception, nodes named in its message)` otherwise. -/
  raised : Option (Exc × List N)

/-- `_graph.py:80-96`: the main loop, from a given state. -/
def topoLoop (g : Digraph N) (indeg : List (N × Nat)) (stack : List N) : TopoRun N :=
  match stack with
  | [] => ⟨[], if indeg.isEmpty then none else some (.parameterInterpolationError, indeg.map (·.1))⟩
  | node :: rest =>
    match _h : processChildren (g.succ node) indeg rest with
    | .error e => ⟨[], some (e, [])⟩
    | .ok r => let t := topoLoop g r.1 r.2; ⟨node :: t.yielded, t.raised⟩
termination_by indeg.length + stack.length
decreasing_by
  have := processChildren_size _ _ _ _ _h
  simp only [List.length_cons]; omega

/-- `_graph.py:72-96`. -/
def topologicalSort (g : Digraph N) : TopoRun N :=
  topoLoop g (g.inDegree.filter fun e => decide (e.2 > 0))
    ((g.inDegree.filter fun e => decide (e.2 = 0)).map (·.1)).reverse

end Digraph
end Vista
