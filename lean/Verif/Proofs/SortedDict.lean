import Verif.Proofs.Prelude
import Verif.Model.RangeSet

/-! Closed forms of the `SortedDict` helpers on dictionaries with increasing keys. -/
set_option linter.unusedSectionVars false
namespace Vista
variable {K V : Type} [LinearOrder K]

/-- A predicate that is downward closed along the list splits it into a prefix and a suffix. -/
theorem split_by {α : Type} {R : α → α → Prop} (p : α → Bool) (l : List α) (h : l.Pairwise R)
    (hp : ∀ a b, R a b → p b = true → p a = true) : l = l.filter p ++ l.filter (fun a => !p a) := by
  induction l with
  | nil => rfl
  | cons x xs ih =>
    rw [List.pairwise_cons] at h
    by_cases hx : p x = true
    · simp only [List.filter_cons, hx, if_true]
      simp only [Bool.not_true, List.cons_append]
      exact congrArg (x :: ·) (ih h.2)
    · have hn : xs.filter p = [] := by
        rw [List.filter_eq_nil_iff]
        exact fun a ha h' => hx (hp x a (h.1 a ha) h')
      have hy : xs.filter (fun a => !p a) = xs := by
        rw [List.filter_eq_self]
        intro a ha
        have := (List.filter_eq_nil_iff.1 hn) a ha
        simpa using this
      simp [hx, hn, hy]

theorem pairwise_mem_cases {α : Type} {R : α → α → Prop} {l : List α} (h : l.Pairwise R) {a b : α} (ha : a ∈ l)
    (hb : b ∈ l) : a = b ∨ R a b ∨ R b a := by
  induction l with
  | nil => simp at ha
  | cons x xs ih =>
    rw [List.pairwise_cons] at h
    rcases List.mem_cons.1 ha with rfl | ha' <;> rcases List.mem_cons.1 hb with rfl | hb'
    · exact .inl rfl
    · exact .inr (.inl (h.1 _ hb'))
    · exact .inr (.inr (h.1 _ ha'))
    · exact ih h.2 ha' hb'

namespace SortedDict

/-- Keys strictly increasing. -/
def Sorted (d : SortedDict K V) : Prop := d.Pairwise fun a b => a.1 < b.1

theorem get_of_mem {d : SortedDict K V} (h : d.Sorted) {e : K × V} (he : e ∈ d) : d.get e.1 = .ok e.2 := by
  unfold get
  induction d with
  | nil => simp at he
  | cons x xs ih =>
    unfold Sorted at h
    rw [List.pairwise_cons] at h
    rcases List.mem_cons.1 he with rfl | he'
    · obtain ⟨a, b⟩ := e
      simp [List.lookup]
    · have hlt := h.1 e he'
      have hne : (e.1 == x.1) = false := by
        rw [beq_eq_false_iff_ne]; exact ne_of_gt hlt
      obtain ⟨xa, xb⟩ := x
      simp only [List.lookup] at hne ⊢
      rw [hne]
      exact ih h.2 he'

theorem keyAt_bind_get {d : SortedDict K V} (h : d.Sorted) {i : Nat} {e : K × V} (he : d[i]? = some e) :
    (d.keyAt i >>= fun k => d.get k) = .ok e.2 := by
  unfold keyAt
  rw [he]
  exact get_of_mem h (List.mem_of_getElem? he)

theorem bisectLeft_eq (d : SortedDict K V) (k : K) :
    d.bisectLeft k = (d.filter fun e => decide (e.1 < k)).length := by
  rw [bisectLeft, List.countP_eq_length_filter]

theorem bisect_eq (d : SortedDict K V) (k : K) :
    d.bisect k = (d.filter fun e => decide (e.1 ≤ k)).length := by
  rw [bisect, List.countP_eq_length_filter]

theorem split_lt {d : SortedDict K V} (h : d.Sorted) (k : K) :
    d = d.filter (fun e => decide (e.1 < k)) ++ d.filter (fun e => decide (k ≤ e.1)) := by
  have := split_by (fun e : K × V => decide (e.1 < k)) d h (by
    intro a b hab hb; simp only [decide_eq_true_eq] at *; exact hab.trans hb)
  simpa [← decide_not] using this

theorem split_le {d : SortedDict K V} (h : d.Sorted) (k : K) :
    d = d.filter (fun e => decide (e.1 ≤ k)) ++ d.filter (fun e => decide (k < e.1)) := by
  have := split_by (fun e : K × V => decide (e.1 ≤ k)) d h (by
    intro a b hab hb; simp only [decide_eq_true_eq] at *; exact hab.le.trans hb)
  simpa [← decide_not] using this

theorem getElem?_last_of_append {α : Type} (A B : List α) : (A ++ B)[A.length - 1]? =
    if A = [] then B[0]? else A.getLast? := by
  rcases List.eq_nil_or_concat A with rfl | ⟨A, a, rfl⟩ <;> simp

theorem valueBelow_eq {d : SortedDict K V} (h : d.Sorted) (k : K) :
    valueBelow d k = .ok ((d.filter fun e => decide (e.1 < k)).getLast?.map (·.2)) := by
  unfold valueBelow
  rw [bisectLeft_eq]
  have hs := split_lt h k
  generalize hA : d.filter (fun e => decide (e.1 < k)) = A at *
  generalize hB : d.filter (fun e => decide (k ≤ e.1)) = B at *
  by_cases hAn : A = []
  · subst hAn; simp
  · have hl : A.length ≥ 1 := by
      have := List.length_pos_iff.2 hAn; omega
    obtain ⟨e, he⟩ : ∃ e, A.getLast? = some e := by
      rw [List.getLast?_eq_some_getLast hAn]; exact ⟨_, rfl⟩
    have hd : d.length = A.length + B.length := by
      conv_lhs => rw [hs]
      simp
    have hi : d[A.length - 1]? = some e := by
      conv_lhs => rw [hs]
      rw [getElem?_last_of_append, if_neg hAn, he]
    have hlt : ¬ (A.length - 1 ≥ d.length) := by omega
    simp only [hl, if_true, hlt, if_false, he, Option.map_some]
    have := keyAt_bind_get h hi
    simp only [bind, Except.bind] at this ⊢
    split at this
    · cases this
    · rename_i v hv
      simp only [this]

theorem bind_some {d : SortedDict K V} (h : d.Sorted) {i : Nat} {e : K × V} (he : d[i]? = some e) :
    (do let k ← d.keyAt i
        let v ← d.get k
        Except.ok (some v) : Res (Option V)) = .ok (some e.2) := by
  have := keyAt_bind_get h he
  simp only [bind, Except.bind] at this ⊢
  split at this
  · cases this
  · rename_i v hv
    simp only [this]

theorem valueAtOrAbove_eq {d : SortedDict K V} (h : d.Sorted) (k : K) :
    valueAtOrAbove d k = .ok ((d.filter fun e => decide (k ≤ e.1)).head?.map (·.2)) := by
  unfold valueAtOrAbove
  rw [bisectLeft_eq]
  have hs := split_lt h k
  generalize hA : d.filter (fun e => decide (e.1 < k)) = A at *
  generalize hB : d.filter (fun e => decide (k ≤ e.1)) = B at *
  have hd : d.length = A.length + B.length := by
    conv_lhs => rw [hs]
    simp
  cases B with
  | nil =>
    have : A.length ≥ d.length := by simp at hd; omega
    simp [this]
  | cons b B =>
    have hlt : ¬ A.length ≥ d.length := by simp at hd; omega
    have hne : d.isEmpty = false := by
      cases d with
      | nil => simp at hd
      | cons => rfl
    have hi : d[A.length]? = some b := by
      conv_lhs => rw [hs]
      simp
    simp only [hne, hlt, if_false, Bool.false_eq_true]
    rw [bind_some h hi]
    simp

theorem valueAtOrBelow_eq {d : SortedDict K V} (h : d.Sorted) (k : K) :
    valueAtOrBelow d k = .ok ((d.filter fun e => decide (e.1 ≤ k)).getLast?.map (·.2)) := by
  unfold valueAtOrBelow
  rw [bisectLeft_eq]
  have hs := split_lt h k
  have hfA : ∀ a ∈ d.filter (fun e => decide (e.1 < k)), a.1 < k := by
    intro a ha; simpa using (List.mem_filter.1 ha).2
  have hfB : ∀ a ∈ d.filter (fun e => decide (k ≤ e.1)), k ≤ a.1 := by
    intro a ha; simpa using (List.mem_filter.1 ha).2
  generalize hA : d.filter (fun e => decide (e.1 < k)) = A at *
  generalize hB : d.filter (fun e => decide (k ≤ e.1)) = B at *
  have hd : d.length = A.length + B.length := by
    conv_lhs => rw [hs]
    simp
  have hfl : d.filter (fun e => decide (e.1 ≤ k)) = A ++ B.filter (fun e => decide (e.1 ≤ k)) := by
    conv_lhs => rw [hs]
    rw [List.filter_append, List.filter_eq_self.2]
    intro a ha; simpa using (hfA a ha).le
  -- the fallback branch: the last entry of A
  have fallback : (if A.length > 0 then (do
        let k ← d.keyAt (A.length - 1)
        let v ← d.get k
        Except.ok (some v) : Res (Option V)) else .ok none) = .ok (A.getLast?.map (·.2)) := by
    by_cases hAn : A = []
    · subst hAn; simp
    · have hl := List.length_pos_iff.2 hAn
      obtain ⟨e, he⟩ : ∃ e, A.getLast? = some e := by
        rw [List.getLast?_eq_some_getLast hAn]; exact ⟨_, rfl⟩
      have hi : d[A.length - 1]? = some e := by
        conv_lhs => rw [hs]
        rw [getElem?_last_of_append, if_neg hAn, he]
      simp only [gt_iff_lt, hl, if_true]
      rw [bind_some h hi, he]; rfl
  cases d with
  | nil => 
    simp only [List.filter_nil] at hA hB
    subst hA hB; simp
  | cons d0 ds =>
    simp only [List.isEmpty_cons, Bool.false_eq_true, if_false]
    generalize hdd : d0 :: ds = d at *
    cases B with
    | nil =>
      have hge : A.length ≥ d.length := by simp at hd; omega
      simp only [hge, if_true]
      rw [fallback, hfl]; simp
    | cons b B =>
      have hlt : ¬ A.length ≥ d.length := by simp at hd; omega
      have hi : d[A.length]? = some b := by
        conv_lhs => rw [hs]
        simp
      have hk : SortedDict.keyAt d A.length = .ok b.1 := by unfold keyAt; rw [hi]
      have hrest : (B.filter (fun e => decide (e.1 ≤ k))) = [] := by
        rw [List.filter_eq_nil_iff]
        intro a ha
        have hsorted : (A ++ b :: B).Pairwise (fun a b => a.1 < b.1) := hs ▸ h
        have := (List.pairwise_append.1 hsorted).2.1
        rw [List.pairwise_cons] at this
        have h1 := this.1 a ha
        have h2 := hfB b (by simp)
        simpa using h2.trans_lt h1
      simp only [hlt, if_false, hk]
      by_cases hkb : k = b.1
      · have hg : SortedDict.get d b.1 = .ok b.2 := get_of_mem h (List.mem_of_getElem? hi)
        subst hkb
        rw [hfl]
        simp [bind, Except.bind, hg, hrest]
      · have hkb' : ¬ b.1 ≤ k := fun h' => hkb (le_antisymm (hfB b (by simp)) h')
        rw [hfl]
        simp only [bind, Except.bind, ne_eq, hkb, not_false_eq_true, if_true] at fallback ⊢
        rw [fallback]
        simp [hkb', hrest]

theorem del_of_mem {d : SortedDict K V} {e : K × V} (he : e ∈ d) :
    d.del e.1 = .ok (d.filter fun x => decide (x.1 ≠ e.1)) := by
  unfold del
  rw [if_pos]
  rw [List.any_eq_true]
  exact ⟨e, he, by simp⟩

theorem delAll_eq (d : SortedDict K V) (ks : List K) (hn : ks.Nodup) (hks : ∀ k ∈ ks, ∃ e ∈ d, e.1 = k) :
    delAll d ks = .ok (d.filter fun x => decide (x.1 ∉ ks)) := by
  induction ks generalizing d with
  | nil => simp only [delAll, List.not_mem_nil, not_false_eq_true, decide_true]; rw [List.filter_eq_self.2]; simp
  | cons k ks ih =>
    obtain ⟨e, he, rfl⟩ := hks k (by simp)
    rw [List.nodup_cons] at hn
    simp only [delAll, del_of_mem he, bind, Except.bind]
    rw [ih _ hn.2]
    · rw [List.filter_filter]
      congr 1
      apply List.filter_congr
      intro x _
      simp only [List.mem_cons, Bool.decide_and, ne_eq, not_or]
      rw [Bool.and_comm]
    · intro k' hk'
      obtain ⟨e', he', rfl⟩ := hks k' (by simp [hk'])
      refine ⟨e', List.mem_filter.2 ⟨he', ?_⟩, rfl⟩
      simp only [ne_eq, decide_eq_true_eq]
      intro h; rw [h] at hk'; exact hn.1 hk'

theorem clearRange_eq {d : SortedDict K V} (h : d.Sorted) (lo hi : K) :
    clearRange d lo hi = .ok (d.filter fun e => !(decide (lo ≤ e.1) && decide (e.1 < hi))) := by
  unfold clearRange
  rw [delAll_eq]
  · congr 1
    apply List.filter_congr
    intro x hx
    rw [Bool.eq_iff_iff]
    rw [Bool.not_eq_true', Bool.and_eq_false_iff, decide_eq_false_iff_not, decide_eq_false_iff_not]
    constructor
    · intro hn
      have hn := of_decide_eq_true hn
      simp only [irange, List.mem_map, List.mem_filter, decide_eq_true_eq, Bool.and_eq_true] at hn
      by_contra hc
      simp only [not_or, not_not] at hc
      exact hn ⟨x, ⟨hx, hc⟩, rfl⟩
    · intro hc
      apply decide_eq_true
      simp only [irange, List.mem_map, List.mem_filter, decide_eq_true_eq, Bool.and_eq_true]
      rintro ⟨e, ⟨-, h1, h2⟩, h3⟩
      rw [h3] at h1 h2
      rcases hc with hc | hc
      exacts [hc h1, hc h2]
  · unfold irange
    rw [List.Nodup, List.pairwise_map]
    exact (List.Pairwise.filter _ h).imp fun h => ne_of_lt h
  · intro k hk
    unfold irange at hk
    obtain ⟨e, he, rfl⟩ := List.mem_map.1 hk
    exact ⟨e, (List.mem_filter.1 he).1, rfl⟩

theorem set_append {A B : SortedDict K V} {k : K} {v : V} (hA : ∀ a ∈ A, a.1 < k) (hB : ∀ b ∈ B, k < b.1) :
    SortedDict.set (A ++ B) k v = A ++ (k, v) :: B := by
  induction A with
  | nil =>
    cases B with
    | nil => rfl
    | cons b B => 
      simp only [List.nil_append, set]
      rw [if_pos (hB b (by simp))]
  | cons a A ih =>
    have ha := hA a (by simp)
    simp only [List.cons_append, set]
    rw [if_neg (not_lt.2 ha.le), if_neg (ne_of_gt ha), ih (fun x hx => hA x (by simp [hx]))]

theorem ofList_foldl (ps : List (K × V)) (A : SortedDict K V) (h : (A ++ ps).Pairwise fun a b => a.1 < b.1) :
    ps.foldl (fun d p => SortedDict.set d p.1 p.2) A = A ++ ps := by
  induction ps generalizing A with
  | nil => simp
  | cons p ps ih =>
    have h1 : SortedDict.set A p.1 p.2 = A ++ [p] := by
      have := set_append (A := A) (B := []) (k := p.1) (v := p.2) (by
        intro a ha
        exact (List.pairwise_append.1 h).2.2 a ha p (by simp)) (by simp)
      simpa using this
    simp only [List.foldl_cons, h1]
    rw [ih]
    · simp
    · simpa using h

/-- `SortedDict(pairs)` of pairs already in key order is those pairs. -/
theorem ofList_sorted {ps : List (K × V)} (h : Sorted ps) : ofList ps = ps := by
  unfold ofList
  rw [ofList_foldl ps [] (by rw [List.nil_append]; exact h)]
  simp

end SortedDict
end Vista
