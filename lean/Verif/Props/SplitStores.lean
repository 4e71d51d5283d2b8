import Verif.Model.SplitStores
import Verif.Spec.SplitStores
import Verif.Proofs.ZipOut
import Verif.Proofs.Examples
import Verif.Props.PathLists
import Mathlib.Data.Int.CardIntervalMod

/-!
# C63: splitting a store evenly
-/
set_option linter.unusedSectionVars false
set_option linter.unusedSimpArgs false
namespace Vista
open Params (PathIs)

theorem resolve_toPath (cwd : PyPath) {l : Loc} (h : ['.', '.'] ∉ l) : PyPath.resolve cwd l.toPath = l := by
  have : ∀ (ws : List Str) (acc : Loc), ['.', '.'] ∉ ws → ws.foldl resolveStep acc = acc ++ ws := by
    intro ws
    induction ws with
    | nil => simp
    | cons w ws ih =>
      intro acc hw
      simp only [List.mem_cons, not_or] at hw
      rw [List.foldl_cons, ih _ hw.2, resolveStep, if_neg (fun h => hw.1 h.symm)]
      simp
  simp [PyPath.resolve, PyPath.absolute, Loc.toPath, this l [] h]

theorem pathIs_dotdot {cwd : PyPath} {p : Params} {param : Str} {l : Loc} (h : PathIs cwd p param l) : ['.', '.'] ∉ l := by
  obtain ⟨s, -, rfl⟩ := h
  exact (Params.C73_resolve_dotdot cwd _).2.2

/-! ## Dealing -/

open Classical in
/-- What a sink that held `old` holds after the keys `ks` have been dealt from number `i` on. -/
noncomputable def dealt (n : Nat) (M : Str → Option Bytes) (i j : Nat) (ks : List Str) (old : Str → Option Bytes) : Str → Option Bytes := fun k =>
  if ∃ t, ks[t]? = some k ∧ (i + t) % n = j then M k else old k

theorem dealt_nil (n : Nat) (M : Str → Option Bytes) (i j : Nat) (old : Str → Option Bytes) : dealt n M i j [] old = old := by
  funext k; simp [dealt]

theorem dealt_cons (n : Nat) (M : Str → Option Bytes) (i j : Nat) (k : Str) (ks : List Str) (old : Str → Option Bytes) (v : Bytes) (hv : M k = some v) :
    dealt n M i j (k :: ks) old = dealt n M (i + 1) j ks (if i % n = j then fun k' => if k' = k then some v else old k' else old) := by
  funext k'
  have hsplit : (∃ t, (k :: ks)[t]? = some k' ∧ (i + t) % n = j) ↔ (k' = k ∧ i % n = j) ∨ ∃ t, ks[t]? = some k' ∧ (i + 1 + t) % n = j := by
    constructor
    · rintro ⟨t, h1, h2⟩
      cases t with
      | zero => simp only [List.getElem?_cons_zero, Option.some.injEq] at h1; exact .inl ⟨h1.symm, h2⟩
      | succ t => exact .inr ⟨t, by simpa using h1, by rw [← h2]; congr 1; omega⟩
    · rintro (⟨rfl, h⟩ | ⟨t, h1, h2⟩)
      · exact ⟨0, by simp, h⟩
      · exact ⟨t + 1, by simpa using h1, by rw [← h2]; congr 1; omega⟩
  unfold dealt
  rw [hsplit]
  by_cases hr : ∃ t, ks[t]? = some k' ∧ (i + 1 + t) % n = j
  · simp [hr]
  · simp only [hr, or_false, if_false]
    by_cases hj : i % n = j
    · by_cases hk : k' = k
      · simp [hj, hk, hv]
      · simp [hj, hk]
    · simp [hj]

theorem deal_spec {order : List Str → List Str} {src : KVSource Bytes} {M : Str → Option Bytes} {n : Nat} (hn : 0 < n)
    (hs : Zip.Serves src PlainKey M) (ks : List Str) (i : Nat) (outs : List ZipOut) (hlen : outs.length = n) (Ms : Nat → Str → Option Bytes)
    (hready : ∀ (j : Nat) (o : ZipOut), outs[j]? = some o → Ready order o (Ms j)) (hnd : ks.Nodup)
    (hks : ∀ k ∈ ks, PlainKey k ∧ (M k).isSome = true ∧ ∀ j, j < n → Ms j k = none) :
    ∃ outs', dealKeys src n i ks outs = (outs', none) ∧ outs'.map (·.loc) = outs.map (·.loc) ∧
      ∀ (j : Nat) (o : ZipOut), outs'[j]? = some o → Ready order o (dealt n M i j ks (Ms j)) := by
  induction ks generalizing i outs Ms with
  | nil => exact ⟨outs, rfl, rfl, fun j o ho => by rw [dealt_nil]; exact hready j o ho⟩
  | cons k ks ih =>
    obtain ⟨hk, hm, hfree⟩ := hks k (by simp)
    obtain ⟨v, hv⟩ := Option.isSome_iff_exists.1 hm
    simp only [List.nodup_cons] at hnd
    have hi : i % n < outs.length := by rw [hlen]; exact Nat.mod_lt _ hn
    have ho : outs[i % n]? = some outs[i % n] := List.getElem?_eq_getElem hi
    obtain ⟨p1, -, p2⟩ := (hready _ _ ho).put hk v
    obtain ⟨p3, p4⟩ := p2 (hfree _ (Nat.mod_lt _ hn))
    obtain ⟨outs', a1, a2, a3⟩ := ih (i + 1) (outs.set (i % n) (outs[i % n].put k v).1) (by simpa using hlen)
      (fun j => if i % n = j then fun k' => if k' = k then some v else Ms j k' else Ms j) (by
        intro j o hj
        rw [List.getElem?_set] at hj
        by_cases hij : i % n = j
        · subst hij
          simp only [if_true, hi] at hj ⊢
          cases hj
          exact p4
        · simp only [hij, if_false] at hj ⊢
          exact hready j o hj) hnd.2 (by
        intro k' hk'
        obtain ⟨b1, b2, b3⟩ := hks k' (by simp [hk'])
        refine ⟨b1, b2, fun j hj => ?_⟩
        have : k' ≠ k := fun h => hnd.1 (h ▸ hk')
        by_cases hij : i % n = j
        · simp [hij, this, b3 j hj]
        · simp [hij, b3 j hj])
    refine ⟨outs', ?_, ?_, fun j o hj => ?_⟩
    · simp only [dealKeys, ho, (hs.present k v hv).1, p3, a1]
    · rw [a2, List.map_set, p1]
      apply List.ext_getElem? fun j => ?_
      rw [List.getElem?_set]
      by_cases hij : i % n = j
      · subst hij; simp [hi]
      · simp [hij]
    · have := a3 j o hj
      rw [dealt_cons n M i j k ks (Ms j) v hv]
      exact this

/-! ## Sizes -/

theorem count_mod {n m j : Nat} (hn : 0 < n) (hj : j < n) : Nat.count (fun t => t % n = j) m = m / n + if j < m % n then 1 else 0 := by
  have h := Nat.count_modEq_card m hn j
  rw [Nat.mod_eq_of_lt hj] at h
  rw [← h]
  congr 1
  funext t
  simp [Nat.ModEq, Nat.mod_eq_of_lt hj]

theorem slice_size {n : Nat} {ks : List Str} (hnd : ks.Nodup) {M : Str → Option Bytes} (hks : ∀ k, k ∈ ks ↔ (M k).isSome = true)
    {slice : Nat → Str → Option Bytes} (hd : Dealt n ks M slice) {j : Nat} {as : List Str} (has : as.Nodup) (hmem : ∀ k, k ∈ as ↔ slice j k ≠ none) :
    as.length = Nat.count (fun t => t % n = j) ks.length := by
  have hperm : as.Perm (((List.range ks.length).filter fun t => decide (t % n = j)).map fun t => (ks[t]?).getD []) := by
    rw [List.perm_ext_iff_of_nodup has]
    · intro k
      rw [hmem]
      simp only [List.mem_map, List.mem_filter, List.mem_range, decide_eq_true_eq, ne_eq, Option.eq_none_iff_forall_ne_some, not_forall,
        not_not]
      constructor
      · rintro ⟨v, hv⟩
        obtain ⟨-, t, ht, hj⟩ := (hd j k v).1 hv
        obtain ⟨hlt, -⟩ := List.getElem?_eq_some_iff.1 ht
        exact ⟨t, ⟨hlt, hj⟩, by rw [ht]; rfl⟩
      · rintro ⟨t, ⟨hlt, hj⟩, rfl⟩
        have ht : ks[t]? = some ks[t] := List.getElem?_eq_getElem hlt
        obtain ⟨v, hv⟩ := Option.isSome_iff_exists.1 ((hks ks[t]).1 (List.getElem_mem hlt))
        exact ⟨v, (hd j _ v).2 ⟨by rw [ht]; exact hv, t, by rw [ht]; rfl, hj⟩⟩
    · rw [List.nodup_map_iff_inj_on (List.nodup_range.filter _)]
      intro a ha b hb hab
      simp only [List.mem_filter, List.mem_range] at ha hb
      rw [List.getElem?_eq_getElem ha.1, List.getElem?_eq_getElem hb.1] at hab
      exact (hnd.getElem_inj_iff).1 hab
  rw [hperm.length_eq, List.length_map, Nat.count_eq_card_filter_range, ← List.toFinset_card_of_nodup (List.nodup_range.filter _)]
  congr 1
  ext t
  simp

theorem evenSlices_of_dealt {n : Nat} (hn : 0 < n) {ks : List Str} {M : Str → Option Bytes} (hks : KeysOf M ks)
    {slice : Nat → Str → Option Bytes} (hd : Dealt n ks M slice) : EvenSlices n M slice where
  sound j k v _ h := ((hd j k v).1 h).1
  complete k v h := by
    obtain ⟨t, ht⟩ := List.getElem?_of_mem ((hks.2 k).2 (by rw [h]; rfl))
    exact ⟨t % n, Nat.mod_lt _ hn, (hd _ k v).2 ⟨h, t, ht, rfl⟩⟩
  disjoint i j k _ _ hi hj := by
    obtain ⟨v, hv⟩ := Option.ne_none_iff_exists'.1 hi
    obtain ⟨w, hw⟩ := Option.ne_none_iff_exists'.1 hj
    obtain ⟨-, t, ht, rfl⟩ := (hd i k v).1 hv
    obtain ⟨-, u, hu, rfl⟩ := (hd j k w).1 hw
    have := (List.nodup_iff_getElem?_ne_getElem?.1 hks.1)
    rcases Nat.lt_trichotomy t u with h | h | h
    · exact absurd (ht.trans hu.symm) (this t u h (List.getElem?_eq_some_iff.1 hu).1)
    · rw [h]
    · exact absurd (hu.trans ht.symm) (this u t h (List.getElem?_eq_some_iff.1 ht).1)
  balanced i j as bs hi hj ha ham hb hbm := by
    rw [slice_size hks.1 hks.2 hd ha ham, slice_size hks.1 hks.2 hd hb hbm, count_mod hn hi, count_mod hn hj]
    split <;> split <;> omega

/-! ## The whole script -/

/-- The parameters of an even split: the output directory, the number of slices, and the seed (`None` if there is none). -/
structure EvenParams (cwd : PyPath) (p : Params) (dir : Loc) (n : Nat) (seed : PVal) : Prop where
  wf : p.WF
  dir : PathIs cwd p "output_dir".toList dir
  slices : ∃ v, Params.Found p "num_slices".toList .none v ∧ Params.CountsAs v n
  positive : 0 < n
  seed : (seed = .none ∧ ¬ Params.Present p "random_seed".toList) ∨
    (Params.Found p "random_seed".toList .none seed ∧ ∃ i, Params.CountsAs seed i ∧ i > 0)

/-- The places an even split leaves alone: all but the output directory, the directories above it, the list of the slices and the slices. -/
def EvenKept (dir : Loc) (n : Nat) (q : Loc) : Prop :=
  ¬ q <+: dir ∧ q ≠ dir ++ ["_slices.txt".toList] ∧ ∀ j, j < n → q ≠ dir ++ [(toString j).toList ++ ".zip".toList]

/-- Where the script writes is free: no file is in the way of the directory, no directory in the way of the files. -/
structure EvenPlace (fs : FS) (dir : Loc) (n : Nat) : Prop where
  tree : fs.Tree
  free : ¬ fs.Blocked dir
  list : fs.node (dir ++ ["_slices.txt".toList]) ≠ some .dir
  slices : ∀ j, j < n → fs.node (dir ++ [(toString j).toList ++ ".zip".toList]) ≠ some .dir

/-- The file system afterwards: the directory with the list of the slices; nothing else has changed except for the slices. -/
structure EvenAfter (fs : FS) (dir : Loc) (n : Nat) (fs' : FS) : Prop where
  tree : fs'.Tree
  dirs : ∀ q, q <+: dir → fs'.node q = some .dir
  list : fs'.node (dir ++ ["_slices.txt".toList]) = some (.file (.data (encodeUtf8 (joinWith '\n' ((List.range n).map fun j =>
    '/' :: joinWith '/' (dir ++ [(toString j).toList ++ ".zip".toList]))))))
  others : ∀ q, EvenKept dir n q → fs'.node q = fs.node q

theorem slicePath_inj (dir : Loc) {i j : Nat} (h : slicePath dir i = slicePath dir j) : i = j := by
  simp only [slicePath, List.append_cancel_left_eq, List.cons.injEq, and_true] at h
  have h' := List.append_cancel_right h
  have e : ∀ n : Nat, (toString n).toList = Nat.toDigits 10 n := fun n => Nat.toList_repr
  rw [e, e] at h'
  rw [← Nat.ofDigitChars_toDigits (b := 10) (n := i) (by omega) (by omega), h', Nat.ofDigitChars_toDigits (by omega) (by omega)]

theorem slicePath_ne_list (dir : Loc) (i : Nat) : slicePath dir i ≠ dir ++ ["_slices.txt".toList] := by
  intro h
  simp only [slicePath, List.append_cancel_left_eq, List.cons.injEq, and_true] at h
  have := congrArg List.getLast? h
  rw [List.getLast?_append, show ".zip".toList.getLast? = some 'p' by decide +kernel,
    show "_slices.txt".toList.getLast? = some 't' by decide +kernel] at this
  simp at this

theorem slicePath_not_prefix (dir : Loc) (i : Nat) : ¬ slicePath dir i <+: dir := fun h => by
  have := h.length_le
  simp [slicePath] at this

theorem asInt_getD {v : PVal} {n : Nat} (h : Params.CountsAs v n) : ((Params.asInt v).getD 0).toNat = n := by
  rw [(Params.asInt_iff v n).2 h]; simp

theorem seed_param {cwd : PyPath} {p : Params} {dir : Loc} {n : Nat} {seed : PVal} (h : EvenParams cwd p dir n seed) :
    p.optionalPositiveInteger "random_seed".toList = .ok seed := by
  rcases h.seed with ⟨rfl, h'⟩ | ⟨h1, h2⟩
  · exact ((Params.C48_positive_integer p h.wf _ .none).2 h').1 .none
  · have hp : Params.Present p "random_seed".toList := by
      obtain ⟨i, hi, -⟩ := h2
      rcases h1 with h1 | ⟨-, h1, -⟩
      · exact ⟨seed, (by rintro rfl; cases hi), h1⟩
      · exact absurd rfl h1
    rw [(Params.C48_positive_integer p h.wf _ .none).1 hp]
    exact ((Params.C47_positive_integer p h.wf _ .none).1 seed).2 ⟨h1, h2⟩

/-- Up to the loop: the slices are there and empty. -/
theorem evenSplit_start (order : List Str → List Str) (shuffle : PVal → List Str → List Str) {cwd : PyPath} (src : FS → KVSource Bytes) {p : Params}
    {dir : Loc} {n : Nat} {seed : PVal} (hp : EvenParams cwd p dir n seed) {fs : FS} (hf : EvenPlace fs dir n) :
    ∃ outs fs', (evenSplit order shuffle cwd src p fs =
        match evenBody shuffle (src fs') n seed outs with | (outs', e) => ZipOut.closeAll outs' e fs') ∧
      outs.map (·.loc) = (List.range n).map (slicePath dir) ∧ (∀ o ∈ outs, Ready order o (fun _ => none)) ∧
      (∀ j, j < n → ∃ c, fs'.node (slicePath dir j) = some (.file c)) ∧ EvenAfter fs dir n fs' := by
  obtain ⟨ht, hb, hl, hz⟩ := hf
  obtain ⟨fs1, a1, a2, a3⟩ := (Params.C73_creatable_directory cwd p hp.wf "output_dir".toList fs ht).1 dir hp.dir hb
  obtain ⟨v, hv, hn⟩ := hp.slices
  have hpos := ((Params.C47_positive_integer p hp.wf "num_slices".toList .none).1 v).2 ⟨hv, n, hn, by have := hp.positive; omega⟩
  have hdd := pathIs_dotdot hp.dir
  have hres : PyPath.resolve cwd dir.toPath = dir := resolve_toPath cwd hdd
  have hk : FileKey "_slices.txt".toList := by constructor <;> simp [TextSafe] <;> decide
  have hnp : ∀ w : Str, ¬ dir ++ [w] <+: dir := fun w h => by have := h.length_le; simp at this
  obtain ⟨fs2, b1, b2, b3⟩ := writeBytesTo_spec (cwd := cwd) (P := dir.toPath) a3 hk.dotdot (by rw [hres]; exact a2.1 dir (List.prefix_refl _))
    (by rw [hres, a2.2 _ (hnp _)]; exact hl)
    (encodeUtf8 (joinWith '\n' (((List.range n).map (slicePath dir)).map fun l => (Loc.toPath l).render)))
  rw [hres] at b2
  have hdir2 : fs2.node dir = some .dir := by
    rw [b2.2 _ (fun h => hnp _ (by rw [← h]))]; exact a2.1 dir (List.prefix_refl _)
  obtain ⟨new, fs3, c1, c2, c3, c4, c5, c6⟩ := enterAllAt_spec order b3 ((List.range n).map (slicePath dir))
    ((List.nodup_map_iff_inj_on List.nodup_range).2 fun i _ j _ h => slicePath_inj dir h) [] (by
      intro l hl
      simp only [List.mem_map, List.mem_range] at hl
      obtain ⟨j, hj, rfl⟩ := hl
      refine ⟨by simp [slicePath], by simp [slicePath, hdir2], ?_⟩
      rw [b2.2 _ (slicePath_ne_list dir j), a2.2 _ (slicePath_not_prefix dir j)]
      exact hz j hj)
  have hslice : ∀ j, j < n → slicePath dir j ∈ (List.range n).map (slicePath dir) := fun j hj =>
    List.mem_map.2 ⟨j, List.mem_range.2 hj, rfl⟩
  refine ⟨new, fs3, ?_, c2, c3, fun j hj => ⟨_, c4 _ (hslice j hj)⟩, c6, ?_, ?_, ?_⟩
  · have hw : writeTextTo cwd ((Loc.toPath dir).div (PyPath.parse "_slices.txt".toList))
        (joinWith '\n' (((List.range n).map (slicePath dir)).map fun l => (Loc.toPath l).render)) fs1 = (.ok (), fs2) := by
      rw [writeTextTo, div_fileKey hk]; exact b1
    simp only [evenSplit, Prog.bind_apply, a1, Prog.ofRes_apply, hpos, seed_param hp, asInt_getD hn, hw, ZipOut.enterAll, c1, List.nil_append, Prog.get_apply]
  · intro q hq
    rw [c5, b2.2, a2.1 q hq]
    · rintro rfl; exact hnp _ hq
    · intro hm
      obtain ⟨j, -, rfl⟩ := List.mem_map.1 hm
      exact slicePath_not_prefix dir j hq
  · rw [c5, b2.1]
    · simp [slicePath, Loc.toPath, PyPath.render, Function.comp_def]
    · intro hm
      obtain ⟨j, -, h⟩ := List.mem_map.1 hm
      exact slicePath_ne_list dir j h
  · rintro q ⟨hq, hql, hqs⟩
    rw [c5, b2.2 q hql, a2.2 q hq]
    intro hm
    obtain ⟨j, hj, rfl⟩ := List.mem_map.1 hm
    exact hqs j (List.mem_range.1 hj) rfl

/-- At the end: the slices have what the sinks hold. -/
theorem evenSplit_end {order : List Str → List Str} (horder : ∀ l, (order l).Perm l) {dir : Loc} {n : Nat} {fs fs' : FS} {outs : List ZipOut}
    (hloc : outs.map (·.loc) = (List.range n).map (slicePath dir)) (hfile : ∀ j, j < n → ∃ c, fs'.node (slicePath dir j) = some (.file c))
    (hafter : EvenAfter fs dir n fs') (slice : Nat → Str → Option Bytes)
    (hready : ∀ (j : Nat) (o : ZipOut), outs[j]? = some o → Ready order o (slice j)) (e : Option Exc) :
    ∃ fs'', ZipOut.closeAll outs e fs' = (raised e, fs'') ∧ EvenAfter fs dir n fs'' ∧
      ∀ j, j < n → Stores fs'' (dir ++ [(toString j).toList ++ ".zip".toList]) (slice j) := by
  have hlen : outs.length = n := by simpa using congrArg List.length hloc
  have hat : ∀ (j : Nat) (h : j < outs.length), outs[j].loc = slicePath dir j := by
    intro j h
    have := congrArg (·[j]?) hloc
    simp only [List.getElem?_map, List.getElem?_eq_getElem h, List.getElem?_range (hlen ▸ h), Option.map_some, Option.some.injEq] at this
    exact this
  have hall : List.Forall₂ (Ready order) outs.reverse ((List.range n).map slice).reverse := by
    rw [List.forall₂_reverse_iff, List.forall₂_iff_get]
    refine ⟨by simp [hlen], fun j h1 h2 => ?_⟩
    simp only [List.get_eq_getElem, List.getElem_map, List.getElem_range]
    exact hready j _ (List.getElem?_eq_getElem h1)
  have hnd : (outs.reverse.map (·.loc)).Nodup := by
    rw [List.map_reverse, List.nodup_reverse, hloc, List.nodup_map_iff_inj_on List.nodup_range]
    exact fun i _ j _ h => slicePath_inj dir h
  have hmem : ∀ o ∈ outs.reverse, ∃ j, j < n ∧ o.loc = slicePath dir j := by
    intro o ho
    have : o.loc ∈ outs.map (·.loc) := List.mem_map_of_mem (List.mem_reverse.1 ho)
    rw [hloc] at this
    obtain ⟨j, hj, h⟩ := List.mem_map.1 this
    exact ⟨j, List.mem_range.1 hj, h.symm⟩
  obtain ⟨fs2, a1, a2, a3, a4⟩ := closeAllAt_spec horder hall hnd e hafter.tree (by
    intro o ho
    obtain ⟨j, hj, h⟩ := hmem o ho
    rw [h]; exact hfile j hj)
  have hother : ∀ q, (∀ j, j < n → q ≠ slicePath dir j) → fs2.node q = fs'.node q := by
    intro q hq
    refine a3 q fun hm => ?_
    obtain ⟨o, ho, rfl⟩ := List.mem_map.1 hm
    obtain ⟨j, hj, h⟩ := hmem o ho
    exact hq j hj h
  refine ⟨fs2, a1, ⟨a4, fun q hq => ?_, ?_, fun q hq => ?_⟩, fun j hj => ?_⟩
  · rw [hother q fun j _ h => slicePath_not_prefix dir j (h ▸ hq)]; exact hafter.dirs q hq
  · rw [hother _ fun j _ h => slicePath_ne_list dir j h.symm]; exact hafter.list
  · rw [hother q hq.2.2]; exact hafter.others q hq
  · rw [List.forall₂_reverse_iff, List.forall₂_iff_get] at a2
    have := a2.2 j (by omega) (by simpa using hj)
    simp only [List.get_eq_getElem, List.getElem_map, List.getElem_range, hat] at this
    exact this

/-- An even split succeeds and writes an even split of the store: the keys, in order (shuffled if there is a seed), are dealt to the
slices in turn.  The list of the slices names them in order.  (The source may be any that serves the mapping as long as nothing but what the
split writes has changed.) -/
theorem C63_even_split (order : List Str → List Str) (horder : ∀ l, (order l).Perm l) (shuffle : PVal → List Str → List Str)
    (hshuffle : ∀ s l, (shuffle s l).Perm l) (cwd : PyPath) (src : FS → KVSource Bytes) (M : Str → Option Bytes)
    (hkeys : ∀ k, (M k).isSome = true → PlainKey k) (p : Params) (dir : Loc) (n : Nat) (seed : PVal) (hp : EvenParams cwd p dir n seed)
    (fs : FS) (hf : EvenPlace fs dir n) (hs : ServesWhile src (EvenKept dir n) fs M) :
    ∃ fs' ks sorted slice, evenSplit order shuffle cwd src p fs = (.ok (), fs') ∧ EvenAfter fs dir n fs' ∧
      (∀ j, j < n → Stores fs' (dir ++ [(toString j).toList ++ ".zip".toList]) (slice j)) ∧ EvenSlices n M slice ∧
      KeysOf M sorted ∧ sorted.Pairwise (fun a b => strLe a b = true) ∧ (seed = .none → ks = sorted) ∧ (seed ≠ .none → ks = shuffle seed sorted) ∧
      KeysOf M ks ∧ Dealt n ks M slice := by
  obtain ⟨outs, fs1, a1, a2, a3, a4, a5⟩ := evenSplit_start order shuffle src hp hf
  have hs := hs fs1 a5.others
  obtain ⟨ks0, hk1, hk2, hk3⟩ := hs.keys
  have hsort : sortedKeys (src fs1) = .ok (stableSort strLe ks0) := by simp [sortedKeys, hk1, bind, Except.bind]
  have hperm := stableSort_perm strLe ks0
  have hsorted : KeysOf M (stableSort strLe ks0) := ⟨hperm.nodup_iff.2 hk2, fun k => by rw [hperm.mem_iff, hk3]⟩
  have hlen : outs.length = n := by simpa using congrArg List.length a2
  have htruthy : seed.truthy = true ↔ seed ≠ .none := by
    rcases hp.seed with ⟨rfl, -⟩ | ⟨-, i, hi, hpos⟩
    · simp [PVal.truthy]
    · cases hi <;> simp [PVal.truthy] at hpos ⊢
      omega
  obtain ⟨ks, hks1, hks2, hks3, hks4⟩ : ∃ ks, (if seed.truthy then shuffle seed (stableSort strLe ks0) else stableSort strLe ks0) = ks ∧
      (seed = .none → ks = stableSort strLe ks0) ∧ (seed ≠ .none → ks = shuffle seed (stableSort strLe ks0)) ∧ KeysOf M ks := by
    by_cases h : seed = .none
    · refine ⟨stableSort strLe ks0, by rw [if_neg]; rw [htruthy]; simpa using h, fun _ => rfl, fun h' => absurd h h', hsorted⟩
    · have hp' := hshuffle seed (stableSort strLe ks0)
      exact ⟨_, by rw [if_pos (htruthy.2 h)], fun h' => absurd h' h, fun _ => rfl,
        hp'.nodup_iff.2 hsorted.1, fun k => by rw [hp'.mem_iff, hsorted.2]⟩
  obtain ⟨outs', b1, b2, b3⟩ := deal_spec (order := order) hp.positive hs ks 0 outs hlen (fun _ _ => none)
    (fun j o hj => a3 o (List.mem_of_getElem? hj)) hks4.1 (fun k hk => ⟨hkeys k ((hks4.2 k).1 hk), (hks4.2 k).1 hk, fun _ _ => rfl⟩)
  obtain ⟨fs2, c1, c2, c3⟩ := evenSplit_end horder (b2.trans a2) a4 a5 (fun j => dealt n M 0 j ks fun _ => none) b3 none
  have hd : Dealt n ks M (fun j => dealt n M 0 j ks fun _ => none) := by
    intro j k v
    simp only [dealt]
    split
    · rename_i h; simp only [Nat.zero_add] at h; exact ⟨fun hv => ⟨hv, h⟩, fun hv => hv.1⟩
    · rename_i h; simp only [Nat.zero_add] at h; exact ⟨by simp, fun hv => absurd hv.2 h⟩
  refine ⟨fs2, ks, _, _, ?_, c2, c3, evenSlices_of_dealt hp.positive hks4 hd, hsorted, stableSort_sorted strLe_total
    (fun a b c h1 h2 => strLe_trans h1 h2) ks0, hks2, hks3, hks4, hd⟩
  rw [a1]
  simp only [evenBody, hsort, hks1, b1, c1, raised]

/-- If the source cannot list its keys, `TypeError` is raised (other exceptions of the source are passed on); the slices are left empty. -/
theorem C63_no_keys (order : List Str → List Str) (horder : ∀ l, (order l).Perm l) (shuffle : PVal → List Str → List Str)
    (cwd : PyPath) (src : FS → KVSource Bytes) (e : Exc)
    (hs : ∀ fs, ((src fs).keys = .ok none ∧ e = .typeError) ∨ (src fs).keys = .error e) (p : Params) (dir : Loc)
    (n : Nat) (seed : PVal) (hp : EvenParams cwd p dir n seed) (fs : FS) (hf : EvenPlace fs dir n) :
    ∃ fs', evenSplit order shuffle cwd src p fs = (.error e, fs') ∧ EvenAfter fs dir n fs' ∧
      ∀ j, j < n → Stores fs' (dir ++ [(toString j).toList ++ ".zip".toList]) fun _ => none := by
  obtain ⟨outs, fs1, a1, a2, a3, a4, a5⟩ := evenSplit_start order shuffle src hp hf
  have hsort : sortedKeys (src fs1) = .error e := by
    rcases hs fs1 with ⟨h, rfl⟩ | h <;> simp [sortedKeys, h, bind, Except.bind]
  obtain ⟨fs2, c1, c2, c3⟩ := evenSplit_end horder a2 a4 a5 (fun _ _ => none) (fun j o hj => a3 o (List.mem_of_getElem? hj)) (some e)
  refine ⟨fs2, ?_, c2, c3⟩
  rw [a1]
  simp only [evenBody, hsort, c1, raised]

/-- Wrong parameters: without a string `output_dir`, `ParameterError` (see `Refused`, here and below) and no change; a file in the way of it, `OSError` and no change;
a `num_slices` that is not a positive integer, or such a seed, `ParameterError`, when only the directory has been created. -/
theorem C63_errors (order : List Str → List Str) (shuffle : PVal → List Str → List Str) (cwd : PyPath) (src : FS → KVSource Bytes)
    (p : Params) (hwf : p.WF) (fs : FS) (ht : fs.Tree) :
    ((¬ ∃ dir, PathIs cwd p "output_dir".toList dir) →
      ∃ e, Params.Refused p "output_dir".toList .none e ∧ evenSplit order shuffle cwd src p fs = (.error e, fs)) ∧
    (∀ dir, PathIs cwd p "output_dir".toList dir → fs.Blocked dir → evenSplit order shuffle cwd src p fs = (.error .ioError, fs)) ∧
    (∀ dir, PathIs cwd p "output_dir".toList dir → ¬ fs.Blocked dir →
      ((¬ ∃ v i, Params.Found p "num_slices".toList .none v ∧ Params.CountsAs v i ∧ i > 0) →
        ∃ e fs', Params.Refused p "num_slices".toList .none e ∧ evenSplit order shuffle cwd src p fs = (.error e, fs') ∧ fs.WithDirs dir fs') ∧
      ((∃ v i, Params.Found p "num_slices".toList .none v ∧ Params.CountsAs v i ∧ i > 0) →
        (∃ v, v ≠ .none ∧ Params.Found p "random_seed".toList .none v ∧ ¬ ∃ i, Params.CountsAs v i ∧ i > 0) →
        ∃ e fs', Params.Refused p "random_seed".toList .none e ∧ evenSplit order shuffle cwd src p fs = (.error e, fs') ∧ fs.WithDirs dir fs')) := by
  obtain ⟨h1, h2, h3⟩ := Params.C73_creatable_directory cwd p hwf "output_dir".toList fs ht
  refine ⟨fun h => ?_, fun dir hd hb => ?_, fun dir hd hb => ⟨fun hbad => ?_, fun hgood hbad => ?_⟩⟩
  · obtain ⟨e, he, hx⟩ := h3 h
    exact ⟨e, he, by simp only [evenSplit, Prog.bind_apply, hx]⟩
  · simp only [evenSplit, Prog.bind_apply, h2 dir hd hb]
  · obtain ⟨fs', a1, a2, -⟩ := h1 dir hd hb
    obtain ⟨n1, n2⟩ := Params.C47_positive_integer p hwf "num_slices".toList .none
    cases hn : p.positiveInteger "num_slices".toList with
    | error e =>
      refine ⟨e, fs', n2 e hn, ?_, a2⟩
      simp only [evenSplit, Prog.bind_apply, a1, Prog.ofRes_apply, hn]
    | ok v =>
      obtain ⟨hv, i, hi, hpos⟩ := (n1 v).1 hn
      exact absurd ⟨v, i, hv, hi, hpos⟩ hbad
  · obtain ⟨fs', a1, a2, -⟩ := h1 dir hd hb
    obtain ⟨n1, n2⟩ := Params.C47_positive_integer p hwf "num_slices".toList .none
    cases hn : p.positiveInteger "num_slices".toList with
    | error e =>
      obtain ⟨v, i, hv, hi, hpos⟩ := hgood
      have := (n1 v).2 ⟨hv, i, hi, hpos⟩
      rw [hn] at this; cases this
    | ok v =>
      obtain ⟨w, hw, hfw, hbad⟩ := hbad
      have hpres : Params.Present p "random_seed".toList := by
        rcases hfw with h | ⟨-, h, -⟩
        · exact ⟨w, hw, h⟩
        · exact absurd rfl h
      obtain ⟨s1, s2⟩ := Params.C47_positive_integer p hwf "random_seed".toList .none
      have hs : ∃ e, Params.Refused p "random_seed".toList .none e ∧ p.optionalPositiveInteger "random_seed".toList = .error e := by
        rw [(Params.C48_positive_integer p hwf _ .none).1 hpres]
        cases hs : p.positiveInteger "random_seed".toList with
        | error e => exact ⟨e, s2 e hs, rfl⟩
        | ok u =>
          obtain ⟨hu, hui⟩ := (s1 u).1 hs
          have : u = w := by
            have g1 := Params.privateGet_of_found hwf hu
            have g2 := Params.privateGet_of_found hwf hfw
            rw [g1] at g2; simpa using g2
          exact absurd (this ▸ hui) hbad
      obtain ⟨e, he, hs⟩ := hs
      exact ⟨e, fs', he, by simp only [evenSplit, Prog.bind_apply, a1, Prog.ofRes_apply, hn, hs], a2⟩

/-! ## Example -/

namespace SplitExample

/-- A store kept in memory. -/
def memory (m : List (Str × Str)) : KVSource Bytes := pathMapping (fun s => .ok (encodeUtf8 s)) m

theorem serves_memory (m : List (Str × Str)) (h : (m.map (·.1)).Nodup) (allowed : Str → Prop) :
    Zip.Serves (memory m) allowed (fun k => (dictGet m k).map encodeUtf8) where
  keys := ⟨m.map (·.1), rfl, h, fun k => by
    rw [Option.isSome_map, Option.isSome_iff_ne_none, ne_eq, dictGet_none_iff, not_not]⟩
  present k v hv := by
    obtain ⟨s, h1, h2⟩ := Option.map_eq_some_iff.1 hv
    refine ⟨by simp [memory, pathMapping, h1, h2], fun D d => by simp [memory, pathMapping, h1, h2, bind, Except.bind]⟩
  absent k _ hk := by
    have : dictGet m k = none := by simpa using hk
    refine ⟨by simp [memory, pathMapping, this], fun D d => by simp [memory, pathMapping, this]⟩

def home : PyPath := ⟨['/'], ["home".toList]⟩
def entries : List (Str × Str) := [("b".toList, "x".toList), ("a".toList, "y".toList), ("c".toList, "z".toList)]
def par (seed : List (Str × PVal)) : Params := ⟨[], [("output_dir".toList, .str "o".toList), ("num_slices".toList, .int 2)] ++ seed⟩
def fs : FS := [(["home".toList], .dir), (["home".toList, "f".toList], .file (.data (encodeUtf8 [])))]
/-- The keys in the zip file, after a script that succeeded. -/
def keysAt (l : Loc) (r : Res Unit × FS) : Option (List Str) :=
  match r.1, zipBytesSource l r.2 with
  | .ok _, (.ok s, _) => match s.asSource.keys with
    | .ok ks => ks
    | .error _ => none
  | _, _ => none

theorem par_wf (seed : List (Str × PVal)) (h : seed = [] ∨ seed = [("random_seed".toList, .int 7)]) : (par seed).WF := by
  rcases h with rfl | rfl <;> exact flat_wf _ _ (by decide) (by decide)

theorem even_params : EvenParams home (par []) ["home".toList, "o".toList] 2 .none where
  wf := par_wf _ (.inl rfl)
  dir := ((Params.pathParam_spec home (par_wf _ (.inl rfl)) _).1 _).1 rfl
  slices := ⟨.int 2, (((Params.C47_positive_integer _ (par_wf _ (.inl rfl)) "num_slices".toList .none).1 _).1 rfl).1, .int 2⟩
  positive := by decide
  seed := .inl ⟨rfl, by rw [← Params.contains_present (par_wf _ (.inl rfl))]; decide⟩

theorem seeded_params : EvenParams home (par [("random_seed".toList, .int 7)]) ["home".toList, "o".toList] 2 (.int 7) where
  wf := par_wf _ (.inr rfl)
  dir := ((Params.pathParam_spec home (par_wf _ (.inr rfl)) _).1 _).1 rfl
  slices := ⟨.int 2, (((Params.C47_positive_integer _ (par_wf _ (.inr rfl)) "num_slices".toList .none).1 _).1 rfl).1, .int 2⟩
  positive := by decide
  seed := .inr ⟨(((Params.C47_positive_integer _ (par_wf _ (.inr rfl)) "random_seed".toList .none).1 _).1 rfl).1, 7, .int 7, by decide⟩

theorem even_place : EvenPlace fs ["home".toList, "o".toList] 2 where
  tree := tree_of_check (by decide +kernel)
  free := not_blocked_of_check (by decide +kernel)
  list := not_dir_of_check (by decide +kernel)
  slices j hj := by
    obtain rfl | rfl : j = 0 ∨ j = 1 := by omega
    all_goals exact not_dir_of_check (by decide +kernel)

theorem entries_plain (k : Str) (h : (((dictGet entries k).map encodeUtf8).isSome : Bool) = true) : PlainKey k := by
  rw [Option.isSome_map, Option.isSome_iff_ne_none, ne_eq, dictGet_none_iff, not_not] at h
  simp only [entries, List.map_cons, List.map_nil, List.mem_cons, List.not_mem_nil, or_false] at h
  rcases h with rfl | rfl | rfl <;> constructor <;> decide

/-- The hypotheses of `C63_even_split` hold of a store with three keys. -/
example := C63_even_split id (fun _ => .refl _) (fun _ => List.reverse) (fun _ l => l.reverse_perm) home (fun _ => memory entries) _
  entries_plain _ _ 2 _ even_params fs even_place (fun _ _ => serves_memory entries (by decide) _)
example := C63_even_split id (fun _ => .refl _) (fun _ => List.reverse) (fun _ l => l.reverse_perm) home (fun _ => memory entries) _
  entries_plain _ _ 2 _ seeded_params fs even_place (fun _ _ => serves_memory entries (by decide) _)
example : keysAt ["home".toList, "o".toList, "0.zip".toList] (evenSplit id (fun _ => List.reverse) home (fun _ => memory entries) (par []) fs) =
    some ["a".toList, "c".toList] := by decide +kernel
example : keysAt ["home".toList, "o".toList, "1.zip".toList] (evenSplit id (fun _ => List.reverse) home (fun _ => memory entries) (par []) fs) =
    some ["b".toList] := by decide +kernel
/-- A source that cannot list its keys. -/
example := C63_no_keys id (fun _ => .refl _) (fun _ => List.reverse) home
  (fun _ => ⟨.ok none, fun _ => .error .keyError, fun _ _ d => .ok (.inr d)⟩) _ (fun _ => .inl ⟨rfl, rfl⟩) _ _ 2 _ even_params fs even_place
end SplitExample

end Vista
