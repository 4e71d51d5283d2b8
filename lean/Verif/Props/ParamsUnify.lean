import Verif.Props.Params

/-!
# Properties C45-C46: `unify`
-/
set_option linter.unusedSectionVars false
set_option linter.unusedSimpArgs false
namespace Vista
namespace Params
open PVal

/-! ## Specification -/

/-- The two sides disagree about a path: one has a namespace there, the other a parameter (a `None` on the right-hand side does
not count, a `None` on the left-hand side does). -/
def Conflict (p q : PVal) : Prop :=
  ∃ path u w, p.Reaches path u ∧ q.Reaches path w ∧ w ≠ .none ∧ u.isParams ≠ w.isParams

/-! ## One level -/

/-- The value stored under one key, in terms of the values on both sides. -/
def combine (pfx : List Str) (k : Str) : Option PVal → Option PVal → Res (Option PVal)
  | Option.none, x => .ok x
  | some o, Option.none => .ok (some o)
  | some o, some n => if n.isNone then .ok (some o) else (unifyVal (pfx ++ [k]) o n).map some

theorem unifyEntry_fst {pfx : List Str} {q : Params} {e e' : Str × PVal} (h : unifyEntry pfx q e = .ok e') : e'.1 = e.1 := by
  obtain ⟨k, old⟩ := e
  simp only [unifyEntry] at h
  split at h
  · cases hg : dictGet q.data k with
    | none => simp [hg] at h
    | some nv =>
      simp only [hg, bind, Except.bind] at h
      cases hu : unifyVal (pfx ++ [k]) old nv with
      | error e => simp [hu] at h
      | ok v => simp only [hu, Except.ok.injEq] at h; rw [← h]
  · simp only [Except.ok.injEq] at h; rw [← h]

/-- What one item becomes. -/
theorem unifyEntry_eq {pfx : List Str} {q : Params} (hq : q.Tree) {k : Str} (hk : '.' ∉ k) (old : PVal) :
    unifyEntry pfx q (k, old) = (combine pfx k (some old) (dictGet q.data k)).map fun v => (k, v.getD old) := by
  have hcon := contains_key hq.wf hk
  simp only [unifyEntry]
  cases hg : dictGet q.data k with
  | none =>
    have : q.contains k = false := by
      rw [← Bool.not_eq_true, hcon]
      rintro ⟨v, -, h⟩; rw [hg] at h; simp at h
    simp [this, combine, Except.map]
  | some nv =>
    cases hn : nv.isNone with
    | true =>
      have : q.contains k = false := by
        rw [← Bool.not_eq_true, hcon]
        rintro ⟨v, h1, h⟩; rw [hg] at h; simp only [Option.some.injEq] at h; subst h; rw [hn] at h1; simp at h1
      simp [this, combine, hn, Except.map]
    | false =>
      have : q.contains k = true := hcon.2 ⟨nv, hn, hg⟩
      simp only [this, if_true, combine, hn, Bool.false_eq_true, if_false, bind, Except.bind]
      cases unifyVal (pfx ++ [k]) old nv <;> rfl

/-- The loop over the old items, as a map. -/
theorem unifyEntries_ok (pfx : List Str) (q : Params) (es acc : Entries) (hn : (es.map (·.1)).Nodup)
    (hdis : ∀ e ∈ es, e.1 ∉ acc.map (·.1)) (f : Str × PVal → PVal)
    (h : ∀ e ∈ es, unifyEntry pfx q e = .ok (e.1, f e)) :
    unifyEntries pfx q es acc = .ok (acc ++ es.map fun e => (e.1, f e)) := by
  induction es generalizing acc with
  | nil => simp [unifyEntries]
  | cons e es ih =>
    obtain ⟨k, v⟩ := e
    simp only [List.map_cons, List.nodup_cons] at hn
    have h0 := h _ (List.mem_cons_self ..)
    have hset : dictSet k (f (k, v)) acc = acc ++ [(k, f (k, v))] := by
      have hk := hdis _ (List.mem_cons_self ..)
      clear ih h h0 hdis hn
      induction acc with
      | nil => rfl
      | cons a acc ih =>
        obtain ⟨a, b⟩ := a
        simp only [List.map_cons, List.mem_cons, not_or] at hk
        simp only [dictSet, if_neg (Ne.symm hk.1), ih hk.2, List.cons_append]
    simp only [unifyEntries, h0, bind, Except.bind, hset]
    rw [ih _ hn.2 ?_ fun e he => h e (List.mem_cons_of_mem _ he)]
    · simp
    · intro e he
      simp only [List.map_append, List.map_cons, List.map_nil, List.mem_append, List.mem_singleton, not_or]
      refine ⟨hdis e (List.mem_cons_of_mem _ he), ?_⟩
      intro heq
      exact hn.1 (List.mem_map.2 ⟨e, he, heq⟩)

theorem unifyEntries_error (pfx : List Str) (q : Params) (es acc : Entries) (x : Exc)
    (hall : ∀ e ∈ es, (∃ e', unifyEntry pfx q e = .ok e') ∨ unifyEntry pfx q e = .error x)
    (h : ∃ e ∈ es, unifyEntry pfx q e = .error x) :
    unifyEntries pfx q es acc = .error x := by
  induction es generalizing acc with
  | nil => simp at h
  | cons e es ih =>
    rcases hall e (List.mem_cons_self ..) with ⟨e', h'⟩ | h'
    · simp only [unifyEntries, h', bind, Except.bind]
      refine ih _ (fun e he => hall e (List.mem_cons_of_mem _ he)) ?_
      obtain ⟨e1, he1, hx⟩ := h
      rcases List.mem_cons.1 he1 with rfl | he1
      · rw [h'] at hx; simp at hx
      · exact ⟨e1, he1, hx⟩
    · simp only [unifyEntries, h', bind, Except.bind]

/-- The loop over the new items. -/
theorem addNew_spec (p : Params) (nes ret : Entries) (hr : (ret.map (·.1)).Nodup) (hn : (nes.map (·.1)).Nodup) :
    ((addNew p nes ret).map (·.1)).Nodup ∧
    (∀ k, dictGet (addNew p nes ret) k = if p.contains k = false ∧ k ∈ nes.map (·.1) then dictGet nes k else dictGet ret k) ∧
    (addNew p nes ret).map (·.1) = ret.map (·.1) ++
      (nes.map (·.1)).filter fun k => decide (k ∉ ret.map (·.1)) && !(p.contains k) := by
  induction nes generalizing ret with
  | nil => exact ⟨hr, by simp [addNew], by simp [addNew]⟩
  | cons e nes ih =>
    obtain ⟨a, b⟩ := e
    simp only [List.map_cons, List.nodup_cons] at hn
    unfold addNew
    cases hc : p.contains a with
    | true =>
      obtain ⟨h1, h2, h3⟩ := ih ret hr hn.2
      simp only [if_true]
      refine ⟨h1, ?_, ?_⟩
      · intro k
        rw [h2 k, dictGet_cons]
        by_cases hka : k = a
        · subst hka; rw [hc]; simp
        · have hm : k ∈ ((a, b) :: nes).map (·.1) ↔ k ∈ nes.map (·.1) := by
            rw [List.map_cons, List.mem_cons]; simp [hka]
          rw [if_neg hka, if_congr (and_congr_right fun _ => hm) rfl rfl]
      · rw [h3]; simp [hc]
    | false =>
      simp only [Bool.false_eq_true, if_false]
      obtain ⟨h1, h2, h3⟩ := ih (dictSet a b ret) (nodup_dictSet a b hr) hn.2
      refine ⟨h1, ?_, ?_⟩
      · intro k
        rw [h2 k, dictGet_dictSet, dictGet_cons]
        by_cases hka : k = a
        · subst hka
          have : k ∉ nes.map (·.1) := hn.1
          rw [if_neg (fun h => this h.2), if_pos rfl, if_pos ⟨hc, List.mem_map.2 ⟨(k, b), List.mem_cons_self .., rfl⟩⟩, if_pos rfl]
        · have hm : k ∈ ((a, b) :: nes).map (·.1) ↔ k ∈ nes.map (·.1) := by
            rw [List.map_cons, List.mem_cons]; simp [hka]
          rw [if_neg hka, if_neg hka, if_congr (and_congr_right fun _ => hm) rfl rfl]
      · rw [h3, keys_dictSet_eq]
        simp only [List.map_cons, List.filter_cons, hc, Bool.not_false, Bool.and_true, decide_eq_true_eq]
        have hfil : ∀ k ∈ nes.map (·.1), (k ∈ ret.map (·.1) ∨ k = a) ↔ k ∈ ret.map (·.1) := by
          intro k hk
          constructor
          · rintro (h | rfl)
            · exact h
            · exact absurd hk hn.1
          · exact .inl
        by_cases ha : a ∈ ret.map (·.1)
        · rw [if_pos ha, if_neg (not_not.2 ha)]
        · rw [if_neg ha, if_pos ha, List.append_assoc, List.singleton_append]
          congr 2
          refine List.filter_congr fun k hk => ?_
          have := hfil k hk
          simp only [List.mem_append, List.mem_singleton] at this ⊢
          simp only [this]

theorem combine_tree {pfx k} {o n r : Option PVal} (ho : ∀ v, o = some v → v.Tree) (hn : ∀ v, n = some v → v.Tree)
    (hu : ∀ a b c, o = some a → n = some b → unifyVal (pfx ++ [k]) a b = .ok c → c.Tree)
    (h : combine pfx k o n = .ok r) : ∀ v, r = some v → v.Tree := by
  intro v hv
  subst hv
  cases o with
  | none => simp only [combine, Except.ok.injEq] at h; exact hn v h
  | some a =>
    cases n with
    | none => simp only [combine, Except.ok.injEq, Option.some.injEq] at h; exact ho v (by rw [h])
    | some b =>
      simp only [combine] at h
      split at h
      · simp only [Except.ok.injEq, Option.some.injEq] at h; exact ho v (by rw [h])
      · cases hc : unifyVal (pfx ++ [k]) a b with
        | error e => simp [hc, Except.map] at h
        | ok c =>
          simp only [hc, Except.map, Except.ok.injEq, Option.some.injEq] at h
          exact h ▸ hu a b c rfl rfl hc

/-- The body shared by `unify` and its recursive call. -/
def unifyBody (pfx : List Str) (p q : Params) : Res Params := do
  let ret ← unifyEntries pfx q p.data []
  fromMapping (addNew p q.data ret) pfx

theorem unify_eq_body (p q : Params) (pfx) : p.unify q pfx = unifyBody pfx p q := rfl

theorem unifyVal_params (pfx a es b nes) :
    unifyVal pfx (.params a es) (.params b nes) = (unifyBody pfx ⟨a, es⟩ ⟨b, nes⟩).map toVal := by
  simp only [unifyVal, unifyBody, bind, Except.bind]
  cases unifyEntries pfx ⟨b, nes⟩ es [] with
  | error e => rfl
  | ok r => simp only; cases fromMapping (addNew ⟨a, es⟩ nes r) pfx <;> rfl

theorem unifyVal_mixed {pfx} {o n : PVal} (h : o.isParams ≠ n.isParams) : unifyVal pfx o n = .error .ioError := by
  cases o <;> cases n <;> first | rfl | simp [isParams] at h

theorem unifyVal_leaves {pfx} {o n : PVal} (ho : o.isParams = false) (hn : n.isParams = false) : unifyVal pfx o n = .ok n := by
  cases o <;> cases n <;> first | rfl | simp [isParams] at ho hn

/-- What `unify` does at one level, when the recursive calls on nested namespaces keep the shape of the tree. -/
theorem unifyBody_spec (pfx : List Str) (p q : Params) (hp : p.Tree) (hq : q.Tree)
    (hu : ∀ k o n r, (k, o) ∈ p.data → (k, n) ∈ q.data → unifyVal (pfx ++ [k]) o n = .ok r → r.Tree)
    (hx : ∀ k o n x, (k, o) ∈ p.data → (k, n) ∈ q.data → unifyVal (pfx ++ [k]) o n = .error x → x = .ioError) :
    ((∃ k x, combine pfx k (dictGet p.data k) (dictGet q.data k) = .error x) → unifyBody pfx p q = .error .ioError) ∧
    ((¬ ∃ k x, combine pfx k (dictGet p.data k) (dictGet q.data k) = .error x) → ∃ es, unifyBody pfx p q = .ok ⟨pfx, es⟩ ∧
      (PVal.params pfx es).Tree ∧
      (∀ k, combine pfx k (dictGet p.data k) (dictGet q.data k) = .ok (dictGet es k)) ∧
      es.map (·.1) = p.data.map (·.1) ++ (q.data.map (·.1)).filter fun k => decide (k ∉ p.data.map (·.1))) := by
  obtain ⟨hpn, hpd, hpt⟩ := PVal.Tree.inv hp
  obtain ⟨hqn, hqd, hqt⟩ := PVal.Tree.inv hq
  have hentry : ∀ e ∈ p.data, unifyEntry pfx q e =
      (combine pfx e.1 (dictGet p.data e.1) (dictGet q.data e.1)).map fun v => (e.1, v.getD e.2) := by
    rintro ⟨k, v⟩ he
    rw [unifyEntry_eq hq (hpd _ he), (dictGet_iff hpn k v).2 he]
  have hbad : ∀ k x, combine pfx k (dictGet p.data k) (dictGet q.data k) = .error x →
      ∃ o, (k, o) ∈ p.data ∧ x = .ioError := by
    intro k x h
    cases ho : dictGet p.data k with
    | none => rw [ho] at h; simp [combine] at h
    | some o =>
      have hm := (dictGet_iff hpn k o).1 ho
      refine ⟨o, hm, ?_⟩
      rw [ho] at h
      cases hq' : dictGet q.data k with
      | none => rw [hq'] at h; simp [combine] at h
      | some n =>
        rw [hq'] at h
        simp only [combine] at h
        split at h
        · simp at h
        · cases hc : unifyVal (pfx ++ [k]) o n with
          | ok c => simp [hc, Except.map] at h
          | error e =>
            simp only [hc, Except.map, Except.error.injEq] at h
            exact h ▸ hx k o n e hm ((dictGet_iff hqn k n).1 hq') hc
  constructor
  · rintro ⟨k, x, h⟩
    obtain ⟨o, hm, rfl⟩ := hbad k x h
    have : unifyEntries pfx q p.data [] = .error .ioError := by
      refine unifyEntries_error pfx q _ _ _ ?_ ⟨(k, o), hm, ?_⟩
      · intro e he
        rw [hentry e he]
        cases hc : combine pfx e.1 (dictGet p.data e.1) (dictGet q.data e.1) with
        | ok v => exact .inl ⟨_, rfl⟩
        | error y => obtain ⟨-, -, rfl⟩ := hbad _ _ hc; exact .inr rfl
      · rw [hentry _ hm, h]; rfl
    simp only [unifyBody, this, bind, Except.bind]
  · intro hgood
    have hok : ∀ k, ∃ v, combine pfx k (dictGet p.data k) (dictGet q.data k) = .ok v := by
      intro k
      cases hc : combine pfx k (dictGet p.data k) (dictGet q.data k) with
      | ok v => exact ⟨v, rfl⟩
      | error x => exact absurd ⟨k, x, hc⟩ hgood
    obtain ⟨g, hg⟩ := Classical.axiomOfChoice hok
    have hrun := unifyEntries_ok pfx q p.data [] hpn (by simp) (fun e => (g e.1).getD e.2) (by
      intro e he
      rw [hentry e he, hg]; rfl)
    rw [List.nil_append] at hrun
    generalize hret : (p.data.map fun e => (e.1, (g e.1).getD e.2)) = ret at hrun
    have hkeys : ret.map (·.1) = p.data.map (·.1) := by
      rw [← hret, List.map_map]; rfl
    have hrn : (ret.map (·.1)).Nodup := hkeys ▸ hpn
    have hretget : ∀ k, dictGet ret k = if k ∈ p.data.map (·.1) then g k else Option.none := by
      intro k
      by_cases hk : k ∈ p.data.map (·.1)
      · rw [if_pos hk]
        obtain ⟨⟨k', o⟩, hm, e⟩ := List.mem_map.1 hk
        simp only at e; subst e
        have h1 : (k', (g k').getD o) ∈ ret := by rw [← hret]; exact List.mem_map.2 ⟨_, hm, rfl⟩
        rw [(dictGet_iff hrn _ _).2 h1]
        have h2 := hg k'
        rw [(dictGet_iff hpn _ _).2 hm] at h2
        cases hgk : g k' with
        | some v => rfl
        | none =>
          exfalso
          rw [hgk] at h2
          cases hq' : dictGet q.data k' with
          | none => rw [hq'] at h2; simp [combine] at h2
          | some n =>
            rw [hq'] at h2
            simp only [combine] at h2
            split at h2
            · simp at h2
            · cases hc : unifyVal (pfx ++ [k']) o n <;> simp [hc, Except.map] at h2
      · rw [if_neg hk, dictGet_none_iff, hkeys]; exact hk
    obtain ⟨a1, a2, a3⟩ := addNew_spec p q.data ret hrn hqn
    have hget : ∀ k, dictGet (addNew p q.data ret) k = g k := by
      intro k
      rw [a2 k, hretget k]
      have h2 := hg k
      cases ho : dictGet p.data k with
      | none =>
        have hk : k ∉ p.data.map (·.1) := (dictGet_none_iff _ _).1 ho
        rw [ho] at h2
        simp only [combine, Except.ok.injEq] at h2
        rw [if_neg hk]
        by_cases hkq : k ∈ q.data.map (·.1)
        · have hdot : '.' ∉ k := by
            obtain ⟨e, he, h⟩ := List.mem_map.1 hkq
            exact h ▸ hqd e he
          have : p.contains k = false := by
            rw [← Bool.not_eq_true, contains_key (PVal.Tree.wf hp) hdot]
            rintro ⟨v, -, h⟩; rw [ho] at h; simp at h
          rw [if_pos ⟨this, hkq⟩, h2]
        · rw [if_neg (fun h => hkq h.2)]
          rw [← h2, (dictGet_none_iff _ _).2 hkq]
      | some o =>
        have hm := (dictGet_iff hpn _ _).1 ho
        have hk : k ∈ p.data.map (·.1) := List.mem_map.2 ⟨_, hm, rfl⟩
        rw [if_pos hk]
        have hdot := hpd _ hm
        by_cases hcase : p.contains k = false ∧ k ∈ q.data.map (·.1)
        · rw [if_pos hcase]
          have hnone : o.isNone = true := by
            by_contra hne
            have : p.contains k = true := (contains_key (PVal.Tree.wf hp) hdot).2 ⟨o, by simpa using hne, ho⟩
            rw [hcase.1] at this; simp at this
          obtain rfl := (isNone_iff o).1 hnone
          rw [ho] at h2
          obtain ⟨n, hn⟩ := (dictGet_isSome_iff q.data k).2 hcase.2
          rw [hn] at h2 ⊢
          simp only [combine] at h2
          split at h2
          · rename_i hnn
            obtain rfl := (isNone_iff n).1 hnn
            simpa using h2
          · simp only [unifyVal] at h2
            split at h2
            · simp [Except.map] at h2
            · simpa [Except.map] using h2
        · rw [if_neg hcase]
    have hkeys' : (addNew p q.data ret).map (·.1) =
        p.data.map (·.1) ++ (q.data.map (·.1)).filter fun k => decide (k ∉ p.data.map (·.1)) := by
      rw [a3, hkeys]
      congr 1
      refine List.filter_congr fun k hk => ?_
      by_cases hkp : k ∈ p.data.map (·.1)
      · simp [hkp]
      · have hdot : '.' ∉ k := by
          obtain ⟨e, he, h⟩ := List.mem_map.1 hk
          exact h ▸ hqd e he
        have : p.contains k = false := by
          rw [← Bool.not_eq_true, contains_key (PVal.Tree.wf hp) hdot]
          rintro ⟨v, -, h⟩
          exact hkp ((dictGet_isSome_iff _ _).1 ⟨v, h⟩)
        simp [this]
    have htree : ∀ e ∈ addNew p q.data ret, e.2.Tree := by
      rintro ⟨k, v⟩ he
      have hv := (dictGet_iff a1 k v).2 he
      rw [hget] at hv
      refine combine_tree (r := g k) ?_ ?_ ?_ (hg k) v hv
      · intro o ho; exact hpt _ ((dictGet_iff hpn _ _).1 ho)
      · intro n hn; exact hqt _ ((dictGet_iff hqn _ _).1 hn)
      · intro a b c ha hb hc
        exact hu k a b c ((dictGet_iff hpn _ _).1 ha) ((dictGet_iff hqn _ _).1 hb) hc
    have hdots : ∀ e ∈ addNew p q.data ret, '.' ∉ e.1 := by
      intro e he
      have : e.1 ∈ (addNew p q.data ret).map (·.1) := List.mem_map.2 ⟨e, he, rfl⟩
      rw [hkeys', List.mem_append, List.mem_filter] at this
      rcases this with h | ⟨h, -⟩
      · obtain ⟨e', he', h⟩ := List.mem_map.1 h; exact h ▸ hpd e' he'
      · obtain ⟨e', he', h⟩ := List.mem_map.1 h; exact h ▸ hqd e' he'
    refine ⟨addNew p q.data ret, ?_, .params a1 hdots htree, fun k => by rw [hg, hget], hkeys'⟩
    simp only [unifyBody, hrun, bind, Except.bind]
    exact fromMapping_of_not_mapping a1 hdots (fun e he => (htree e he).not_mapping) pfx

/-- The outcome of unifying two values is a tree, or `IOError`. -/
theorem unifyVal_shape (o : PVal) : ∀ n pfx, o.Tree → n.Tree →
    (∀ r, unifyVal pfx o n = .ok r → r.Tree) ∧ (∀ x, unifyVal pfx o n = .error x → x = .ioError) := by
  induction o using PVal.ind with
  | leaf o hl =>
    intro n pfx _ hn
    cases hnp : n.isParams with
    | true =>
      rw [unifyVal_mixed (by rw [hl.1, hnp]; simp)]
      exact ⟨by simp, fun x h => by simpa using h.symm⟩
    | false =>
      rw [unifyVal_leaves hl.1 hnp]
      exact ⟨fun r h => by simp only [Except.ok.injEq] at h; exact h ▸ hn, by simp⟩
  | dict es _ => intro n pfx h; exact absurd h.not_mapping (by simp [isMapping])
  | params a es ih =>
    intro n pfx ho hn
    rcases n.shape with hl | ⟨nes, rfl⟩ | ⟨b, nes, rfl⟩
    · rw [unifyVal_mixed (by rw [hl.1]; simp [isParams])]
      exact ⟨by simp, fun x h => by simpa using h.symm⟩
    · exact absurd hn.not_mapping (by simp [isMapping])
    · rw [unifyVal_params]
      have hih : ∀ k o n, (k, o) ∈ es → (k, n) ∈ nes → _ := fun k o n ho' hn' =>
        ih (k, o) ho' n (pfx ++ [k]) (ho.inv.2.2 _ ho') (hn.inv.2.2 _ hn')
      obtain ⟨h1, h2⟩ := unifyBody_spec pfx ⟨a, es⟩ ⟨b, nes⟩ ho hn
        (fun k o n r ho' hn' hr => (hih k o n ho' hn').1 r hr) (fun k o n x ho' hn' hr => (hih k o n ho' hn').2 x hr)
      by_cases hbad : ∃ k x, combine pfx k (dictGet es k) (dictGet nes k) = .error x
      · rw [h1 hbad]
        exact ⟨by simp [Except.map], fun x h => by simpa [Except.map] using h.symm⟩
      · obtain ⟨es', e1, e2, -⟩ := h2 hbad
        rw [e1]
        exact ⟨fun r h => by simp only [Except.map, Except.ok.injEq] at h; exact h ▸ e2, by simp [Except.map]⟩

/-- `unify` at one level, unconditionally. -/
theorem unify_spec (pfx : List Str) (p q : Params) (hp : p.Tree) (hq : q.Tree) :
    ((∃ k x, combine pfx k (dictGet p.data k) (dictGet q.data k) = .error x) → unifyBody pfx p q = .error .ioError) ∧
    ((¬ ∃ k x, combine pfx k (dictGet p.data k) (dictGet q.data k) = .error x) → ∃ es, unifyBody pfx p q = .ok ⟨pfx, es⟩ ∧
      (PVal.params pfx es).Tree ∧
      (∀ k, combine pfx k (dictGet p.data k) (dictGet q.data k) = .ok (dictGet es k)) ∧
      es.map (·.1) = p.data.map (·.1) ++ (q.data.map (·.1)).filter fun k => decide (k ∉ p.data.map (·.1))) :=
  unifyBody_spec pfx p q hp hq
    (fun k o n r ho hn hr => (unifyVal_shape o n (pfx ++ [k]) (hp.inv.2.2 _ ho) (hq.inv.2.2 _ hn)).1 r hr)
    (fun k o n x ho hn hr => (unifyVal_shape o n (pfx ++ [k]) (hp.inv.2.2 _ ho) (hq.inv.2.2 _ hn)).2 x hr)

/-! ## C45 -/

theorem reaches_step {pfx : List Str} {es : Entries} (hn : (es.map (·.1)).Nodup) {k ks v} :
    (PVal.params pfx es).Reaches (k :: ks) v ↔ ∃ u, dictGet es k = some u ∧ u.Reaches ks v := by
  rw [reaches_cons]
  constructor
  · rintro ⟨pfx', es', u, e, hm, hr⟩
    simp only [PVal.params.injEq] at e
    obtain ⟨-, rfl⟩ := e
    exact ⟨u, (dictGet_iff hn _ _).2 hm, hr⟩
  · rintro ⟨u, hg, hr⟩
    exact ⟨pfx, es, u, rfl, (dictGet_iff hn _ _).1 hg, hr⟩

theorem reaches_leaf {v w : PVal} (h : v.isParams = false) {path} : v.Reaches path w ↔ path = [] ∧ w = v := by
  constructor
  · intro h'
    cases h' with
    | here => exact ⟨rfl, rfl⟩
    | step => simp [isParams] at h
  · rintro ⟨rfl, rfl⟩; exact .here _

theorem not_none_of_isNone {v : PVal} (h : v.isNone = false) : v ≠ .none := by rintro rfl; simp [isNone] at h

theorem isNone_eq_false {v : PVal} : v.isNone = false ↔ v ≠ .none := by
  constructor
  · exact not_none_of_isNone
  · intro h
    cases hh : v.isNone with
    | false => rfl
    | true => exact absurd ((isNone_iff v).1 hh) h

theorem unifyVal_error_iff (o : PVal) : ∀ n pfx, o.Tree → n.Tree → n ≠ .none →
    ((∃ x, unifyVal pfx o n = .error x) ↔ Conflict o n) := by
  induction o using PVal.ind with
  | leaf o hl =>
    intro n pfx _ hn hne
    cases hnp : n.isParams with
    | true =>
      rw [unifyVal_mixed (by rw [hl.1, hnp]; simp)]
      exact iff_of_true ⟨_, rfl⟩ ⟨[], o, n, .here _, .here _, hne, by rw [hl.1, hnp]; simp⟩
    | false =>
      rw [unifyVal_leaves hl.1 hnp]
      refine iff_of_false (by simp) ?_
      rintro ⟨path, u, w, h1, h2, h3, h4⟩
      obtain ⟨rfl, rfl⟩ := (reaches_leaf hl.1).1 h1
      obtain ⟨-, rfl⟩ := (reaches_leaf hnp).1 h2
      rw [hl.1, hnp] at h4; exact h4 rfl
  | dict es _ => intro n pfx h; exact absurd h.not_mapping (by simp [isMapping])
  | params a es ih =>
    intro n pfx ho hn hne
    rcases n.shape with hl | ⟨nes, rfl⟩ | ⟨b, nes, rfl⟩
    · rw [unifyVal_mixed (by rw [hl.1]; simp [isParams])]
      exact iff_of_true ⟨_, rfl⟩ ⟨[], _, n, .here _, .here _, hne, by rw [hl.1]; simp [isParams]⟩
    · exact absurd hn.not_mapping (by simp [isMapping])
    · rw [unifyVal_params]
      obtain ⟨h1, h2⟩ := unify_spec pfx ⟨a, es⟩ ⟨b, nes⟩ ho hn
      have hl : (∃ x, (unifyBody pfx ⟨a, es⟩ ⟨b, nes⟩).map toVal = .error x) ↔
          ∃ k x, combine pfx k (dictGet es k) (dictGet nes k) = .error x := by
        constructor
        · rintro ⟨x, hx⟩
          by_contra hbad
          obtain ⟨es', e1, -⟩ := h2 hbad
          rw [e1] at hx; simp [Except.map] at hx
        · intro h; exact ⟨.ioError, by rw [h1 h]; rfl⟩
      rw [hl]
      constructor
      · rintro ⟨k, x, h⟩
        cases hgo : dictGet es k with
        | none => rw [hgo] at h; simp [combine] at h
        | some o' =>
          cases hgn : dictGet nes k with
          | none => rw [hgo, hgn] at h; simp [combine] at h
          | some n' =>
            rw [hgo, hgn] at h
            simp only [combine] at h
            split at h
            · simp at h
            · rename_i hnn
              have hmo := (dictGet_iff ho.inv.1 _ _).1 hgo
              have hmn := (dictGet_iff hn.inv.1 _ _).1 hgn
              have herr : ∃ x, unifyVal (pfx ++ [k]) o' n' = .error x := by
                cases hc : unifyVal (pfx ++ [k]) o' n' with
                | ok c => simp [hc, Except.map] at h
                | error e => exact ⟨e, rfl⟩
              obtain ⟨path, u, w, c1, c2, c3, c4⟩ := (ih _ hmo n' (pfx ++ [k]) (ho.inv.2.2 _ hmo) (hn.inv.2.2 _ hmn)
                (not_none_of_isNone (by simpa using hnn))).1 herr
              exact ⟨k :: path, u, w, .step hmo c1, .step hmn c2, c3, c4⟩
      · rintro ⟨path, u, w, c1, c2, c3, c4⟩
        cases path with
        | nil =>
          rw [reaches_nil] at c1 c2
          subst c1; subst c2
          exact absurd rfl c4
        | cons k ks =>
          obtain ⟨o', hgo, r1⟩ := (reaches_step ho.inv.1).1 c1
          obtain ⟨n', hgn, r2⟩ := (reaches_step hn.inv.1).1 c2
          have hmo := (dictGet_iff ho.inv.1 _ _).1 hgo
          have hmn := (dictGet_iff hn.inv.1 _ _).1 hgn
          have hnn : n' ≠ .none := by
            rintro rfl
            obtain ⟨-, rfl⟩ := (reaches_leaf rfl).1 r2
            exact c3 rfl
          obtain ⟨x, hx⟩ := (ih _ hmo n' (pfx ++ [k]) (ho.inv.2.2 _ hmo) (hn.inv.2.2 _ hmn) hnn).2 ⟨ks, u, w, r1, r2, c3, c4⟩
          refine ⟨k, x, ?_⟩
          rw [hgo, hgn]
          simp only [combine, isNone_eq_false.2 hnn, Bool.false_eq_true, if_false, hx, Except.map]

/-- What unification puts at a path, leaf or namespace. -/
theorem unifyVal_reaches (o : PVal) : ∀ n pfx r, o.Tree → n.Tree → n ≠ .none → unifyVal pfx o n = .ok r →
    (∀ path v, Leaf v → (r.Reaches path v ↔
      (n.Reaches path v ∧ (v ≠ .none ∨ ¬ ∃ u, u ≠ .none ∧ o.Reaches path u)) ∨
      (o.Reaches path v ∧ ¬ ∃ w, w ≠ .none ∧ n.Reaches path w))) ∧
    (∀ path, (∃ u, u.isParams = true ∧ r.Reaches path u) ↔
      (∃ u, u.isParams = true ∧ o.Reaches path u) ∨ (∃ u, u.isParams = true ∧ n.Reaches path u)) := by
  induction o using PVal.ind with
  | leaf o hl =>
    intro n pfx r _ hn hne hr
    cases hnp : n.isParams with
    | true => rw [unifyVal_mixed (by rw [hl.1, hnp]; simp)] at hr; simp at hr
    | false =>
      rw [unifyVal_leaves hl.1 hnp, Except.ok.injEq] at hr
      subst hr
      constructor
      · intro path v hv
        simp only [reaches_leaf hnp, reaches_leaf hl.1]
        constructor
        · rintro ⟨rfl, rfl⟩; exact .inl ⟨⟨rfl, rfl⟩, .inl hne⟩
        · rintro (⟨h, -⟩ | ⟨⟨rfl, rfl⟩, h⟩)
          · exact h
          · exact absurd ⟨n, hne, rfl, rfl⟩ h
      · intro path
        simp only [reaches_leaf hnp, reaches_leaf hl.1]
        constructor
        · rintro ⟨u, hu, -, rfl⟩; rw [hnp] at hu; simp at hu
        · rintro (⟨u, hu, -, rfl⟩ | ⟨u, hu, -, rfl⟩)
          · rw [hl.1] at hu; simp at hu
          · rw [hnp] at hu; simp at hu
  | dict es _ => intro n pfx r h; exact absurd h.not_mapping (by simp [isMapping])
  | params a es ih =>
    intro n pfx r ho hn hne hr
    rcases n.shape with hl | ⟨nes, rfl⟩ | ⟨b, nes, rfl⟩
    · rw [unifyVal_mixed (by rw [hl.1]; simp [isParams])] at hr; simp at hr
    · exact absurd hn.not_mapping (by simp [isMapping])
    · rw [unifyVal_params] at hr
      obtain ⟨h1, h2⟩ := unify_spec pfx ⟨a, es⟩ ⟨b, nes⟩ ho hn
      have hgood : ¬ ∃ k x, combine pfx k (dictGet es k) (dictGet nes k) = .error x := by
        intro h
        rw [h1 h] at hr; simp [Except.map] at hr
      obtain ⟨es', e1, e2, e3, -⟩ := h2 hgood
      rw [e1] at hr
      simp only [Except.map, Except.ok.injEq, toVal] at hr
      subst hr
      simp only at e3
      have hn1 := ho.inv.1
      have hn2 := hn.inv.1
      have hn3 := e2.inv.1
      -- the three-way case distinction at one key
      have hkey : ∀ k, (dictGet es k = Option.none ∧ dictGet es' k = dictGet nes k) ∨
          (∃ o', dictGet es k = some o' ∧ (dictGet nes k = Option.none ∨ dictGet nes k = some .none) ∧ dictGet es' k = some o') ∨
          (∃ o' n' r', dictGet es k = some o' ∧ dictGet nes k = some n' ∧ n' ≠ .none ∧ dictGet es' k = some r' ∧
            unifyVal (pfx ++ [k]) o' n' = .ok r') := by
        intro k
        have h := e3 k
        cases hgo : dictGet es k with
        | none => rw [hgo] at h; simp only [combine, Except.ok.injEq] at h; exact .inl ⟨rfl, h.symm⟩
        | some o' =>
          right
          cases hgn : dictGet nes k with
          | none => rw [hgo, hgn] at h; simp only [combine, Except.ok.injEq] at h; exact .inl ⟨o', rfl, .inl rfl, h.symm⟩
          | some n' =>
            rw [hgo, hgn] at h
            simp only [combine] at h
            split at h
            · rename_i hnn
              simp only [Except.ok.injEq] at h
              exact .inl ⟨o', rfl, .inr (by rw [(isNone_iff n').1 hnn]), h.symm⟩
            · rename_i hnn
              right
              cases hc : unifyVal (pfx ++ [k]) o' n' with
              | error e => simp [hc, Except.map] at h
              | ok c =>
                simp only [hc, Except.map, Except.ok.injEq] at h
                exact ⟨o', n', c, rfl, rfl, isNone_eq_false.1 (by simpa using hnn), h.symm, hc⟩
      have hih : ∀ k o' n' r', dictGet es k = some o' → dictGet nes k = some n' → n' ≠ .none →
          unifyVal (pfx ++ [k]) o' n' = .ok r' → _ := fun k o' n' r' hgo hgn hne' hr' =>
        ih _ ((dictGet_iff hn1 _ _).1 hgo) n' (pfx ++ [k]) r' (ho.inv.2.2 _ ((dictGet_iff hn1 _ _).1 hgo))
          (hn.inv.2.2 _ ((dictGet_iff hn2 _ _).1 hgn)) hne' hr'
      constructor
      · intro path v hv
        cases path with
        | nil =>
          simp only [reaches_nil]
          refine iff_of_false (leaf_not_params hv _ _) ?_
          rintro (⟨h, -⟩ | ⟨h, -⟩) <;> exact leaf_not_params hv _ _ h
        | cons k ks =>
          simp only [reaches_step hn1, reaches_step hn2, reaches_step hn3]
          rcases hkey k with ⟨hgo, hg⟩ | ⟨o', hgo, hgn, hg⟩ | ⟨o', n', r', hgo, hgn, hne', hg, hr'⟩
          · rw [hgo, hg]
            simp
          · rw [hgo, hg]
            rcases hgn with hgn | hgn
            · rw [hgn]; simp
            · rw [hgn]
              simp only [Option.some.injEq, exists_eq_left', reaches_leaf (v := PVal.none) rfl]
              constructor
              · intro h
                refine .inr ⟨h, ?_⟩
                rintro ⟨w, hw, -, rfl⟩; exact hw rfl
              · rintro (⟨⟨rfl, rfl⟩, h⟩ | ⟨h, -⟩)
                · rcases h with h | h
                  · exact absurd rfl h
                  · by_cases hon : o' = .none
                    · rw [hon]; exact .here _
                    · exact absurd ⟨o', hon, .here _⟩ h
                · exact h
          · rw [hgo, hgn, hg]
            simp only [Option.some.injEq, exists_eq_left']
            exact (hih k o' n' r' hgo hgn hne' hr').1 ks v hv
      · intro path
        cases path with
        | nil =>
          simp only [reaches_nil]
          exact iff_of_true ⟨_, rfl, rfl⟩ (.inl ⟨_, rfl, rfl⟩)
        | cons k ks =>
          simp only [reaches_step hn1, reaches_step hn2, reaches_step hn3]
          rcases hkey k with ⟨hgo, hg⟩ | ⟨o', hgo, hgn, hg⟩ | ⟨o', n', r', hgo, hgn, hne', hg, hr'⟩
          · rw [hgo, hg]; simp
          · rw [hgo, hg]
            rcases hgn with hgn | hgn
            · rw [hgn]; simp
            · rw [hgn]
              simp only [Option.some.injEq, exists_eq_left', reaches_leaf (v := PVal.none) rfl]
              constructor
              · exact .inl
              · rintro (h | ⟨u, hu, -, rfl⟩)
                · exact h
                · simp [isParams] at hu
          · rw [hgo, hgn, hg]
            simp only [Option.some.injEq, exists_eq_left']
            exact (hih k o' n' r' hgo hgn hne' hr').2 ks

theorem unify_as_val (p q : Params) (pfx) : unifyVal pfx p.toVal q.toVal = (p.unify q pfx).map toVal := unifyVal_params ..

/-- `unify` raises `IOError` exactly when some path is a namespace on one side and a parameter on the other. -/
theorem C45_conflict (p q : Params) (hp : p.Tree) (hq : q.Tree) (pfx : List Str) :
    (∀ x, p.unify q pfx = .error x ↔ Conflict p.toVal q.toVal ∧ x = .ioError) ∧
    ((∃ r, p.unify q pfx = .ok r) ↔ ¬ Conflict p.toVal q.toVal) := by
  have hiff := unifyVal_error_iff p.toVal q.toVal pfx hp hq (by simp [toVal])
  have hshape := (unifyVal_shape p.toVal q.toVal pfx hp hq).2
  rw [unify_as_val] at hiff hshape
  cases h : p.unify q pfx with
  | ok r =>
    rw [h] at hiff
    simp only [Except.map, reduceCtorEq, exists_false, false_iff] at hiff
    exact ⟨fun x => by simp [hiff], by simp [hiff]⟩
  | error e =>
    rw [h] at hiff hshape
    have he := hshape e rfl
    subst he
    have hc := hiff.1 ⟨_, rfl⟩
    exact ⟨fun x => by simp [hc, eq_comm], by simp [hc]⟩

/-- The values after `unify`: where the right-hand side has a parameter other than `None`, its value; elsewhere the value of
the left-hand side; a `None` of the right-hand side appears only where the left-hand side has nothing else.  Nothing else
appears, and the namespaces are those of both sides. -/
theorem C45_values (p q r : Params) (hp : p.Tree) (hq : q.Tree) (pfx : List Str) (h : p.unify q pfx = .ok r) :
    r.Tree ∧ r.pfx = pfx ∧
    (∀ path v, Leaf v → (r.toVal.Reaches path v ↔
      (q.toVal.Reaches path v ∧ (v ≠ .none ∨ ¬ ∃ u, u ≠ .none ∧ p.toVal.Reaches path u)) ∨
      (p.toVal.Reaches path v ∧ ¬ ∃ w, w ≠ .none ∧ q.toVal.Reaches path w))) ∧
    (∀ path, (∃ u, u.isParams = true ∧ r.toVal.Reaches path u) ↔
      (∃ u, u.isParams = true ∧ p.toVal.Reaches path u) ∨ (∃ u, u.isParams = true ∧ q.toVal.Reaches path u)) := by
  have hr : unifyVal pfx p.toVal q.toVal = .ok r.toVal := by rw [unify_as_val, h]; rfl
  have h1 := unifyVal_reaches p.toVal q.toVal pfx r.toVal hp hq (by simp [toVal]) hr
  refine ⟨(unifyVal_shape p.toVal q.toVal pfx hp hq).1 _ hr, ?_, h1.1, h1.2⟩
  obtain ⟨s1, s2⟩ := unify_spec pfx p q hp hq
  by_cases hbad : ∃ k x, combine pfx k (dictGet p.data k) (dictGet q.data k) = .error x
  · rw [unify_eq_body, s1 hbad] at h; simp at h
  · obtain ⟨es, e1, -⟩ := s2 hbad
    rw [unify_eq_body, e1, Except.ok.injEq] at h
    rw [← h]

/-- `p.unify({})` is `p`, for `p` at the top level. -/
theorem C45_empty_right (p : Params) (hp : p.Loaded) : p.unify (empty []) = .ok p := by
  have hc := (loaded_iff p).1 hp
  obtain ⟨e, hn, hd, hcs⟩ := hc.inv
  obtain ⟨-, h2⟩ := unify_spec [] p (empty []) hc.tree (.params (by simp [empty]) (by simp [empty]) (by simp [empty]))
  have hcomb : ∀ k, combine [] k (dictGet p.data k) (dictGet (empty []).data k) = .ok (dictGet p.data k) := by
    intro k
    cases hg : dictGet p.data k <;> rfl
  obtain ⟨es, e1, e2, e3, e4⟩ := h2 (by rintro ⟨k, x, h⟩; rw [hcomb] at h; simp at h)
  have : es = p.data := by
    refine dict_ext e2.inv.1 (by rw [e4]; simp [empty]) fun k => ?_
    have := e3 k
    rw [hcomb, Except.ok.injEq] at this
    exact this.symm
  rw [unify_eq_body, e1, this, ← e]

/-- `{}.unify(p)` is `p`, for `p` at the top level. -/
theorem C45_empty_left (p : Params) (hp : p.Loaded) : (empty []).unify p = .ok p := by
  have hc := (loaded_iff p).1 hp
  obtain ⟨e, hn, hd, hcs⟩ := hc.inv
  obtain ⟨-, h2⟩ := unify_spec [] (empty []) p (.params (by simp [empty]) (by simp [empty]) (by simp [empty])) hc.tree
  have hcomb : ∀ k, combine [] k (dictGet (empty []).data k) (dictGet p.data k) = .ok (dictGet p.data k) := by
    intro k; rfl
  obtain ⟨es, e1, e2, e3, e4⟩ := h2 (by rintro ⟨k, x, h⟩; rw [hcomb] at h; simp at h)
  have : es = p.data := by
    refine dict_ext e2.inv.1 (by rw [e4]; simp [empty]) fun k => ?_
    have := e3 k
    rw [hcomb, Except.ok.injEq] at this
    exact this.symm
  rw [unify_eq_body, e1, this, ← e]

theorem unifyVal_self (v : PVal) : ∀ pfx, Canon pfx v → unifyVal pfx v v = .ok v := by
  induction v using PVal.ind with
  | leaf v hl => intro pfx _; exact unifyVal_leaves hl.1 hl.1
  | dict es _ => intro pfx h; exact absurd h.tree.not_mapping (by simp [isMapping])
  | params a es ih =>
    intro pfx hc
    obtain ⟨rfl, hn, hd, hcs⟩ := hc.inv
    rw [unifyVal_params]
    obtain ⟨-, h2⟩ := unify_spec a ⟨a, es⟩ ⟨a, es⟩ hc.tree hc.tree
    have hcomb : ∀ k, combine a k (dictGet es k) (dictGet es k) = .ok (dictGet es k) := by
      intro k
      cases hg : dictGet es k with
      | none => rfl
      | some v =>
        have hm := (dictGet_iff hn _ _).1 hg
        simp only [combine, ih _ hm _ (hcs _ hm), Except.map]
        split <;> rfl
    obtain ⟨es', e1, e2, e3, e4⟩ := h2 (by rintro ⟨k, x, h⟩; simp only at h; rw [hcomb] at h; simp at h)
    have : es' = es := by
      refine dict_ext e2.inv.1 (by rw [e4]; simp) fun k => ?_
      have := e3 k
      simp only at this
      rw [hcomb, Except.ok.injEq] at this
      exact this.symm
    rw [e1, this]; rfl

/-- `p.unify(p)` is `p`, for `p` at the top level. -/
theorem C45_self (p : Params) (hp : p.Loaded) : p.unify p = .ok p := by
  have h := unifyVal_self p.toVal [] ((loaded_iff p).1 hp)
  rw [unify_as_val] at h
  cases hh : p.unify p with
  | error e => rw [hh] at h; simp [Except.map] at h
  | ok r =>
    rw [hh] at h
    simp only [Except.map, Except.ok.injEq, toVal, PVal.params.injEq] at h
    obtain ⟨a, b⟩ := p
    obtain ⟨a', b'⟩ := r
    simp only at h
    rw [h.1, h.2]

theorem unifyVal_not_none {pfx} {o n r : PVal} (hn : n ≠ .none) (h : unifyVal pfx o n = .ok r) : r ≠ .none := by
  rintro rfl
  cases ho : o.isParams with
  | false =>
    cases hnp : n.isParams with
    | false => rw [unifyVal_leaves ho hnp, Except.ok.injEq] at h; exact hn h
    | true => rw [unifyVal_mixed (by rw [ho, hnp]; simp)] at h; simp at h
  | true =>
    cases hnp : n.isParams with
    | false => rw [unifyVal_mixed (by rw [ho, hnp]; simp)] at h; simp at h
    | true =>
      obtain ⟨a, es, rfl⟩ := (isParams_iff o).1 ho
      obtain ⟨b, nes, rfl⟩ := (isParams_iff n).1 hnp
      rw [unifyVal_params] at h
      cases hh : unifyBody pfx ⟨a, es⟩ ⟨b, nes⟩ <;> simp [hh, Except.map, toVal] at h

theorem combine_assoc {pfx : List Str} {k : Str} {P Q R A B C D : Option PVal}
    (ih : ∀ o n m a b c d, P = some o → Q = some n → R = some m → n ≠ .none → m ≠ .none → unifyVal (pfx ++ [k]) o n = .ok a →
      unifyVal (pfx ++ [k]) a m = .ok b → unifyVal (pfx ++ [k]) n m = .ok c → unifyVal (pfx ++ [k]) o c = .ok d → b = d)
    (h1 : combine pfx k P Q = .ok A) (h2 : combine pfx k A R = .ok B) (h3 : combine pfx k Q R = .ok C)
    (h4 : combine pfx k P C = .ok D) : B = D := by
  have hcomb : ∀ {o n : PVal} {X}, combine pfx k (some o) (some n) = .ok X → (n = .none ∧ X = some o) ∨
      (n ≠ .none ∧ ∃ u, unifyVal (pfx ++ [k]) o n = .ok u ∧ X = some u) := by
    intro o n X h
    simp only [combine] at h
    split at h
    · rename_i hn; simp only [Except.ok.injEq] at h; exact .inl ⟨(isNone_iff n).1 hn, h.symm⟩
    · rename_i hn
      cases hu : unifyVal (pfx ++ [k]) o n with
      | error e => simp [hu, Except.map] at h
      | ok u =>
        simp only [hu, Except.map, Except.ok.injEq] at h
        exact .inr ⟨isNone_eq_false.1 (by simpa using hn), u, rfl, h.symm⟩
  cases P with
  | none =>
    simp only [combine, Except.ok.injEq] at h1 h4
    subst h1; subst h4
    rw [h2, Except.ok.injEq] at h3
    exact h3
  | some o =>
    cases Q with
    | none =>
      simp only [combine, Except.ok.injEq] at h1 h3
      subst h1; subst h3
      rw [h2, Except.ok.injEq] at h4
      exact h4
    | some n =>
      cases R with
      | none =>
        simp only [combine, Except.ok.injEq] at h3
        subst h3
        rw [h1, Except.ok.injEq] at h4
        subst h4
        cases A <;> simp only [combine, Except.ok.injEq] at h2 <;> exact h2.symm
      | some m =>
        rcases hcomb h1 with ⟨rfl, rfl⟩ | ⟨hn, a, ha, rfl⟩
        · -- `n` is `None`
          rcases hcomb h3 with ⟨rfl, rfl⟩ | ⟨hm, c, hc, rfl⟩
          · rw [h2, Except.ok.injEq] at h4; exact h4
          · have : c = m := by
              simp only [unifyVal] at hc
              split at hc
              · simp at hc
              · simpa using hc.symm
            subst this
            rw [h2, Except.ok.injEq] at h4; exact h4
        · rcases hcomb h3 with ⟨rfl, rfl⟩ | ⟨hm, c, hc, rfl⟩
          · rcases hcomb h2 with ⟨-, rfl⟩ | ⟨h, -⟩
            · rw [h1, Except.ok.injEq] at h4; exact h4
            · exact absurd rfl h
          · rcases hcomb h2 with ⟨h, -⟩ | ⟨-, b, hb, rfl⟩
            · exact absurd h hm
            · rcases hcomb h4 with ⟨h, -⟩ | ⟨-, d, hd, rfl⟩
              · exact absurd h (unifyVal_not_none hm hc)
              · rw [ih o n m a b c d rfl rfl rfl hn hm ha hb hc hd]

theorem unifyVal_assoc (o : PVal) : ∀ n m pfx a b c d, o.Tree → n.Tree → m.Tree → n ≠ .none → m ≠ .none →
    unifyVal pfx o n = .ok a → unifyVal pfx a m = .ok b → unifyVal pfx n m = .ok c → unifyVal pfx o c = .ok d → b = d := by
  have hmix : ∀ {pfx} {x y z : PVal}, unifyVal pfx x y = .ok z → x.isParams = y.isParams := by
    intro pfx x y z h
    by_contra hne
    rw [unifyVal_mixed hne] at h; simp at h
  have hparams : ∀ {pfx} {x y z : PVal}, x.isParams = true → unifyVal pfx x y = .ok z → z.isParams = true := by
    intro pfx x y z hx h
    have hy : y.isParams = true := (hmix h).symm.trans hx
    obtain ⟨a, es, rfl⟩ := (isParams_iff x).1 hx
    obtain ⟨b, nes, rfl⟩ := (isParams_iff y).1 hy
    rw [unifyVal_params] at h
    cases hh : unifyBody pfx ⟨a, es⟩ ⟨b, nes⟩ with
    | error e => simp [hh, Except.map] at h
    | ok r => simp only [hh, Except.map, Except.ok.injEq, toVal] at h; rw [← h]; rfl
  induction o using PVal.ind with
  | leaf o hl =>
    intro n m pfx a b c d _ _ _ _ _ h1 h2 h3 h4
    have hn : n.isParams = false := (hmix h1).symm.trans hl.1
    rw [unifyVal_leaves hl.1 hn, Except.ok.injEq] at h1
    subst h1
    have hm : m.isParams = false := (hmix h2).symm.trans hn
    rw [unifyVal_leaves hn hm, Except.ok.injEq] at h2 h3
    subst h2; subst h3
    rw [unifyVal_leaves hl.1 hm, Except.ok.injEq] at h4
    exact h4
  | dict es _ => intro n m pfx a b c d h; exact absurd h.not_mapping (by simp [isMapping])
  | params pfx0 es ih =>
    intro n m pfx a b c d ho hn hm _ _ h1 h2 h3 h4
    have hnp : n.isParams = true := (hmix h1).symm
    have hap := hparams (pfx := pfx) rfl h1
    have hmp : m.isParams = true := (hmix h2).symm.trans hap
    have hcp := hparams hnp h3
    obtain ⟨pn, nes, rfl⟩ := (isParams_iff n).1 hnp
    obtain ⟨pm, mes, rfl⟩ := (isParams_iff m).1 hmp
    -- the four levels
    have hlevel : ∀ (p q : Params) r, p.Tree → q.Tree → unifyVal pfx p.toVal q.toVal = .ok r → ∃ es, r = .params pfx es ∧
        (PVal.params pfx es).Tree ∧ (∀ k, combine pfx k (dictGet p.data k) (dictGet q.data k) = .ok (dictGet es k)) ∧
        es.map (·.1) = p.data.map (·.1) ++ (q.data.map (·.1)).filter fun k => decide (k ∉ p.data.map (·.1)) := by
      intro p q r hp hq h
      rw [unify_as_val, unify_eq_body] at h
      obtain ⟨s1, s2⟩ := unify_spec pfx p q hp hq
      by_cases hbad : ∃ k x, combine pfx k (dictGet p.data k) (dictGet q.data k) = .error x
      · rw [s1 hbad] at h; simp [Except.map] at h
      · obtain ⟨es, e1, e2, e3, e4⟩ := s2 hbad
        rw [e1] at h
        simp only [Except.map, Except.ok.injEq, toVal] at h
        exact ⟨es, h.symm, e2, e3, e4⟩
    obtain ⟨aes, rfl, at1, ac, ak⟩ := hlevel ⟨pfx0, es⟩ ⟨pn, nes⟩ a ho hn h1
    obtain ⟨bes, rfl, bt, bc, bk⟩ := hlevel ⟨pfx, aes⟩ ⟨pm, mes⟩ b at1 hm h2
    obtain ⟨ces, rfl, ct, cc, ck⟩ := hlevel ⟨pn, nes⟩ ⟨pm, mes⟩ c hn hm h3
    obtain ⟨des, rfl, dt, dc, dk⟩ := hlevel ⟨pfx0, es⟩ ⟨pfx, ces⟩ d ho ct h4
    simp only at ac ak bc bk cc ck dc dk
    have : bes = des := by
      refine dict_ext bt.inv.1 ?_ fun k => ?_
      · rw [bk, dk, ak, ck, List.filter_append, List.append_assoc]
        congr 2
        rw [List.filter_filter]
        refine List.filter_congr fun k hk => ?_
        simp only [List.mem_append, List.mem_filter, decide_eq_true_eq, not_or, not_and, not_not]
        by_cases h1 : k ∈ es.map (·.1) <;> by_cases h2 : k ∈ nes.map (·.1) <;> simp only [h1, h2] <;> simp
      · refine combine_assoc ?_ (ac k) (bc k) (cc k) (dc k)
        intro o n m a b c d ho' hn' hm' hne1 hne2 g1 g2 g3 g4
        have i1 := (dictGet_iff ho.inv.1 _ _).1 ho'
        have i2 := (dictGet_iff hn.inv.1 _ _).1 hn'
        have i3 := (dictGet_iff hm.inv.1 _ _).1 hm'
        exact ih _ i1 n m (pfx ++ [k]) a b c d (ho.inv.2.2 _ i1) (hn.inv.2.2 _ i2) (hm.inv.2.2 _ i3) hne1 hne2 g1 g2 g3 g4
    rw [this]

/-- `unify` is associative, whenever both groupings succeed (they return equal objects, key order included). -/
theorem C45_associative (p q r pq qr a b : Params) (hp : p.Tree) (hq : q.Tree) (hr : r.Tree)
    (h1 : p.unify q = .ok pq) (h2 : pq.unify r = .ok a) (h3 : q.unify r = .ok qr) (h4 : p.unify qr = .ok b) : a = b := by
  have hv : ∀ {x y z : Params}, x.unify y = .ok z → unifyVal [] x.toVal y.toVal = .ok z.toVal := by
    intro x y z h; rw [unify_as_val, h]; rfl
  have := unifyVal_assoc p.toVal q.toVal r.toVal [] pq.toVal a.toVal qr.toVal b.toVal hp hq hr (by simp [toVal]) (by simp [toVal])
    (hv h1) (hv h2) (hv h3) (hv h4)
  obtain ⟨x, y⟩ := a
  obtain ⟨x', y'⟩ := b
  simp only [toVal, PVal.params.injEq] at this
  rw [this.1, this.2]

/-- One grouping may succeed while the other fails: a `None` in the middle hides a namespace from the left-hand side only. -/
theorem C45_associative_counterexample : ∃ p q r pq a : Params, p.Loaded ∧ q.Loaded ∧ r.Loaded ∧
    p.unify q = .ok pq ∧ pq.unify r = .ok a ∧ q.unify r = .error .ioError := by
  have hempty : (PVal.params [['a']] []).Tree := .params (by simp) (by simp) (by simp)
  refine ⟨⟨[], [(['a'], .params [['a']] [])]⟩, ⟨[], [(['a'], .none)]⟩, ⟨[], [(['a'], .params [['a']] [])]⟩, _, _, ?_, ?_, ?_, rfl, rfl, rfl⟩
  · exact ⟨[(['a'], .dict [])], .dict (by simp) (by simpa using .dict (by simp) (by simp)), rfl⟩
  · exact ⟨[(['a'], .none)], .dict (by simp) (by simpa using .leaf ⟨rfl, rfl⟩), rfl⟩
  · exact ⟨[(['a'], .dict [])], .dict (by simp) (by simpa using .dict (by simp) (by simp)), rfl⟩

/-- A mapping as right-hand side is first turned into a `Parameters`. -/
theorem C45_mapping (p : Params) (es : Entries) (h : (PVal.dict es).Plain) (hd : (PVal.dict es).DotFree) (pfx : List Str) :
    ∃ q : Params, fromMapping es = .ok q ∧ q.Loaded ∧ p.unifyMapping es pfx = p.unify q pfx := by
  obtain ⟨q, h1, -, -, -⟩ := fromMapping_ok (pfx := []) h hd
  exact ⟨q, h1, ⟨es, h, h1⟩, by simp only [unifyMapping, h1, bind, Except.bind]⟩

/-- The result of unifying two objects made at the top level is again such an object: every nested namespace stores its path. -/
theorem C45_loaded (p q r : Params) (hp : p.Loaded) (hq : q.Loaded) (h : p.unify q = .ok r) : r.Loaded := by
  rw [loaded_iff] at *
  have hr : unifyVal [] p.toVal q.toVal = .ok r.toVal := by rw [unify_as_val, h]; rfl
  suffices hs : ∀ o : PVal, ∀ n pfx r, Canon pfx o → Canon pfx n → unifyVal pfx o n = .ok r → Canon pfx r from hs _ _ _ _ hp hq hr
  intro o
  induction o using PVal.ind with
  | leaf o hl =>
    intro n pfx r _ hn h
    cases hnp : n.isParams with
    | false => rw [unifyVal_leaves hl.1 hnp, Except.ok.injEq] at h; exact h ▸ hn
    | true => rw [unifyVal_mixed (by rw [hl.1, hnp]; simp)] at h; simp at h
  | dict es _ => intro n pfx r h; exact absurd h.tree.not_mapping (by simp [isMapping])
  | params a es ih =>
    intro n pfx r ho hn h
    rcases n.shape with hl | ⟨nes, rfl⟩ | ⟨b, nes, rfl⟩
    · rw [unifyVal_mixed (by rw [hl.1]; simp [isParams])] at h; simp at h
    · exact absurd hn.tree.not_mapping (by simp [isMapping])
    · rw [unifyVal_params] at h
      obtain ⟨s1, s2⟩ := unify_spec pfx ⟨a, es⟩ ⟨b, nes⟩ ho.tree hn.tree
      by_cases hbad : ∃ k x, combine pfx k (dictGet es k) (dictGet nes k) = .error x
      · rw [s1 hbad] at h; simp [Except.map] at h
      · obtain ⟨es', e1, e2, e3, -⟩ := s2 hbad
        rw [e1] at h
        simp only [Except.map, Except.ok.injEq, toVal] at h
        subst h
        refine .params e2.inv.1 e2.inv.2.1 ?_
        rintro ⟨k, v⟩ he
        have hv := (dictGet_iff e2.inv.1 k v).2 he
        have hc := e3 k
        simp only at hc
        rw [hv] at hc
        cases hgo : dictGet es k with
        | none =>
          rw [hgo] at hc
          simp only [combine, Except.ok.injEq] at hc
          exact hn.inv.2.2.2 _ ((dictGet_iff hn.tree.inv.1 _ _).1 hc)
        | some o' =>
          have hmo := (dictGet_iff ho.tree.inv.1 _ _).1 hgo
          cases hgn : dictGet nes k with
          | none =>
            rw [hgo, hgn] at hc
            simp only [combine, Except.ok.injEq, Option.some.injEq] at hc
            exact hc ▸ ho.inv.2.2.2 _ hmo
          | some n' =>
            rw [hgo, hgn] at hc
            simp only [combine] at hc
            split at hc
            · simp only [Except.ok.injEq, Option.some.injEq] at hc
              exact hc ▸ ho.inv.2.2.2 _ hmo
            · cases hu : unifyVal (pfx ++ [k]) o' n' with
              | error e => simp [hu, Except.map] at hc
              | ok u =>
                simp only [hu, Except.map, Except.ok.injEq, Option.some.injEq] at hc
                exact hc ▸ ih _ hmo n' _ u (ho.inv.2.2.2 _ hmo) (hn.inv.2.2.2 _ ((dictGet_iff hn.tree.inv.1 _ _).1 hgn)) hu

/-! ## C46 -/

/-- A `None` on the right-hand side overrides nothing. -/
theorem C46_none_never_overrides (p q r : Params) (hp : p.Tree) (hq : q.Tree) (pfx : List Str) (h : p.unify q pfx = .ok r)
    (name : Str) (v : PVal) (hv : Leaf v) (hpv : p.get name .object = .ok v) (hqv : q.get name .object = .ok .none) :
    r.get name .object = .ok v := by
  rw [(C41_lookup p (PVal.Tree.wf hp) name).1] at hpv
  rw [(C41_lookup q (PVal.Tree.wf hq) name).1] at hqv
  obtain ⟨hr, -, hvals, -⟩ := C45_values p q r hp hq pfx h
  rw [(C41_lookup r (PVal.Tree.wf hr) name).1, hvals _ _ hv]
  refine .inr ⟨hpv, ?_⟩
  rintro ⟨w, hw, hr⟩
  exact hw (reaches_unique (PVal.Tree.wf hq) hr hqv)

/-- Concretely: `{"a": 1}.unify({"a": None})` is `{"a": 1}`. -/
theorem C46_docstring_counterexample :
    Params.unify ⟨[], [(['a'], .int 1)]⟩ ⟨[], [(['a'], .none)]⟩ = .ok ⟨[], [(['a'], .int 1)]⟩ := rfl

/-! ## The hypotheses are met -/

/-- `{"a": {"b": 2}, "e": "y"}`. -/
def exampleParams2 : Params := ⟨[], [(['a'], .params [['a']] [(['b'], .int 2)]), (['e'], .str ['y'])]⟩

example : exampleParams.unify exampleParams2 =
    .ok ⟨[], [(['a'], .params [['a']] [(['b'], .int 2), (['c'], .none)]), (['d'], .str ['x']), (['e'], .str ['y'])]⟩ := by rfl
example : exampleParams.Tree := ((loaded_iff _).1 exampleParams_loaded).tree
/-- A conflict. -/
example : exampleParams.unify ⟨[], [(['a'], .int 3)]⟩ = .error .ioError := by rfl

end Params
end Vista
