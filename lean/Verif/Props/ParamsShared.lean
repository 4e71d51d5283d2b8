import Verif.Spec.ParamsShared
import Verif.Props.ParamsHeap
import Verif.Props.ParamsLists

/-!
# C110: parameters, dictionaries and lists
-/
set_option linter.unusedSectionVars false
set_option linter.unusedSimpArgs false
namespace Vista
namespace ParamsShared
open ParamsHeap ParamsLists

/-! ## Lists in values -/

mutual
theorem look_congr {c c' : Contents} (t : PVal) (h : ∀ n, ListIn n t → c.at' n = c'.at' n) : look c t = look c' t := by
  match t with
  | .none | .bool _ | .int _ | .float _ | .str _ | .path _ | .bytes _ | .list _ => rfl
  | .obj n => simp only [look, h n .here]
  | .dict es =>
    simp only [look, PVal.dict.injEq]
    exact lookEntries_congr es fun n k v hm hl => h n (.dict hm hl)
  | .params pfx es =>
    simp only [look, PVal.params.injEq, true_and]
    exact lookEntries_congr es fun n k v hm hl => h n (.params hm hl)
termination_by structural t
theorem lookEntry_congr {c c' : Contents} (e : Str × PVal) (h : ∀ n, ListIn n e.2 → c.at' n = c'.at' n) : lookEntry c e = lookEntry c' e := by
  match e with
  | (k, v) => simp only [lookEntry, look_congr v h]
termination_by structural e
theorem lookEntries_congr {c c' : Contents} (es : Entries) (h : ∀ n k v, (k, v) ∈ es → ListIn n v → c.at' n = c'.at' n) :
    lookEntries c es = lookEntries c' es := by
  match es with
  | [] => rfl
  | e :: es =>
    simp only [lookEntries, List.cons.injEq]
    exact ⟨lookEntry_congr e fun n hl => h n e.1 e.2 List.mem_cons_self hl,
      lookEntries_congr es fun n k v hm hl => h n k v (List.mem_cons_of_mem _ hm) hl⟩
termination_by structural es
end

theorem entries_inj {c c' : Contents} {es : Entries} (h : lookEntries c es = lookEntries c' es) {k : Str} {v : PVal} (hm : (k, v) ∈ es) :
    look c v = look c' v := by
  induction es with
  | nil => simp at hm
  | cons e es ih =>
    simp only [lookEntries, List.cons.injEq] at h
    rcases List.mem_cons.1 hm with rfl | hm
    · have := h.1
      simp only [lookEntry, Prod.mk.injEq] at this
      exact this.2
    · exact ih h.2 hm

theorem look_inj {c c' : Contents} {n : Nat} {t : PVal} (hl : ListIn n t) (h : look c t = look c' t) : c.at' n = c'.at' n := by
  induction hl with
  | here => simpa only [look, PVal.list.injEq] using h
  | dict hm _ ih =>
    simp only [look, PVal.dict.injEq] at h
    exact ih (entries_inj h hm)
  | params hm _ ih =>
    simp only [look, PVal.params.injEq, true_and] at h
    exact ih (entries_inj h hm)

/-- If how `u` looks is decided by how `t` looks, all lists in `u` are in `t`. -/
theorem listIn_of_decided {t u : PVal} (h : ∀ c c', look c t = look c' t → look c u = look c' u) {n : Nat} (hn : ListIn n u) : ListIn n t := by
  by_contra hnt
  have := look_inj hn (h ⟨fun _ => []⟩ ⟨fun i => if i = n then [.none] else []⟩ (look_congr t fun i hi => by
    have : i ≠ n := fun e => hnt (e ▸ hi)
    simp [this]))
  simp at this

theorem lookEntries_map_fst (c : Contents) (es : Entries) : (lookEntries c es).map (·.1) = es.map (·.1) := by
  induction es with
  | nil => rfl
  | cons e es ih =>
    obtain ⟨k, v⟩ := e
    simp [lookEntries, lookEntry, ih]

theorem lookEntries_map_snd (c : Contents) (es : Entries) : (lookEntries c es).map (·.2) = (es.map (·.2)).map (look c) := by
  induction es with
  | nil => rfl
  | cons e es ih =>
    obtain ⟨k, v⟩ := e
    simp [lookEntries, lookEntry, ih]

theorem mem_of_get {es : Entries} {i : Nat} {t : PVal} (h : (es.map (·.2))[i]? = some t) : ∃ k, (k, t) ∈ es := by
  have := List.mem_of_getElem? h
  obtain ⟨e, he, rfl⟩ := List.mem_map.1 this
  exact ⟨e.1, he⟩

/-- What is seen with the lists closed, and what the lists hold. -/
theorem looks_of_shows {m : Moment} {v : HVal} {t : PVal} (hs : Shows m.dicts v t) {c : Contents} (hc : Hold m c t) : Looks m v (look c t) := by
  induction hs with
  | @leaf v hl =>
    by_cases ho : ∃ n, v = .obj n
    · obtain ⟨n, rfl⟩ := ho
      exact hc n .here
    · have : look c v = v := by
        cases v with
        | obj n => exact absurd ⟨n, rfl⟩ ho
        | dict es => exact absurd hl.2 (by simp [PVal.isMapping])
        | params p es => exact absurd hl.1 (by simp [PVal.isParams])
        | _ => rfl
      rw [this]
      exact .plain hl fun n e => ho ⟨n, e⟩
  | @ref a es ts ha hk _ ih =>
    refine .ref ha (by rw [lookEntries_map_fst]; exact hk) fun i x t hx ht => ?_
    rw [lookEntries_map_snd, List.getElem?_map] at ht
    obtain ⟨u, hu, rfl⟩ := Option.map_eq_some_iff.1 ht
    obtain ⟨k, hm⟩ := mem_of_get hu
    exact ih i x u hx hu fun n hn => hc n (.dict hm hn)
  | @params pfx es ts hk _ ih =>
    refine .params (by rw [lookEntries_map_fst]; exact hk) fun i x t hx ht => ?_
    rw [lookEntries_map_snd, List.getElem?_map] at ht
    obtain ⟨u, hu, rfl⟩ := Option.map_eq_some_iff.1 ht
    obtain ⟨k, hm⟩ := mem_of_get hu
    exact ih i x u hx hu fun n hn => hc n (.params hm hn)

theorem list_ext_get {α β : Type} {xs : List α} {ts us : List β} (h1 : xs.length = ts.length) (h2 : xs.length = us.length)
    (h : ∀ (i : Nat) (x : α) (t u : β), xs[i]? = some x → ts[i]? = some t → us[i]? = some u → t = u) : ts = us := by
  apply List.ext_getElem?
  intro i
  by_cases hi : i < xs.length
  · rw [List.getElem?_eq_getElem (h1 ▸ hi), List.getElem?_eq_getElem (h2 ▸ hi)]
    congr 1
    exact h i _ _ _ (List.getElem?_eq_getElem hi) (List.getElem?_eq_getElem (h1 ▸ hi)) (List.getElem?_eq_getElem (h2 ▸ hi))
  · rw [List.getElem?_eq_none (by omega), List.getElem?_eq_none (by omega)]

theorem entries_ext {es es' : Entries} (h1 : es.map (·.1) = es'.map (·.1)) (h2 : es.map (·.2) = es'.map (·.2)) : es = es' := by
  induction es generalizing es' with
  | nil => cases es' with
    | nil => rfl
    | cons => simp at h1
  | cons e es ih =>
    cases es' with
    | nil => simp at h1
    | cons e' es' =>
      simp only [List.map_cons, List.cons.injEq] at h1 h2
      rw [ih h1.2 h2.2, Prod.ext h1.1 h2.1]

/-- At a moment, a value looks like one thing only. -/
theorem looks_unique {m : Moment} {v : HVal} {t u : PVal} (h : Looks m v t) (h' : Looks m v u) : t = u := by
  induction h generalizing u with
  | plain _ ho =>
    cases h' with
    | plain => rfl
    | list => exact absurd rfl (ho _)
  | list hlen _ ih =>
    cases h' with
    | plain _ ho => exact absurd rfl (ho _)
    | list hlen' h2 =>
      congr 1
      exact list_ext_get hlen hlen' fun i x t u hx ht hu => ih i x t hx ht (h2 i x u hx hu)
  | ref ha hk _ ih =>
    cases h' with
    | ref ha' hk' h2 =>
      rw [ha, Option.some.injEq] at ha'
      subst ha'
      congr 1
      refine entries_ext (hk.symm.trans hk') ?_
      have l1 := congrArg List.length hk
      have l2 := congrArg List.length hk'
      simp only [List.length_map] at l1 l2
      exact list_ext_get (by simpa using l1) (by simpa using l2)
        fun i x t u hx ht hu => ih i x t hx ht (h2 i x u hx hu)
  | params hk _ ih =>
    cases h' with
    | params hk' h2 =>
      congr 1
      refine entries_ext (hk.symm.trans hk') ?_
      have l1 := congrArg List.length hk
      have l2 := congrArg List.length hk'
      simp only [List.length_map] at l1 l2
      exact list_ext_get (by simpa using l1) (by simpa using l2)
        fun i x t u hx ht hu => ih i x t hx ht (h2 i x u hx hu)

theorem choose_list {α β γ : Type} {P : α → γ → Prop} {xs : List α} {ts : List β} (hlen : xs.length = ts.length)
    (h : ∀ (i : Nat) (x : α) (t : β), xs[i]? = some x → ts[i]? = some t → ∃ u, P x u) :
    ∃ us : List γ, us.length = xs.length ∧ ∀ (i : Nat) (x : α) (u : γ), xs[i]? = some x → us[i]? = some u → P x u := by
  induction xs generalizing ts with
  | nil => exact ⟨[], rfl, by simp⟩
  | cons x xs ih =>
    cases ts with
    | nil => simp at hlen
    | cons t ts =>
      obtain ⟨u, hu⟩ := h 0 x t rfl rfl
      obtain ⟨us, h1, h2⟩ := ih (ts := ts) (by simpa using hlen) fun i x t hx ht => h (i + 1) x t (by simpa using hx) (by simpa using ht)
      refine ⟨u :: us, by simp [h1], fun i y w hy hw => ?_⟩
      cases i with
      | zero =>
        simp only [List.getElem?_cons_zero, Option.some.injEq] at hy hw
        exact hy ▸ hw ▸ hu
      | succ i => exact h2 i y w (by simpa using hy) (by simpa using hw)

theorem with_keys {γ : Type} {es : HEntries} {us : List γ} (h : us.length = es.length) :
    (es.map (·.1)) = ((es.map (·.1)).zip us).map (·.1) ∧ ((es.map (·.1)).zip us).map (·.2) = us := by
  constructor
  · rw [List.map_fst_zip]; simp [h]
  · rw [List.map_snd_zip]; simp [h]

/-- A value that looks like something looks like something when lists are not looked into. -/
theorem shows_of_looks {m : Moment} {v : HVal} {x : PVal} (h : Looks m v x) : ∃ t, Shows m.dicts v t := by
  induction h with
  | @plain v hl _ => exact ⟨v, .leaf hl⟩
  | @list n => exact ⟨.obj n, .leaf ⟨rfl, rfl⟩⟩
  | @ref a es ts ha hk _ ih =>
    have l1 := congrArg List.length hk
    simp only [List.length_map] at l1
    obtain ⟨us, hu1, hu2⟩ := choose_list (P := fun x t => Shows m.dicts x t) (by simpa using l1) ih
    obtain ⟨z1, z2⟩ := with_keys (es := es) (us := us) (by simpa using hu1)
    exact ⟨.dict ((es.map (·.1)).zip us), .ref ha z1 (by rw [z2]; exact hu2)⟩
  | @params pfx es ts hk _ ih =>
    have l1 := congrArg List.length hk
    simp only [List.length_map] at l1
    obtain ⟨us, hu1, hu2⟩ := choose_list (P := fun x t => Shows m.dicts x t) (by simpa using l1) ih
    obtain ⟨z1, z2⟩ := with_keys (es := es) (us := us) (by simpa using hu1)
    exact ⟨.params pfx ((es.map (·.1)).zip us), .params z1 (by rw [z2]; exact hu2)⟩

theorem get_of_length {α β : Type} {xs : List α} {ts : List β} (h : xs.length = ts.length) {i : Nat} {t : β} (ht : ts[i]? = some t) :
    ∃ x, xs[i]? = some x := by
  obtain ⟨hi, -⟩ := List.getElem?_eq_some_iff.1 ht
  exact ⟨_, List.getElem?_eq_getElem (h ▸ hi)⟩

theorem keys_length {α β : Type} {es : List (Str × α)} {ts : List (Str × β)} (h : es.map (·.1) = ts.map (·.1)) :
    (es.map (·.2)).length = (ts.map (·.2)).length := by
  have := congrArg List.length h
  simpa using this

theorem get_of_mem {es : Entries} {k : Str} {t : PVal} (h : (k, t) ∈ es) : ∃ i : Nat, (es.map (·.2))[i]? = some t := by
  obtain ⟨i, hi⟩ := List.getElem?_of_mem (List.mem_map.2 ⟨(k, t), h, rfl⟩ : t ∈ es.map (·.2))
  exact ⟨i, hi⟩

theorem lists_look {m : Moment} {v : HVal} {t : PVal} (hs : Shows m.dicts v t) {x : PVal} (hx : Looks m v x) {n : Nat} (hn : ListIn n t) :
    ∃ ts, Looks m (.leaf (.obj n)) (.list ts) := by
  induction hs generalizing x with
  | @leaf v hl =>
    cases hn with
    | here =>
      cases hx with
      | plain _ ho => exact absurd rfl (ho n)
      | list h1 h2 => exact ⟨_, .list h1 h2⟩
    | dict => exact absurd hl.2 (by simp [PVal.isMapping])
    | params => exact absurd hl.1 (by simp [PVal.isParams])
  | @ref a es ts ha hk _ ih =>
    cases hn with
    | dict hm hl =>
      cases hx with
      | ref ha' hk' h2 =>
        rw [ha, Option.some.injEq] at ha'
        subst ha'
        obtain ⟨i, hi⟩ := get_of_mem hm
        obtain ⟨y, hy⟩ := get_of_length (keys_length hk) hi
        obtain ⟨w, hw⟩ := get_of_length (keys_length hk').symm hy
        exact ih i y _ hy hi (h2 i y w hy hw) hl
  | @params pfx es ts hk _ ih =>
    cases hn with
    | params hm hl =>
      cases hx with
      | params hk' h2 =>
        obtain ⟨i, hi⟩ := get_of_mem hm
        obtain ⟨y, hy⟩ := get_of_length (keys_length hk) hi
        obtain ⟨w, hw⟩ := get_of_length (keys_length hk').symm hy
        exact ih i y _ hy hi (h2 i y w hy hw) hl

/-- What a value looks like at a moment, exactly. -/
theorem looks_iff {m : Moment} {v : HVal} {t : PVal} (hs : Shows m.dicts v t) (x : PVal) : Looks m v x ↔ ∃ c, Hold m c t ∧ x = look c t := by
  constructor
  · intro hx
    classical
    have hc : Hold m ⟨fun n => if h : ∃ ts, Looks m (.leaf (.obj n)) (.list ts) then h.choose else []⟩ t := by
      intro n hn
      have h := lists_look hs hx hn
      simp only [h, dif_pos]
      exact h.choose_spec
    exact ⟨_, hc, looks_unique hx (looks_of_shows hs hc)⟩
  · rintro ⟨c, hc, rfl⟩
    exact looks_of_shows hs hc

/-! ## C110 -/

theorem later {r : Res HVal} {p : Res Params} (ha : Agrees r p) {t : PVal} {f : Contents → Res Params} (hf : ∀ c, f c = lookRes lookParams c p)
    (hdec : ∀ c c', look c t = look c' t → f c = f c') {m : Moment} {c : Contents} (hc : Hold m c t) : AgreesAt m r (f c) := by
  rw [hf]
  cases p with
  | error e => exact ha
  | ok q =>
    obtain ⟨v, hr, hv⟩ := ha
    refine ⟨v, hr, ?_⟩
    refine looks_of_shows (t := q.toVal) (hv m.dicts) fun n hn => hc n (listIn_of_decided (fun c c' h => ?_) hn)
    have := hdec c c' h
    rw [hf, hf] at this
    simp only [lookRes, Except.ok.injEq] at this
    exact congrArg Params.toVal this

/-- `from_mapping`: the dictionaries are copied, the lists are not. Whatever happens to all of them later, the outcome is what it would be, or
the object looks like what would be made, for the dictionaries as they are at the time of the call, with what the lists in them (not in other
lists) look like at that later moment. -/
theorem C110_from_mapping {now : Moment} {a : Nat} {ts : Entries} (hs : Shows now.dicts (.ref a) (.dict ts)) (hf : Frozen now.dicts (.ref a))
    (pfx : List Str) (limit : Nat) :
    fromMapping now.dicts limit pfx a = .error .recursionError ∨
      ∀ (later : Moment) (c : Contents), Hold later c (.dict ts) →
        AgreesAt later (fromMapping now.dicts limit pfx a) (Params.fromMapping (lookEntries c ts) pfx) := by
  refine ((C99_from_mapping hs hf pfx).1 limit).imp id fun ha m c hc => ?_
  refine later ha (f := fun c => Params.fromMapping (lookEntries c ts) pfx) (fun c => C104_from_mapping c ts pfx) (fun c c' h => ?_) hc
  simp only [look, PVal.dict.injEq] at h
  simp only [h]

/-- At the time of the call, the object looks like what would be made from what the dictionary looks like, with everything in it. -/
theorem C110_from_mapping_now {now : Moment} {a : Nat} {xs : Entries} (hs : Looks now (.ref a) (.dict xs)) (hf : Frozen now.dicts (.ref a))
    (pfx : List Str) :
    (∀ limit, fromMapping now.dicts limit pfx a = .error .recursionError ∨
      AgreesAt now (fromMapping now.dicts limit pfx a) (Params.fromMapping xs pfx)) ∧
    ∃ N, ∀ limit, N ≤ limit → fromMapping now.dicts limit pfx a ≠ .error .recursionError := by
  obtain ⟨t, ht⟩ := shows_of_looks hs
  obtain ⟨c, hc, hx⟩ := (looks_iff ht _).1 hs
  cases ht with
  | ref ha hk h =>
    simp only [look, PVal.dict.injEq] at hx
    refine ⟨fun limit => (C110_from_mapping (.ref ha hk h) hf pfx limit).imp id fun h => hx ▸ h now c hc, ?_⟩
    exact (C99_from_mapping (.ref ha hk h) hf pfx).2

/-- `from_key_value_pairs`: the same. -/
theorem C110_pairs {now : Moment} {sep : Char} {pairs : List (Str × HVal)} {shown : List (Str × PVal)}
    (hs : List.Forall₂ (fun e t => e.1 = t.1 ∧ Shows now.dicts e.2 t.2) pairs shown) (hf : ∀ e ∈ pairs, Frozen now.dicts e.2)
    (hb : NoneBelowDict sep pairs) (limit : Nat) :
    (fromKeyValuePairs limit pairs sep now.dicts).1 = .error .recursionError ∨
      ∀ (later : Moment) (c : Contents), Hold later c (.dict shown) →
        AgreesAt later (fromKeyValuePairs limit pairs sep now.dicts).1 (Params.fromKeyValuePairs (lookEntries c shown) sep) := by
  refine ((C99_pairs hs hf hb).1 limit).2.imp id fun ha m c hc => ?_
  refine later ha (f := fun c => Params.fromKeyValuePairs (lookEntries c shown) sep) (fun c => C104_pairs c shown sep) (fun c c' h => ?_) hc
  simp only [look, PVal.dict.injEq] at h
  simp only [h]

/-- `as_nested_dicts`: until the new dictionaries are changed, the result looks like the nested dictionary of what the parameters look like at
that moment: its lists are those of the parameters. -/
theorem C110_nested_dicts {v : HVal} {p : Params} (hv : Always v p.toVal) (h : Heap) (later : Moment) (hl : later.dicts = (dictify v h).2)
    (q : Params) (hq : Looks later v q.toVal) : Looks later (dictify v h).1 (.dict q.asNestedDicts) := by
  obtain ⟨c, hc, hx⟩ := (looks_iff (t := p.toVal) (hv later.dicts) _).1 hq
  have hq' : q = lookParams c p := by
    have : q.toVal = (lookParams c p).toVal := hx
    simpa only [Params.toVal, PVal.params.injEq, Params.mk.injEq] using (by
      cases q; cases hp : lookParams c p
      rw [hp] at this
      simpa [Params.toVal] using this)
  rw [hq', C104_nested_dicts]
  have hs : Shows later.dicts (dictify v h).1 (.dict p.asNestedDicts) := by rw [hl]; exact (C99_nested_dicts hv h).2.1
  refine looks_of_shows hs fun n hn => hc n (listIn_of_decided (fun c c' h => ?_) hn)
  have h' : lookParams c p = lookParams c' p := by
    have : (lookParams c p).toVal = (lookParams c' p).toVal := h
    cases h1 : lookParams c p; cases h2 : lookParams c' p
    rw [h1, h2] at this
    simpa [Params.toVal] using this
  simp only [look, ← C104_nested_dicts, h']

/-! ## Examples and counterexamples -/

namespace Example

theorem forall2_get {α β : Type} {R : α → β → Prop} {xs : List α} {ts : List β} (h : List.Forall₂ R xs ts) :
    ∀ (i : Nat) (x : α) (t : β), xs[i]? = some x → ts[i]? = some t → R x t := by
  induction h with
  | nil => simp
  | cons hr _ ih =>
    intro i x t hx ht
    cases i with
    | zero =>
      simp only [List.getElem?_cons_zero, Option.some.injEq] at hx ht
      exact hx ▸ ht ▸ hr
    | succ i => exact ih i x t (by simpa using hx) (by simpa using ht)

theorem looks_int (m : Moment) (i : Int) : Looks m (.leaf (.int i)) (.int i) := .plain ⟨rfl, rfl⟩ (fun n h => by cases h)

theorem looks_list {m : Moment} {n : Nat} {vs : List HVal} {ts : List PVal} (h0 : m.lists n = vs) (h : List.Forall₂ (Looks m) vs ts) :
    Looks m (.leaf (.obj n)) (.list ts) := .list (by rw [h0]; exact h.length_eq) (by rw [h0]; exact forall2_get h)

theorem looks_ref {m : Moment} {a : Nat} {es : HEntries} {ts : Entries} (h0 : m.dicts[a]? = some es) (hk : es.map (·.1) = ts.map (·.1))
    (h : List.Forall₂ (Looks m) (es.map (·.2)) (ts.map (·.2))) : Looks m (.ref a) (.dict ts) := .ref h0 hk (forall2_get h)

theorem looks_params {m : Moment} {pfx : List Str} {es : HEntries} {ts : Entries} (hk : es.map (·.1) = ts.map (·.1))
    (h : List.Forall₂ (Looks m) (es.map (·.2)) (ts.map (·.2))) : Looks m (.params pfx es) (.params pfx ts) := .params hk (forall2_get h)

def l : Str := "l".toList
def d : Str := "d".toList
def x : Str := "x".toList

/-- Two dictionaries, one in the other, a list in the outer one, and a third dictionary in the list. -/
def now : Moment := ⟨[[(l, .leaf (.obj 0)), (d, .ref 1)], [(x, .leaf (.int 1))], [(x, .leaf (.int 7))]], fun _ => [.ref 2, .leaf (.int 5)]⟩

/-- All of them have been changed. -/
def then' : Moment := ⟨[[], [], [(x, .leaf (.int 8))]], fun _ => [.ref 2]⟩

/-- The object made now. -/
def made : HVal := .params [] [(l, .leaf (.obj 0)), (d, .params [d] [(x, .leaf (.int 1))])]

theorem now_looks : Looks now (.ref 0) (.dict [(l, .list [.dict [(x, .int 7)], .int 5]), (d, .dict [(x, .int 1)])]) :=
  looks_ref rfl rfl (.cons (looks_list rfl (.cons (looks_ref rfl rfl (.cons (looks_int _ _) .nil)) (.cons (looks_int _ _) .nil)))
    (.cons (looks_ref rfl rfl (.cons (looks_int _ _) .nil)) .nil))

theorem frozen : Frozen now.dicts (.ref 0) := by
  have hleaf : ∀ v pfx es, Within now.dicts (.params pfx es) (.leaf v) → False := fun v pfx es h => by cases h
  have h1 : ∀ pfx es, Within now.dicts (.params pfx es) (.ref 1) → False := by
    intro pfx es h
    cases h with
    | ref ha hm h =>
      simp only [now, List.getElem?_cons_succ, List.getElem?_cons_zero, Option.some.injEq] at ha
      subst ha
      simp only [List.mem_singleton, Prod.mk.injEq] at hm
      obtain ⟨-, rfl⟩ := hm
      exact hleaf _ _ _ h
  intro pfx es a h
  cases h with
  | ref ha hm h =>
    simp only [now, List.getElem?_cons_zero, Option.some.injEq] at ha
    subst ha
    simp only [List.mem_cons, Prod.mk.injEq, List.not_mem_nil, or_false] at hm
    rcases hm with ⟨-, rfl⟩ | ⟨-, rfl⟩
    · exact (hleaf _ _ _ h).elim
    · exact (h1 _ _ h).elim

/-- The hypotheses are met, and the object is made. -/
example : fromMapping now.dicts 3 [] 0 = .ok made := rfl
example := C110_from_mapping_now now_looks frozen []

/-- The dictionary that was converted has no effect any more; the list has, and a dictionary in the list has too: it is neither converted nor
copied, so `from_mapping` does not protect from changes of dictionaries in lists. -/
theorem _root_.Vista.ParamsShared.C110_dict_in_list_counterexample :
    fromMapping now.dicts 3 [] 0 = .ok made ∧
    Looks now made (.params [] [(l, .list [.dict [(x, .int 7)], .int 5]), (d, .params [d] [(x, .int 1)])]) ∧
    Looks then' made (.params [] [(l, .list [.dict [(x, .int 8)]]), (d, .params [d] [(x, .int 1)])]) :=
  ⟨rfl,
    looks_params rfl (.cons (looks_list rfl (.cons (looks_ref rfl rfl (.cons (looks_int _ _) .nil)) (.cons (looks_int _ _) .nil)))
      (.cons (looks_params rfl (.cons (looks_int _ _) .nil)) .nil)),
    looks_params rfl (.cons (looks_list rfl (.cons (looks_ref rfl rfl (.cons (looks_int _ _) .nil)) .nil))
      (.cons (looks_params rfl (.cons (looks_int _ _) .nil)) .nil))⟩

/-- And the list in the result of `as_nested_dicts` is the one in the parameters. -/
example : ∃ a es, (dictify made now.dicts).1 = .ref a ∧ (dictify made now.dicts).2[a]? = some es ∧ (l, .leaf (.obj 0)) ∈ es :=
  ⟨4, _, rfl, rfl, List.mem_cons_self⟩

end Example

end ParamsShared
end Vista
