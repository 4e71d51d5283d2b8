import Mathlib.Data.List.Forall2
import Mathlib.Data.List.Induction
import Verif.Spec.TarLifetime
import Verif.Proofs.Prelude

/-!
# C85: the life of a tar source
-/
set_option linter.unusedSectionVars false
set_option linter.unusedSimpArgs false
namespace Vista
namespace TarLife
variable {V : Type}

/-! ## One run of the loop -/

theorem wantedKey_iff (s : Source V) (keep : Str → Bool) (m : TarMember) (k : Str) :
    wantedKey s keep m = some k ↔ Offered s.keyFunction s.nameFilter keep m k := by
  unfold wantedKey Offered
  cases h1 : m.isFile <;> cases h2 : s.nameFilter m.name <;> simp
  cases h3 : s.keyFunction m.name with
  | none => simp
  | some key =>
    cases h4 : keep key <;> cases key <;> simp_all
    · intro h; subst h; simpa using h4
    · rintro rfl; simpa using h4

theorem wantedKey_none (s : Source V) (keep : Str → Bool) (m : TarMember) :
    wantedKey s keep m = none ↔ ¬ ∃ k, Offered s.keyFunction s.nameFilter keep m k := by
  simp only [← wantedKey_iff]
  cases wantedKey s keep m <;> simp

/-- The handle of an archive with `n` members. -/
def HandleOk (n : Nat) (hd : TarHandle) : Prop := hd.read ≤ n ∧ (hd.loaded = true → hd.read = n)

theorem offered_append (s : Source V) (a b : List TarMember) (keep : Str → Bool) :
    offered s (a ++ b) keep = offered s a keep ++ offered s b keep := by simp [offered]

theorem offered_cons_some (s : Source V) (m : TarMember) (b : List TarMember) (keep : Str → Bool) {k : Str}
    (h : wantedKey s keep m = some k) : offered s (m :: b) keep = m :: offered s b keep := by
  have := (wantedKey_iff s keep m k).1 h
  rw [offered, List.filter_cons_of_pos]
  · rfl
  · simpa using ⟨k, this⟩

theorem offered_cons_none (s : Source V) (m : TarMember) (b : List TarMember) (keep : Str → Bool)
    (h : wantedKey s keep m = none) : offered s (m :: b) keep = offered s b keep := by
  have := (wantedKey_none s keep m).1 h
  rw [offered, List.filter_cons_of_neg]
  · rfl
  · simpa using this

/-- How a run of the loop ends. -/
def EndsWell (s : Source V) (keep : Str → Bool) (closed : Bool) (hdClosed : Bool) (pos : Nat) (rest : List TarMember) : Outcome V → Prop
  | .item k v p => closed = false ∧ ∃ skip m tail, rest = skip ++ m :: tail ∧ p = pos + skip.length + 1 ∧ offered s skip keep = [] ∧
      wantedKey s keep m = some k ∧ PairOf s keep m (k, v)
  | .stop => offered s rest keep = []
  | .raised e => (e = .ioError ∧ (closed = true ∨ hdClosed = true)) ∨ ∃ m tail, offered s rest keep = m :: tail ∧ FailsWith s keep m e

theorem extract_endsWell (s : Source V) (keep : Str → Bool) (closed hdClosed : Bool) (pos : Nat) (m : TarMember) (rest : List TarMember)
    (key : Str) (hw : wantedKey s keep m = some key) :
    EndsWell s keep closed hdClosed pos (m :: rest) (extract s closed m key (pos + 1)) := by
  unfold extract
  cases closed with
  | true => exact .inl ⟨rfl, .inl rfl⟩
  | false =>
    have ho := (wantedKey_iff s keep m key).1 hw
    simp only [Bool.false_eq_true, if_false]
    rcases h : m.extract with e | (_ | b)
    · exact .inr ⟨m, _, offered_cons_some s m rest keep hw, .inl h⟩
    · exact .inr ⟨m, _, offered_cons_some s m rest keep hw, .inr (.inl ⟨h, rfl⟩)⟩
    · rcases hf : s.f key b with e | v
      · simp only [hf]
        exact .inr ⟨m, _, offered_cons_some s m rest keep hw, .inr (.inr ⟨key, b, ho, h, hf⟩)⟩
      · simp only [hf]
        exact ⟨rfl, [], m, rest, rfl, by simp, by simp [offered], hw, ho, b, h, hf⟩

theorem endsWell_skip (s : Source V) (keep : Str → Bool) (closed hdClosed : Bool) (pos : Nat) (m : TarMember) (rest : List TarMember)
    (hw : wantedKey s keep m = none) (o : Outcome V) (h : EndsWell s keep closed hdClosed (pos + 1) rest o) :
    EndsWell s keep closed hdClosed pos (m :: rest) o := by
  cases o with
  | item k v p =>
    obtain ⟨hc, skip, m', tail, h1, h2, h3, h4⟩ := h
    exact ⟨hc, m :: skip, m', tail, by rw [h1]; rfl, by simp; omega, by rw [offered_cons_none s m skip keep hw, h3], h4⟩
  | stop => exact (offered_cons_none s m rest keep hw).trans h
  | raised e =>
    rcases h with h | h
    · exact .inl h
    · exact .inr (by rwa [offered_cons_none s m rest keep hw])

theorem advance_spec (s : Source V) (keep : Str → Bool) (closed : Bool) (n : Nat) (rest : List TarMember) :
    ∀ (hd : TarHandle) (pos : Nat), HandleOk n hd → pos + rest.length = n → pos ≤ hd.read →
      HandleOk n (advance s keep closed hd pos rest).1 ∧ (advance s keep closed hd pos rest).1.closed = hd.closed ∧
        hd.read ≤ (advance s keep closed hd pos rest).1.read ∧
        EndsWell s keep closed hd.closed pos rest (advance s keep closed hd pos rest).2 ∧
        ∀ k v p, (advance s keep closed hd pos rest).2 = .item k v p → p ≤ (advance s keep closed hd pos rest).1.read := by
  induction rest with
  | nil =>
    intro hd pos hok hn hp
    simp only [List.length_nil, Nat.add_zero] at hn
    simp only [advance]
    split
    · exact ⟨hok, rfl, le_rfl, by simp [EndsWell, offered], by simp⟩
    · split
      · exact ⟨hok, rfl, le_rfl, .inl ⟨rfl, .inr ‹_›⟩, by simp⟩
      · exact ⟨⟨hok.1, fun _ => by have := hok.1; show hd.read = n; omega⟩, rfl, le_rfl, by simp [EndsWell, offered], by simp⟩
  | cons m rest ih =>
    intro hd pos hok hn hp
    simp only [List.length_cons] at hn
    have hext : ∀ k k' v p, extract s closed m k (pos + 1) = .item k' v p → p = pos + 1 := by
      intro k k' v p h
      unfold extract at h
      split at h
      · exact absurd h (by simp)
      · split at h
        · exact absurd h (by simp)
        · exact absurd h (by simp)
        · split at h
          · simp only [Outcome.item.injEq] at h; exact h.2.2.symm
          · exact absurd h (by simp)
    simp only [advance]
    split
    · rename_i hlt
      split
      · rename_i key hw
        exact ⟨hok, rfl, le_rfl, extract_endsWell s keep closed _ pos m rest key hw, fun k v p h => by
          have := hext _ _ _ _ h; show p ≤ hd.read; omega⟩
      · rename_i hw
        obtain ⟨a, b, c, d, e⟩ := ih hd (pos + 1) hok (by omega) (by omega)
        exact ⟨a, b, c, endsWell_skip s keep closed _ pos m rest hw _ d, e⟩
    · rename_i hge
      split
      · rename_i hl
        have := hok.2 hl
        omega
      · rename_i hl
        split
        · exact ⟨hok, rfl, le_rfl, .inl ⟨rfl, .inr ‹_›⟩, by simp⟩
        · have hok' : HandleOk n { hd with read := pos + 1 } := ⟨by show pos + 1 ≤ n; omega, fun h => absurd h hl⟩
          split
          · rename_i key hw
            exact ⟨hok', rfl, by show hd.read ≤ pos + 1; omega, extract_endsWell s keep closed _ pos m rest key hw, fun k v p h => by
              have := hext _ _ _ _ h; show p ≤ pos + 1; omega⟩
          · rename_i hw
            obtain ⟨a, b, c, d, e⟩ := ih { hd with read := pos + 1 } (pos + 1) hok' (by omega) le_rfl
            exact ⟨a, b, by have : pos + 1 ≤ _ := c; omega, endsWell_skip s keep closed _ pos m rest hw _ d, e⟩

/-! ## Histories -/

/-- The history `t` of the source has led to the state. -/
inductive Hist (s : Source V) : List (Op × Event V) → State → Prop
  | nil : Hist s [] init
  | snoc {t : List (Op × Event V)} {st : State} (op : Op) : Hist s t st → Hist s (t ++ [(op, (step s st op).2)]) (step s st op).1

theorem hist_run (s : Source V) : ∀ (ops : List Op) (t : List (Op × Event V)) (st : State), Hist s t st →
    ∃ st', Hist s (t ++ run s st ops) st' := by
  intro ops
  induction ops with
  | nil => intro t st h; exact ⟨st, by simpa [run] using h⟩
  | cons op ops ih =>
    intro t st h
    obtain ⟨st', h'⟩ := ih _ _ (.snoc op h)
    exact ⟨st', by simpa [run] using h'⟩

theorem hist_prefix (s : Source V) {u : List (Op × Event V)} {st : State} (h : Hist s u st) :
    ∀ a b, u = a ++ b → ∃ st', Hist s a st' := by
  induction h with
  | nil =>
    intro a b e
    have : a = [] := by
      cases a with
      | nil => rfl
      | cons x a => simp at e
    exact ⟨init, this ▸ .nil⟩
  | @snoc t st op h ih =>
    intro a b e
    rcases List.eq_nil_or_concat b with rfl | ⟨b', x, rfl⟩
    · rw [List.append_nil] at e
      rw [← e]
      exact ⟨_, Hist.snoc op h⟩
    · rw [List.concat_eq_append, ← List.append_assoc] at e
      exact ih a b' (List.append_inj' e rfl).1

theorem hist_last (s : Source V) {u : List (Op × Event V)} {st : State} (h : Hist s u st) :
    ∀ a op ev, u = a ++ [(op, ev)] → ∃ st', Hist s a st' ∧ ev = (step s st' op).2 ∧ st = (step s st' op).1 := by
  cases h with
  | nil => intro a op ev e; simp at e
  | @snoc t st op' h =>
    intro a op ev e
    obtain ⟨rfl, e2⟩ := List.append_inj' e rfl
    simp only [List.cons.injEq, Prod.mk.injEq, and_true] at e2
    obtain ⟨rfl, rfl⟩ := e2
    exact ⟨st, h, rfl, rfl⟩

theorem itemsOf_append (g : Nat) (a b : List (Op × Event V)) : itemsOf g (a ++ b) = itemsOf g a ++ itemsOf g b := by
  induction a with
  | nil => rfl
  | cons x a ih =>
    obtain ⟨op, ev⟩ := x
    cases op <;> cases ev <;> simp [itemsOf, ih]
    split <;> simp

theorem isOpen_snoc (t : List (Op × Event V)) (x : Op × Event V) :
    IsOpen (t ++ [x]) ↔ x = (.enter, .returned) ∨ (x ≠ (.exit, .returned) ∧ IsOpen t) := by
  constructor
  · rintro ⟨a, b, e, hb⟩
    rcases List.eq_nil_or_concat b with rfl | ⟨b', y, rfl⟩
    · have := (List.append_inj' e rfl).2
      simp only [List.cons.injEq, and_true] at this
      exact .inl this
    · rw [List.concat_eq_append, ← List.cons_append, ← List.append_assoc] at e
      obtain ⟨h1, h2⟩ := List.append_inj' e rfl
      simp only [List.cons.injEq, and_true] at h2
      subst h2
      rw [List.concat_eq_append] at hb
      refine .inr ⟨fun h => hb (by simp [h]), a, b', h1, fun h => hb (by simp [h])⟩
  · rintro (rfl | ⟨hx, a, b, rfl, hb⟩)
    · exact ⟨t, [], rfl, by simp⟩
    · refine ⟨a, b ++ [x], by simp, ?_⟩
      simp only [List.mem_append, List.mem_singleton, not_or]
      exact ⟨hb, fun h => hx h.symm⟩

theorem not_isOpen_nil : ¬ IsOpen ([] : List (Op × Event V)) := by
  rintro ⟨a, b, e, -⟩
  simp at e

theorem stopped_snoc (g : Nat) (t : List (Op × Event V)) (x : Op × Event V) :
    Stopped g (t ++ [x]) ↔ Stopped g t ∨ x = (.next g, .stop) := by
  simp [Stopped, eq_comm]

theorem raised_snoc (g : Nat) (t : List (Op × Event V)) (x : Op × Event V) :
    Raised g (t ++ [x]) ↔ Raised g t ∨ ∃ e, x = (.next g, .raised e) := by
  simp only [Raised, List.mem_append, List.mem_singleton, exists_or]
  exact or_congr_right ⟨fun ⟨e, h⟩ => ⟨e, h.symm⟩, fun ⟨e, h⟩ => ⟨e, h.symm⟩⟩

/-- What is known of a generator obtained with the filter `keep`. -/
def GenOk (s : Source V) (handles : List TarHandle) (keep : Str → Bool) (items : List (Str × V)) (stopped raised : Prop) : GenState → Prop
  | .fresh k => k = keep ∧ items = [] ∧ ¬ stopped ∧ ¬ raised
  | .running k h pos => k = keep ∧ ¬ stopped ∧ ¬ raised ∧ (∃ hd, handles[h]? = some hd ∧ pos ≤ hd.read) ∧
      List.Forall₂ (PairOf s keep) (offered s ((members s).take pos) keep) items
  | .finished => (stopped ∨ raised) ∧ ∃ done todo, offered s (members s) keep = done ++ todo ∧ List.Forall₂ (PairOf s keep) done items ∧
      (stopped → ¬ raised → todo = [])

/-- What holds throughout. -/
structure Inv (s : Source V) (t : List (Op × Event V)) (st : State) : Prop where
  handles : ∀ h ∈ st.handles, HandleOk (members s).length h
  inp : ∀ i, st.inp = some i → i < st.handles.length
  noFile : st.inp = none → st.handles = []
  isOpen : IsOpen t ↔ ∃ i h, st.inp = some i ∧ st.handles[i]? = some h ∧ h.closed = false
  entered : st.inp = none ↔ (Op.enter, Event.returned) ∉ t
  gens : ∀ g keep, (Op.items keep, Event.generator g) ∈ t → ∃ gs, st.gens[g]? = some gs ∧
    GenOk s st.handles keep (itemsOf g t) (Stopped g t) (Raised g t) gs
  born : ∀ g, g < st.gens.length → ∃ keep, (Op.items keep, Event.generator g) ∈ t
  unborn : ∀ g, st.gens.length ≤ g → itemsOf g t = [] ∧ ¬ Stopped g t ∧ ¬ Raised g t

theorem GenOk.mono {s : Source V} {hs hs' : List TarHandle} {keep : Str → Bool} {items : List (Str × V)} {p q : Prop} {gs : GenState}
    (h : GenOk s hs keep items p q gs)
    (hm : ∀ (i : Nat) (hd : TarHandle), hs[i]? = some hd → ∃ hd', hs'[i]? = some hd' ∧ hd.read ≤ hd'.read) :
    GenOk s hs' keep items p q gs := by
  cases gs with
  | fresh k => exact h
  | running k i pos =>
    obtain ⟨h1, h2, h3, ⟨hd, h4, h5⟩, h6⟩ := h
    obtain ⟨hd', h7, h8⟩ := hm i hd h4
    exact ⟨h1, h2, h3, ⟨hd', h7, by omega⟩, h6⟩
  | finished => exact h

theorem inv_init (s : Source V) : Inv s [] init where
  handles := by simp [init]
  inp := by simp [init]
  noFile := by simp [init]
  isOpen := by simp [init, not_isOpen_nil]
  entered := by simp [init]
  gens := by simp
  born g hg := by simp [init] at hg
  unborn g _ := by simp [itemsOf, Stopped, Raised]

/-- An operation that advances no generator adds nothing to what the generators have done. -/
theorem quiet {t : List (Op × Event V)} {op : Op} {ev : Event V} (h : ∀ g, op ≠ .next g) (g : Nat) :
    itemsOf g (t ++ [(op, ev)]) = itemsOf g t ∧ (Stopped g (t ++ [(op, ev)]) ↔ Stopped g t) ∧ (Raised g (t ++ [(op, ev)]) ↔ Raised g t) := by
  refine ⟨?_, ?_, ?_⟩
  · rw [itemsOf_append]
    cases op with
    | next g' => exact absurd rfl (h g')
    | _ => simp [itemsOf]
  · rw [stopped_snoc]
    simp [h]
  · rw [raised_snoc]
    simp [h]

theorem inv_enter {s : Source V} {t : List (Op × Event V)} {st : State} (h : Inv s t st) :
    Inv s (t ++ [(.enter, (step s st .enter).2)]) (step s st .enter).1 := by
  have hq := fun ev => quiet (V := V) (t := t) (op := .enter) (ev := ev) (by simp)
  simp only [step]
  cases ha : s.archive with
  | error e =>
    refine ⟨h.handles, h.inp, h.noFile, ?_, ?_, ?_, fun g hg => (h.born g hg).imp fun _ hk => List.mem_append_left _ hk, ?_⟩
    · rw [isOpen_snoc, ← h.isOpen]; simp
    · rw [h.entered]; simp
    · intro g keep hg
      simp only [List.mem_append, List.mem_singleton, Prod.mk.injEq, reduceCtorEq, and_self, or_false] at hg
      obtain ⟨q1, q2, q3⟩ := hq (.raised e) g
      rw [q1, q2, q3]
      exact h.gens g keep hg
    · intro g hg
      obtain ⟨q1, q2, q3⟩ := hq (.raised e) g
      rw [q1, q2, q3]
      exact h.unborn g hg
  | ok ms =>
    have hms : members s = ms := by simp [members, ha]
    refine ⟨?_, ?_, by simp, ?_, ?_, ?_, fun g hg => (h.born g hg).imp fun _ hk => List.mem_append_left _ hk, ?_⟩
    · intro hd hh
      simp only [List.mem_append, List.mem_singleton] at hh
      rcases hh with hh | rfl
      · exact h.handles hd hh
      · refine ⟨Nat.zero_le _, ?_⟩
        intro hl
        simp only [List.isEmpty_iff] at hl
        simp [hms, hl]
    · intro i hi
      simp only [Option.some.injEq] at hi
      subst hi
      simp
    · rw [isOpen_snoc]
      simp
    · simp
    · intro g keep hg
      simp only [List.mem_append, List.mem_singleton, Prod.mk.injEq, reduceCtorEq, and_self, or_false] at hg
      obtain ⟨q1, q2, q3⟩ := hq .returned g
      rw [q1, q2, q3]
      obtain ⟨gs, h1, h2⟩ := h.gens g keep hg
      refine ⟨gs, h1, h2.mono fun i hd hi => ⟨hd, ?_, le_rfl⟩⟩
      rw [List.getElem?_append_left]
      · exact hi
      · exact (List.getElem?_eq_some_iff.1 hi).1
    · intro g hg
      obtain ⟨q1, q2, q3⟩ := hq .returned g
      rw [q1, q2, q3]
      exact h.unborn g hg

theorem modify_some {α : Type} (l : List α) (f : α → α) (i j : Nat) (x : α) :
    (l.modify i f)[j]? = some x ↔ ∃ y, l[j]? = some y ∧ x = if i = j then f y else y := by
  rw [List.getElem?_modify]
  cases l[j]? with
  | none => simp
  | some y =>
    simp only [Option.map_eq_map, Option.map_some, Option.some.injEq, exists_eq_left']
    split <;> simp [eq_comm]

theorem inv_exit {s : Source V} {t : List (Op × Event V)} {st : State} (h : Inv s t st) :
    Inv s (t ++ [(.exit, (step s st .exit).2)]) (step s st .exit).1 := by
  have hq := fun ev => quiet (V := V) (t := t) (op := .exit) (ev := ev) (by simp)
  obtain ⟨hs, inp, gens⟩ := st
  cases inp with
  | none =>
    simp only [step]
    refine ⟨h.handles, h.inp, h.noFile, ?_, ?_, ?_, fun g hg => (h.born g hg).imp fun _ hk => List.mem_append_left _ hk, ?_⟩
    · rw [isOpen_snoc, ← h.isOpen]; simp
    · rw [h.entered]; simp
    · intro g keep hg
      simp only [List.mem_append, List.mem_singleton, Prod.mk.injEq, reduceCtorEq, and_self, or_false] at hg
      obtain ⟨q1, q2, q3⟩ := hq (.raised .attributeError) g
      rw [q1, q2, q3]
      exact h.gens g keep hg
    · intro g hg
      obtain ⟨q1, q2, q3⟩ := hq (.raised .attributeError) g
      rw [q1, q2, q3]
      exact h.unborn g hg
  | some i =>
    simp only [step]
    refine ⟨?_, ?_, by simp, ?_, ?_, ?_, fun g hg => (h.born g hg).imp fun _ hk => List.mem_append_left _ hk, ?_⟩
    · intro hd hh
      obtain ⟨j, hj⟩ := List.mem_iff_getElem?.1 hh
      obtain ⟨hd0, h1, h2⟩ := (modify_some _ _ _ _ _).1 hj
      have := h.handles hd0 (List.mem_of_getElem? h1)
      split at h2 <;> subst h2 <;> exact this
    · intro j hj
      simp only [List.length_modify]
      exact h.inp j hj
    · rw [isOpen_snoc]
      simp only [Prod.mk.injEq, reduceCtorEq, and_true, ne_eq, not_true, false_and, or_false, false_iff, not_exists, not_and,
        Bool.not_eq_false, false_or]
      rintro j hd hj hd'
      rw [Option.some.injEq] at hj
      subst hj
      obtain ⟨hd0, h1, h2⟩ := (modify_some _ _ _ _ _).1 hd'
      simp only [if_true] at h2
      rw [h2]
    · simpa using h.entered
    · intro g keep hg
      simp only [List.mem_append, List.mem_singleton, Prod.mk.injEq, reduceCtorEq, and_self, or_false] at hg
      obtain ⟨q1, q2, q3⟩ := hq .returned g
      rw [q1, q2, q3]
      obtain ⟨gs, h1, h2⟩ := h.gens g keep hg
      refine ⟨gs, h1, h2.mono fun j hd hj => ⟨_, (modify_some _ _ _ _ _).2 ⟨hd, hj, rfl⟩, ?_⟩⟩
      split <;> exact le_rfl
    · intro g hg
      obtain ⟨q1, q2, q3⟩ := hq .returned g
      rw [q1, q2, q3]
      exact h.unborn g hg

theorem inv_items {s : Source V} {t : List (Op × Event V)} {st : State} (keep : Str → Bool) (h : Inv s t st) :
    Inv s (t ++ [(.items keep, (step s st (.items keep)).2)]) (step s st (.items keep)).1 := by
  have hq := fun ev => quiet (V := V) (t := t) (op := .items keep) (ev := ev) (by simp)
  simp only [step]
  split
  · refine ⟨h.handles, h.inp, h.noFile, ?_, ?_, ?_, fun g hg => (h.born g hg).imp fun _ hk => List.mem_append_left _ hk, ?_⟩
    · rw [isOpen_snoc, ← h.isOpen]; simp
    · rw [h.entered]; simp
    · intro g keep' hg
      simp only [List.mem_append, List.mem_singleton, Prod.mk.injEq, reduceCtorEq, and_false, or_false] at hg
      obtain ⟨q1, q2, q3⟩ := hq (.raised .assertionError) g
      rw [q1, q2, q3]
      exact h.gens g keep' hg
    · intro g hg
      obtain ⟨q1, q2, q3⟩ := hq (.raised .assertionError) g
      rw [q1, q2, q3]
      exact h.unborn g hg
  · refine ⟨h.handles, h.inp, h.noFile, ?_, ?_, ?_, ?_, ?_⟩
    · rw [isOpen_snoc, ← h.isOpen]; simp
    · rw [h.entered]; simp
    · intro g keep' hg
      obtain ⟨q1, q2, q3⟩ := hq (.generator st.gens.length) g
      rw [q1, q2, q3]
      simp only [List.mem_append, List.mem_singleton, Prod.mk.injEq, Op.items.injEq, Event.generator.injEq] at hg
      rcases hg with hg | ⟨rfl, rfl⟩
      · obtain ⟨gs, h1, h2⟩ := h.gens g keep' hg
        refine ⟨gs, ?_, h2⟩
        rw [List.getElem?_append_left]
        · exact h1
        · exact (List.getElem?_eq_some_iff.1 h1).1
      · refine ⟨.fresh keep', by simp, rfl, ?_⟩
        exact h.unborn _ le_rfl
    · intro g hg
      simp only [List.length_append, List.length_singleton] at hg
      by_cases hgl : g < st.gens.length
      · exact (h.born g hgl).imp fun _ hk => List.mem_append_left _ hk
      · have : g = st.gens.length := by omega
        exact ⟨keep, by simp [this]⟩
    · intro g hg
      obtain ⟨q1, q2, q3⟩ := hq (.generator st.gens.length) g
      rw [q1, q2, q3]
      refine h.unborn g ?_
      simp only [List.length_append, List.length_singleton] at hg
      omega

/-- An operation on generator `g` adds nothing to what the others have done. -/
theorem quiet_other {t : List (Op × Event V)} {g g' : Nat} (ev : Event V) (h : g' ≠ g) :
    itemsOf g' (t ++ [(.next g, ev)]) = itemsOf g' t ∧ (Stopped g' (t ++ [(.next g, ev)]) ↔ Stopped g' t) ∧
      (Raised g' (t ++ [(.next g, ev)]) ↔ Raised g' t) := by
  refine ⟨?_, ?_, ?_⟩
  · rw [itemsOf_append]
    cases ev <;> simp [itemsOf]
    exact fun e => h e.symm
  · rw [stopped_snoc]
    simp only [Prod.mk.injEq, Op.next.injEq, or_iff_left_iff_imp]
    exact fun e => absurd e.1.symm h
  · rw [raised_snoc]
    simp only [Prod.mk.injEq, Op.next.injEq, or_iff_left_iff_imp]
    exact fun ⟨_, e⟩ => absurd e.1.symm h

theorem isOpen_next (t : List (Op × Event V)) (g : Nat) (ev : Event V) : IsOpen (t ++ [(.next g, ev)]) ↔ IsOpen t := by
  rw [isOpen_snoc]; simp

theorem inv_set {s : Source V} {t : List (Op × Event V)} {st : State} (h : Inv s t st) (g : Nat) (hg : g < st.gens.length)
    (hs : List TarHandle) (hlen : hs.length = st.handles.length)
    (hset : ∀ (j : Nat) (x : TarHandle), st.handles[j]? = some x → ∃ y, hs[j]? = some y ∧ x.read ≤ y.read ∧ y.closed = x.closed)
    (hset' : ∀ (j : Nat) (y : TarHandle), hs[j]? = some y → ∃ x, st.handles[j]? = some x ∧ y.closed = x.closed ∧ HandleOk (members s).length y)
    (ev : Event V) (gs : GenState)
    (hgs : ∀ keep', (Op.items keep', Event.generator g) ∈ t → GenOk s hs keep' (itemsOf g (t ++ [(.next g, ev)]))
        (Stopped g (t ++ [(.next g, ev)])) (Raised g (t ++ [(.next g, ev)])) gs) :
    Inv s (t ++ [(.next g, ev)]) ⟨hs, st.inp, st.gens.set g gs⟩ := by
  refine ⟨?_, ?_, fun hn => List.length_eq_zero_iff.1 (by rw [hlen, h.noFile hn]; rfl), ?_, ?_, ?_, fun g hg => (h.born g (by simpa using hg)).imp fun _ hk => List.mem_append_left _ hk, ?_⟩
  · intro y hy
    obtain ⟨j, hj⟩ := List.mem_iff_getElem?.1 hy
    obtain ⟨x, -, -, h3⟩ := hset' j y hj
    exact h3
  · intro j hj
    show j < hs.length
    rw [hlen]
    exact h.inp j hj
  · rw [isOpen_next, h.isOpen]
    constructor
    · rintro ⟨j, x, h1, h2, h3⟩
      obtain ⟨y, h4, -, h5⟩ := hset j x h2
      exact ⟨j, y, h1, h4, h5.trans h3⟩
    · rintro ⟨j, y, h1, h2, h3⟩
      obtain ⟨x, h4, h5, -⟩ := hset' j y h2
      exact ⟨j, x, h1, h4, h5.symm.trans h3⟩
  · simp only [List.mem_append, List.mem_singleton, Prod.mk.injEq, reduceCtorEq, false_and, or_false]
    exact h.entered
  · intro g' keep' hg'
    simp only [List.mem_append, List.mem_singleton, Prod.mk.injEq, reduceCtorEq, false_and, or_false] at hg'
    by_cases hgg : g' = g
    · subst hgg
      exact ⟨gs, by simp [hg], hgs keep' hg'⟩
    · obtain ⟨q1, q2, q3⟩ := quiet_other (t := t) ev hgg
      rw [q1, q2, q3]
      obtain ⟨gs', h1, h2⟩ := h.gens g' keep' hg'
      refine ⟨gs', ?_, h2.mono fun j x hx => ?_⟩
      · show (st.gens.set g gs)[g']? = _
        rw [List.getElem?_set_ne (Ne.symm hgg)]
        exact h1
      · obtain ⟨y, h4, h5, -⟩ := hset j x hx
        exact ⟨y, h4, h5⟩
  · intro g' hg'
    simp only [List.length_set] at hg'
    obtain ⟨q1, q2, q3⟩ := quiet_other (t := t) ev (show g' ≠ g by omega)
    rw [q1, q2, q3]
    exact h.unborn g' hg'

theorem inv_resume {s : Source V} {t : List (Op × Event V)} {st : State} (h : Inv s t st) (g : Nat) (keep : Str → Bool) (i pos : Nat)
    (hg : g < st.gens.length)
    (hi : ∃ hd, st.handles[i]? = some hd ∧ pos ≤ hd.read)
    (hprev : ∀ keep', (Op.items keep', Event.generator g) ∈ t → keep = keep' ∧ ¬ Stopped g t ∧ ¬ Raised g t ∧
      List.Forall₂ (PairOf s keep) (offered s ((members s).take pos) keep) (itemsOf g t)) :
    Inv s (t ++ [(.next g, (resume s st g keep i pos).2)]) (resume s st g keep i pos).1 := by
  obtain ⟨hd, hhd, hpos⟩ := hi
  have hok := h.handles hd (List.mem_of_getElem? hhd)
  have hlen : pos ≤ (members s).length := hpos.trans hok.1
  obtain ⟨a1, a2, a3, a4, a5⟩ := advance_spec s keep (inpClosed st) (members s).length ((members s).drop pos) hd pos hok
    (by rw [List.length_drop]; omega) hpos
  obtain ⟨r, hr⟩ : ∃ r, r = advance s keep (inpClosed st) hd pos ((members s).drop pos) := ⟨_, rfl⟩
  rw [← hr] at a1 a2 a3 a4 a5
  have hi' : i < st.handles.length := (List.getElem?_eq_some_iff.1 hhd).1
  have hset : ∀ (j : Nat) (x : TarHandle), st.handles[j]? = some x → ∃ y, (st.handles.set i r.1)[j]? = some y ∧ x.read ≤ y.read ∧ y.closed = x.closed := by
    intro j x hx
    by_cases hj : i = j
    · subst hj
      rw [hhd, Option.some.injEq] at hx
      subst hx
      exact ⟨r.1, by simp [hi'], a3, a2⟩
    · exact ⟨x, by rw [List.getElem?_set_ne hj]; exact hx, le_rfl, rfl⟩
  have hset' : ∀ (j : Nat) (y : TarHandle), (st.handles.set i r.1)[j]? = some y → ∃ x, st.handles[j]? = some x ∧ y.closed = x.closed ∧ HandleOk (members s).length y := by
    intro j y hy
    by_cases hj : i = j
    · subst hj
      rw [List.getElem?_set_self hi', Option.some.injEq] at hy
      subst hy
      exact ⟨hd, hhd, a2, a1⟩
    · rw [List.getElem?_set_ne hj] at hy
      exact ⟨y, hy, rfl, h.handles y (List.mem_of_getElem? hy)⟩
  have main := inv_set h g hg (st.handles.set i r.1) (List.length_set ..) hset hset'
  have hsplit : offered s (members s) keep = offered s ((members s).take pos) keep ++ offered s ((members s).drop pos) keep := by
    rw [← offered_append, List.take_append_drop]
  cases ho : r.2 with
  | item k v p =>
    have hres : resume s st g keep i pos = (⟨st.handles.set i r.1, st.inp, st.gens.set g (.running keep i p)⟩, .item k v) := by
      simp only [resume, hhd, ← hr, ho]
    rw [hres]
    refine main (.item k v) (.running keep i p) fun keep' hk => ?_
    obtain ⟨rfl, b2, b3, b4⟩ := hprev keep' hk
    rw [ho] at a4
    obtain ⟨-, skip, m, tail, c1, c2, c3, c4, c5⟩ := a4
    refine ⟨rfl, ?_, ?_, ⟨r.1, by simp [hi'], a5 k v p ho⟩, ?_⟩
    · rw [stopped_snoc]; simpa using b2
    · rw [raised_snoc]; simpa using b3
    · have : (members s).take p = (members s).take pos ++ (skip ++ [m]) := by
        have e : (members s).take p = ((members s).take pos ++ (members s).drop pos).take p := by rw [List.take_append_drop]
        rw [e, List.take_append, List.take_of_length_le (by rw [List.length_take]; omega), c1, List.length_take, Nat.min_eq_left hlen, c2]
        congr 1
        rw [show pos + skip.length + 1 - pos = skip.length + 1 by omega, List.take_append]
        simp [List.take_of_length_le]
      rw [this, offered_append, offered_append, c3, List.nil_append, offered_cons_some s m [] keep c4, itemsOf_append]
      refine List.rel_append b4 ?_
      simp [offered, itemsOf, c5]
  | stop =>
    have hres : resume s st g keep i pos = (⟨st.handles.set i r.1, st.inp, st.gens.set g .finished⟩, .stop) := by
      simp only [resume, hhd, ← hr, ho]
    rw [hres]
    refine main .stop .finished fun keep' hk => ?_
    obtain ⟨rfl, b2, b3, b4⟩ := hprev keep' hk
    rw [ho] at a4
    refine ⟨.inl ((stopped_snoc _ _ _).2 (.inr rfl)), _, _, hsplit, ?_, fun _ _ => a4⟩
    rw [itemsOf_append]
    simpa [itemsOf] using b4
  | raised e =>
    have hres : resume s st g keep i pos = (⟨st.handles.set i r.1, st.inp, st.gens.set g .finished⟩, .raised e) := by
      simp only [resume, hhd, ← hr, ho]
    rw [hres]
    refine main (.raised e) .finished fun keep' hk => ?_
    obtain ⟨rfl, b2, b3, b4⟩ := hprev keep' hk
    have hr : Raised g (t ++ [(.next g, .raised e)]) := (raised_snoc _ _ _).2 (.inr ⟨e, rfl⟩)
    refine ⟨.inr hr, _, _, hsplit, ?_, fun _ h => absurd hr h⟩
    rw [itemsOf_append]
    simpa [itemsOf] using b4

theorem inv_next {s : Source V} {t : List (Op × Event V)} {st : State} (g : Nat) (h : Inv s t st) :
    Inv s (t ++ [(.next g, (step s st (.next g)).2)]) (step s st (.next g)).1 := by
  have same : ∀ ev : Event V, (∀ k v, ev ≠ .item k v) → (∀ e, ev ≠ .raised e) → (ev ≠ .stop ∨ st.gens[g]? = some .finished) →
      Inv s (t ++ [(.next g, ev)]) st := by
    intro ev n1 n2 n3
    have hi : itemsOf g (t ++ [(.next g, ev)]) = itemsOf g t := by
      rw [itemsOf_append]
      cases ev with
      | item k v => exact absurd rfl (n1 k v)
      | _ => simp [itemsOf]
    have hra : Raised g (t ++ [(.next g, ev)]) ↔ Raised g t := by rw [raised_snoc]; simp [n2]
    refine ⟨h.handles, h.inp, h.noFile, ?_, ?_, ?_, fun g hg => (h.born g hg).imp fun _ hk => List.mem_append_left _ hk, ?_⟩
    · rw [isOpen_next]; exact h.isOpen
    · simp only [List.mem_append, List.mem_singleton, Prod.mk.injEq, reduceCtorEq, false_and, or_false]
      exact h.entered
    · intro g' keep hg'
      simp only [List.mem_append, List.mem_singleton, Prod.mk.injEq, reduceCtorEq, false_and, or_false] at hg'
      by_cases hgg : g' = g
      · subst hgg
        obtain ⟨gs, h1, h2⟩ := h.gens g' keep hg'
        refine ⟨gs, h1, ?_⟩
        rw [hi, hra]
        rcases n3 with n3 | n3
        · have : Stopped g' (t ++ [(.next g', ev)]) ↔ Stopped g' t := by rw [stopped_snoc]; simp [n3]
          rw [this]; exact h2
        · rw [n3, Option.some.injEq] at h1
          subst h1
          obtain ⟨c1, done, todo, c2, c3, c4⟩ := h2
          refine ⟨c1.imp_left fun c => (stopped_snoc _ _ _).2 (.inl c), done, todo, c2, c3, fun _ hr => ?_⟩
          exact c4 (c1.resolve_right hr) hr
      · obtain ⟨q1, q2, q3⟩ := quiet_other (t := t) ev hgg
        rw [q1, q2, q3]
        exact h.gens g' keep hg'
    · intro g' hg'
      by_cases hgg : g' = g
      · subst hgg
        obtain ⟨u1, u2, u3⟩ := h.unborn g' hg'
        have : st.gens[g']? = none := by simpa using hg'
        refine ⟨hi.trans u1, ?_, by rw [hra]; exact u3⟩
        rw [stopped_snoc]
        rcases n3 with n3 | n3
        · simp [u2, n3]
        · rw [this] at n3; exact absurd n3 (by simp)
      · obtain ⟨q1, q2, q3⟩ := quiet_other (t := t) ev hgg
        rw [q1, q2, q3]
        exact h.unborn g' hg'
  simp only [step]
  cases hg : st.gens[g]? with
  | none => exact same .returned (by simp) (by simp) (.inl (by simp))
  | some gs =>
    have hlt : g < st.gens.length := (List.getElem?_eq_some_iff.1 hg).1
    cases gs with
    | finished => exact same .stop (by simp) (by simp) (.inr hg)
    | fresh keep =>
      cases hinp : st.inp with
      | none =>
        have := inv_set h g hlt st.handles rfl (fun j x hx => ⟨x, hx, le_rfl, rfl⟩)
          (fun j y hy => ⟨y, hy, rfl, h.handles y (List.mem_of_getElem? hy)⟩) (.raised .assertionError) .finished ?_
        · rw [hinp] at this
          simpa using this
        · intro keep' hk
          obtain ⟨gs, h1, h2⟩ := h.gens g keep' hk
          rw [hg, Option.some.injEq] at h1
          subst h1
          obtain ⟨c1, c2, c3, c4⟩ := h2
          have hr : Raised g (t ++ [(.next g, .raised .assertionError)]) := (raised_snoc _ _ _).2 (.inr ⟨_, rfl⟩)
          refine ⟨.inr hr, [], _, rfl, ?_, fun _ h => absurd hr h⟩
          rw [itemsOf_append]
          simp [itemsOf, c2]
      | some i =>
        refine inv_resume h g keep i 0 hlt ?_ ?_
        · have := h.inp i hinp
          exact ⟨st.handles[i], by simp [this], Nat.zero_le _⟩
        · intro keep' hk
          obtain ⟨gs, h1, h2⟩ := h.gens g keep' hk
          rw [hg, Option.some.injEq] at h1
          subst h1
          obtain ⟨c1, c2, c3, c4⟩ := h2
          exact ⟨c1, c3, c4, by simp [offered, c2]⟩
    | running keep i pos =>
      have hk : ∀ keep', (Op.items keep', Event.generator g) ∈ t → GenOk s st.handles keep' (itemsOf g t) (Stopped g t) (Raised g t) (.running keep i pos) := by
        intro keep' hk
        obtain ⟨gs, h1, h2⟩ := h.gens g keep' hk
        rw [hg, Option.some.injEq] at h1
        subst h1
        exact h2
      refine inv_resume h g keep i pos hlt ?_ ?_
      · obtain ⟨keep', hb⟩ := h.born g hlt
        exact (hk keep' hb).2.2.2.1
      · intro keep' hk'
        obtain ⟨c1, c2, c3, c4, c5⟩ := hk keep' hk'
        exact ⟨c1, c2, c3, c1 ▸ c5⟩

theorem inv_hist {s : Source V} {t : List (Op × Event V)} {st : State} (h : Hist s t st) : Inv s t st := by
  induction h with
  | nil => exact inv_init s
  | snoc op _ ih =>
    cases op with
    | enter => exact inv_enter ih
    | exit => exact inv_exit ih
    | items keep => exact inv_items keep ih
    | next g => exact inv_next g ih

theorem hist_of_run (s : Source V) (ops : List Op) : ∃ st, Hist s (run s init ops) st := by
  simpa using hist_run s ops [] init .nil

/-- Any point in a history: the state before it, and what the operation did to it. -/
theorem hist_at {s : Source V} {ops : List Op} {a b : List (Op × Event V)} {op : Op} {ev : Event V}
    (h : run s init ops = a ++ (op, ev) :: b) : ∃ st, Hist s a st ∧ ev = (step s st op).2 := by
  obtain ⟨st, hst⟩ := hist_of_run s ops
  obtain ⟨st1, h1⟩ := hist_prefix s hst (a ++ [(op, ev)]) b (by simp [h])
  obtain ⟨st2, h2, h3, -⟩ := hist_last s h1 a op ev rfl
  exact ⟨st2, h2, h3⟩

/-! ## C85 -/

/-- Whatever the order in which a tar source is entered, left and iterated over, with however many generators at the same time: what a
generator has given so far are the pairs of the first of the members offered for its key filter, in the order of the archive, each
once; and when it says that it is at its end, without having raised, it has given them all. -/
theorem C85_items (s : Source V) (ms : List TarMember) (hms : s.archive = .ok ms) (ops : List Op) (g : Nat) (keep : Str → Bool)
    (hg : (Op.items keep, Event.generator g) ∈ run s init ops) :
    ∃ done todo, offered s ms keep = done ++ todo ∧ List.Forall₂ (PairOf s keep) done (itemsOf g (run s init ops)) ∧
      (Stopped g (run s init ops) → ¬ Raised g (run s init ops) → todo = []) := by
  have hm : members s = ms := by simp [members, hms]
  obtain ⟨st, hst⟩ := hist_of_run s ops
  obtain ⟨gs, h1, h2⟩ := (inv_hist hst).gens g keep hg
  cases gs with
  | fresh k =>
    obtain ⟨-, c2, c3, -⟩ := h2
    exact ⟨[], _, rfl, by rw [c2]; exact .nil, fun h => absurd h c3⟩
  | running k i pos =>
    obtain ⟨-, c2, -, -, c5⟩ := h2
    refine ⟨_, offered s (ms.drop pos) keep, ?_, hm ▸ c5, fun h => absurd h c2⟩
    rw [← offered_append, List.take_append_drop]
  | finished =>
    obtain ⟨-, h3⟩ := h2
    exact hm ▸ h3

theorem inpClosed_of {st : State} {i : Nat} {hd : TarHandle} (h1 : st.inp = some i) (h2 : st.handles[i]? = some hd) :
    inpClosed st = hd.closed := by
  simp [inpClosed, h1, h2]

/-- A generator gives a pair only while the source is open: entered, and not left since. -/
theorem C85_open (s : Source V) (ops : List Op) (a b : List (Op × Event V)) (g : Nat) (k : Str) (v : V)
    (h : run s init ops = a ++ (.next g, .item k v) :: b) : IsOpen a := by
  obtain ⟨st, hst, hev⟩ := hist_at h
  have hinv := inv_hist hst
  have hres : ∀ keep i pos, g < st.gens.length → (∃ hd, st.handles[i]? = some hd ∧ pos ≤ hd.read) →
      Event.item k v = (resume s st g keep i pos).2 → st.inp ≠ none → IsOpen a := by
    rintro keep i pos hlt ⟨hd, hhd, hpos⟩ he hne
    have hok := hinv.handles hd (List.mem_of_getElem? hhd)
    have hlen : pos ≤ (members s).length := hpos.trans hok.1
    obtain ⟨a1, a2, a3, a4, a5⟩ := advance_spec s keep (inpClosed st) (members s).length ((members s).drop pos) hd pos hok
      (by rw [List.length_drop]; omega) hpos
    simp only [resume, hhd] at he
    cases ho : (advance s keep (inpClosed st) hd pos ((members s).drop pos)).2 with
    | stop => rw [ho] at he; exact absurd he (by simp)
    | raised e => rw [ho] at he; exact absurd he (by simp)
    | item k' v' p =>
      rw [ho] at a4
      cases hi : st.inp with
      | none => exact absurd hi hne
      | some j =>
        have hj := hinv.inp j hi
        have hj' : st.handles[j]? = some st.handles[j] := by simp [hj]
        rw [inpClosed_of hi hj'] at a4
        exact hinv.isOpen.2 ⟨j, _, hi, hj', a4.1⟩
  simp only [step] at hev
  cases hg : st.gens[g]? with
  | none => rw [hg] at hev; exact absurd hev (by simp)
  | some gs =>
    have hlt : g < st.gens.length := (List.getElem?_eq_some_iff.1 hg).1
    rw [hg] at hev
    cases gs with
    | finished => exact absurd hev (by simp)
    | fresh keep =>
      cases hi : st.inp with
      | none => simp only [hi] at hev; exact absurd hev (by simp)
      | some i =>
        simp only [hi] at hev
        have := hinv.inp i hi
        exact hres keep i 0 hlt ⟨st.handles[i], by simp [this], Nat.zero_le _⟩ hev (by simp [hi])
    | running keep i pos =>
      obtain ⟨keep', hb⟩ := hinv.born g hlt
      obtain ⟨gs, h1, h2⟩ := hinv.gens g keep' hb
      rw [hg, Option.some.injEq] at h1
      subst h1
      obtain ⟨hd, hhd, hpos⟩ := h2.2.2.2.1
      refine hres keep i pos hlt ⟨hd, hhd, hpos⟩ hev fun hnone => ?_
      rw [hinv.noFile hnone] at hhd
      exact absurd hhd (by simp)

/-- The source is open, and so is the file generator `g` goes over. -/
def Awake (st : State) (g : Nat) : Prop :=
  (∃ i hd, st.inp = some i ∧ st.handles[i]? = some hd ∧ hd.closed = false) ∧
    ∀ keep h pos, st.gens[g]? = some (.running keep h pos) → ∃ hd, st.handles[h]? = some hd ∧ hd.closed = false

theorem resume_awake {s : Source V} {t : List (Op × Event V)} {st : State} (hinv : Inv s t st) {g g' : Nat} {keep : Str → Bool} {i pos : Nat}
    (hi : ∃ hd, st.handles[i]? = some hd ∧ pos ≤ hd.read) (h : Awake st g)
    (hopen : g' = g → ∃ hd, st.handles[i]? = some hd ∧ hd.closed = false) : Awake (resume s st g' keep i pos).1 g := by
  obtain ⟨hd, hhd, hpos⟩ := hi
  have hok := hinv.handles hd (List.mem_of_getElem? hhd)
  have hlen : pos ≤ (members s).length := hpos.trans hok.1
  obtain ⟨-, a2, -, -, -⟩ := advance_spec s keep (inpClosed st) (members s).length ((members s).drop pos) hd pos hok
    (by rw [List.length_drop]; omega) hpos
  have hi' : i < st.handles.length := (List.getElem?_eq_some_iff.1 hhd).1
  obtain ⟨r, hr⟩ : ∃ r, r = advance s keep (inpClosed st) hd pos ((members s).drop pos) := ⟨_, rfl⟩
  rw [← hr] at a2
  have hset : ∀ (j : Nat), (∃ x, st.handles[j]? = some x ∧ x.closed = false) → ∃ y, (st.handles.set i r.1)[j]? = some y ∧ y.closed = false := by
    rintro j ⟨x, hx, hc⟩
    by_cases hj : i = j
    · subst hj
      rw [hhd, Option.some.injEq] at hx
      subst hx
      exact ⟨r.1, by simp [hi'], a2.trans hc⟩
    · exact ⟨x, by rw [List.getElem?_set_ne hj]; exact hx, hc⟩
  have main : ∀ gs : GenState, (∀ keep h pos, gs = .running keep h pos → h = i) → Awake ⟨st.handles.set i r.1, st.inp, st.gens.set g' gs⟩ g := by
    intro gs hgs
    obtain ⟨⟨j, x, h1, h2, h3⟩, h4⟩ := h
    obtain ⟨y, h5, h6⟩ := hset j ⟨x, h2, h3⟩
    refine ⟨⟨j, y, h1, h5, h6⟩, fun k l q hk => hset l ?_⟩
    by_cases hgg : g' = g
    · have hk' : (st.gens.set g' gs)[g]? = some (.running k l q) := hk
      rw [hgg] at hk'
      have hlt : g < st.gens.length := by
        have := (List.getElem?_eq_some_iff.1 hk').1
        simpa using this
      rw [List.getElem?_set_self hlt, Option.some.injEq] at hk'
      rw [hgs k l q hk']
      exact hopen hgg
    · have hk' : (st.gens.set g' gs)[g]? = some (.running k l q) := hk
      rw [List.getElem?_set_ne hgg] at hk'
      exact h4 k l q hk'
  simp only [resume, hhd, ← hr]
  cases ho : r.2 with
  | item k v p =>
    refine main _ ?_
    intro k' l q hk
    simp only [GenState.running.injEq] at hk
    exact hk.2.1.symm
  | stop => exact main _ (by simp)
  | raised e => exact main _ (by simp)

theorem handle_of_running {s : Source V} {t : List (Op × Event V)} {st : State} (hinv : Inv s t st) {g : Nat} {keep : Str → Bool} {i pos : Nat}
    (hg : st.gens[g]? = some (.running keep i pos)) : ∃ hd, st.handles[i]? = some hd ∧ pos ≤ hd.read := by
  obtain ⟨keep', hb⟩ := hinv.born g (List.getElem?_eq_some_iff.1 hg).1
  obtain ⟨gs, h1, h2⟩ := hinv.gens g keep' hb
  rw [hg, Option.some.injEq] at h1
  subst h1
  exact h2.2.2.2.1

theorem handle_of_inp {s : Source V} {t : List (Op × Event V)} {st : State} (hinv : Inv s t st) {i : Nat} (hi : st.inp = some i) :
    ∃ hd, st.handles[i]? = some hd ∧ 0 ≤ hd.read := by
  have := hinv.inp i hi
  exact ⟨st.handles[i], by simp [this], Nat.zero_le _⟩

theorem step_awake {s : Source V} {t : List (Op × Event V)} {st : State} (hinv : Inv s t st) {g : Nat} (op : Op)
    (hop : (op, (step s st op).2) ≠ (Op.exit, Event.returned)) (h : Awake st g) (hg : g < st.gens.length) :
    Awake (step s st op).1 g ∧ g < (step s st op).1.gens.length := by
  cases op with
  | enter =>
    simp only [step]
    cases s.archive with
    | error e => exact ⟨h, hg⟩
    | ok ms =>
      refine ⟨⟨⟨_, ⟨false, 0, ms.isEmpty⟩, rfl, by simp, rfl⟩, fun k l q hk => ?_⟩, hg⟩
      obtain ⟨hd, h1, h2⟩ := h.2 k l q hk
      refine ⟨hd, ?_, h2⟩
      show (st.handles ++ _)[l]? = _
      rw [List.getElem?_append_left (List.getElem?_eq_some_iff.1 h1).1]
      exact h1
  | exit =>
    obtain ⟨⟨i, hd, h1, -⟩, -⟩ := h
    simp [step, h1] at hop
  | items keep =>
    simp only [step]
    split
    · exact ⟨h, hg⟩
    · refine ⟨⟨h.1, fun k l q hk => h.2 k l q ?_⟩, by simp; omega⟩
      have hk' : (st.gens ++ [GenState.fresh keep])[g]? = _ := hk
      rwa [List.getElem?_append_left hg] at hk'
  | next g' =>
    have hlen : ∀ keep i pos, (resume s st g' keep i pos).1.gens.length = st.gens.length := by
      intro keep i pos
      unfold resume
      cases st.handles[i]? with
      | none => simp
      | some hd => simp only; split <;> simp
    simp only [step]
    cases hg' : st.gens[g']? with
    | none => exact ⟨h, hg⟩
    | some gs =>
      cases gs with
      | finished => exact ⟨h, hg⟩
      | fresh keep =>
        cases hi : st.inp with
        | none => obtain ⟨⟨i, hd, h1, -⟩, -⟩ := h; rw [hi] at h1; exact absurd h1 (by simp)
        | some i =>
          refine ⟨resume_awake hinv (handle_of_inp hinv hi) h fun _ => ?_, by rw [hlen]; exact hg⟩
          obtain ⟨⟨j, hd, h1, h2, h3⟩, -⟩ := h
          rw [hi, Option.some.injEq] at h1
          subst h1
          exact ⟨hd, h2, h3⟩
      | running keep i pos =>
        refine ⟨resume_awake hinv (handle_of_running hinv hg') h fun e => ?_, by rw [hlen]; exact hg⟩
        subst e
        exact h.2 _ _ _ hg'

theorem awake_hist {s : Source V} (t1 : List (Op × Event V)) (keep : Str → Bool) (g : Nat) (hopen : IsOpen t1) :
    ∀ (t2 : List (Op × Event V)), (Op.exit, Event.returned) ∉ t2 → ∀ st, Hist s (t1 ++ (.items keep, .generator g) :: t2) st →
      Awake st g ∧ g < st.gens.length := by
  intro t2
  induction t2 using List.reverseRecOn with
  | nil =>
    intro _ st hst
    obtain ⟨st', h1, h2, h3⟩ := hist_last s hst t1 _ _ rfl
    have hinv := inv_hist h1
    subst h3
    simp only [step] at h2 ⊢
    split at h2
    · exact absurd h2 (by simp)
    · rename_i hc
      simp only [Event.generator.injEq] at h2
      simp only [hc]
      refine ⟨⟨hinv.isOpen.1 hopen, fun k l q hk => ?_⟩, by simp [h2]⟩
      have hk' : (st'.gens ++ [GenState.fresh keep])[g]? = _ := hk
      simp [h2] at hk'
  | append_singleton t2 x ih =>
    intro hx st hst
    obtain ⟨op, ev⟩ := x
    obtain ⟨st', h1, h2, h3⟩ := hist_last s hst (t1 ++ (.items keep, .generator g) :: t2) op ev (by simp)
    obtain ⟨h4, h5⟩ := ih (fun h => hx (by simp [h])) st' h1
    subst h3
    refine step_awake (inv_hist h1) op ?_ h4 h5
    rw [← h2]
    intro e
    exact hx (by simp [e])

/-- As long as the source stays open, a generator obtained while it was open gives every member: when advanced, it gives the pair of
the first member offered that it has not given yet; or raises, if that member cannot be read or interpreted; or stops, if it has given
them all. -/
theorem C85_progress (s : Source V) (ms : List TarMember) (hms : s.archive = .ok ms) (ops : List Op) (t1 t2 b : List (Op × Event V))
    (keep : Str → Bool) (g : Nat) (ev : Event V)
    (h : run s init ops = t1 ++ (.items keep, .generator g) :: t2 ++ (.next g, ev) :: b) (hopen : IsOpen t1)
    (hexit : (Op.exit, Event.returned) ∉ t2) (hraised : ¬ Raised g t2) :
    ∃ done todo, offered s ms keep = done ++ todo ∧ List.Forall₂ (PairOf s keep) done (itemsOf g t2) ∧
      (todo = [] → ev = .stop) ∧
      ∀ m rest, todo = m :: rest → (∃ k v, PairOf s keep m (k, v) ∧ ev = .item k v) ∨ ∃ e, FailsWith s keep m e ∧ ev = .raised e := by
  have hm : members s = ms := by simp [members, hms]
  obtain ⟨st, hst, hev⟩ := hist_at h
  have hinv := inv_hist hst
  obtain ⟨haw, hlt⟩ := awake_hist t1 keep g hopen t2 hexit st hst
  obtain ⟨gs, h1, h2⟩ := hinv.gens g keep (by simp)
  -- nothing was asked of the generator before it existed
  obtain ⟨st0, hst0, he0⟩ := hist_at (a := t1) (b := t2 ++ (.next g, ev) :: b) (by simpa using h)
  have hnew : itemsOf g t1 = [] ∧ ¬ Stopped g t1 ∧ ¬ Raised g t1 := by
    refine (inv_hist hst0).unborn g ?_
    simp only [step] at he0
    split at he0
    · exact absurd he0 (by simp)
    · simp only [Event.generator.injEq] at he0
      exact he0.ge
  have hitems : itemsOf g (t1 ++ (.items keep, .generator g) :: t2) = itemsOf g t2 := by
    rw [itemsOf_append, hnew.1]; rfl
  have hrai : ¬ Raised g (t1 ++ (.items keep, .generator g) :: t2) := by
    rintro ⟨e, he⟩
    simp only [List.mem_append, List.mem_cons, Prod.mk.injEq, reduceCtorEq, false_and, false_or] at he
    rcases he with he | he
    · exact hnew.2.2 ⟨e, he⟩
    · exact hraised ⟨e, he⟩
  rw [hitems] at h2
  obtain ⟨⟨j, hdj, hj1, hj2, hj3⟩, hrun⟩ := haw
  have hres : ∀ i pos, (∃ hd, st.handles[i]? = some hd ∧ pos ≤ hd.read) → (∃ hd, st.handles[i]? = some hd ∧ hd.closed = false) →
      List.Forall₂ (PairOf s keep) (offered s ((members s).take pos) keep) (itemsOf g t2) →
      ev = (resume s st g keep i pos).2 →
      ∃ done todo, offered s ms keep = done ++ todo ∧ List.Forall₂ (PairOf s keep) done (itemsOf g t2) ∧
        (todo = [] → ev = .stop) ∧
        ∀ m rest, todo = m :: rest → (∃ k v, PairOf s keep m (k, v) ∧ ev = .item k v) ∨ ∃ e, FailsWith s keep m e ∧ ev = .raised e := by
    rintro i pos ⟨hd, hhd, hpos⟩ ⟨hd', hhd', hcl⟩ hall he
    rw [hhd, Option.some.injEq] at hhd'
    subst hhd'
    have hok := hinv.handles hd (List.mem_of_getElem? hhd)
    have hlen : pos ≤ (members s).length := hpos.trans hok.1
    obtain ⟨a1, a2, a3, a4, a5⟩ := advance_spec s keep (inpClosed st) (members s).length ((members s).drop pos) hd pos hok
      (by rw [List.length_drop]; omega) hpos
    rw [hcl, inpClosed_of hj1 hj2, hj3] at a4
    simp only [resume, hhd] at he
    rw [inpClosed_of hj1 hj2, hj3] at he
    have hsp : offered s ms keep = offered s ((members s).take pos) keep ++ offered s ((members s).drop pos) keep := by
      rw [← offered_append, List.take_append_drop, hm]
    cases ho : (advance s keep false hd pos ((members s).drop pos)).2 with
    | stop =>
      rw [ho] at he a4
      have a4' : offered s ((members s).drop pos) keep = [] := a4
      exact ⟨_, _, hsp, hall, fun _ => he, fun m rest hmr => absurd (a4'.symm.trans hmr) (by simp)⟩
    | raised e =>
      rw [ho] at he a4
      obtain ⟨m, tail, c1, c2⟩ := a4.resolve_left (by simp)
      refine ⟨_, _, hsp, hall, fun hn => absurd (c1.symm.trans hn) (by simp), fun m' rest hmr => .inr ⟨e, ?_, he⟩⟩
      have := c1.symm.trans hmr
      simp only [List.cons.injEq] at this
      exact this.1 ▸ c2
    | item k v p =>
      rw [ho] at he a4
      obtain ⟨-, skip, m, tail, c1, c2, c3, c4, c5⟩ := a4
      have c6 : offered s ((members s).drop pos) keep = m :: offered s tail keep := by
        rw [c1, offered_append, c3, List.nil_append, offered_cons_some s m tail keep c4]
      refine ⟨_, _, hsp, hall, fun hn => absurd (c6.symm.trans hn) (by simp), fun m' rest hmr => .inl ⟨k, v, ?_, he⟩⟩
      have := c6.symm.trans hmr
      simp only [List.cons.injEq] at this
      exact this.1 ▸ c5
  simp only [step, h1] at hev
  cases gs with
  | finished =>
    obtain ⟨c1, done, todo, c2, c3, c4⟩ := h2
    refine ⟨done, todo, hm ▸ c2, c3, fun _ => hev, fun m rest hmr => ?_⟩
    rw [c4 (c1.resolve_right hrai) hrai] at hmr
    exact absurd hmr (by simp)
  | fresh k =>
    obtain ⟨c1, c2, c3, c4⟩ := h2
    subst c1
    simp only [hj1] at hev
    exact hres j 0 ⟨hdj, hj2, Nat.zero_le _⟩ ⟨hdj, hj2, hj3⟩ (by rw [c2]; simp [offered]) hev
  | running k i pos =>
    obtain ⟨c1, c2, c3, c4, c5⟩ := h2
    subst c1
    exact hres i pos c4 (hrun _ _ _ h1) c5 hev

/-- Entering opens the archive, or raises the exception of opening it. -/
theorem C85_enter (s : Source V) (ops : List Op) (a b : List (Op × Event V)) (ev : Event V)
    (h : run s init ops = a ++ (.enter, ev) :: b) :
    (∀ ms, s.archive = .ok ms → ev = .returned) ∧ ∀ e, s.archive = .error e → ev = .raised e := by
  obtain ⟨st, -, hev⟩ := hist_at h
  subst hev
  constructor
  · intro ms hms; simp [step, hms]
  · intro e he; simp [step, he]

/-- Leaving a source that was never entered is an `AttributeError`; after that, leaving it always works. -/
theorem C85_exit (s : Source V) (ops : List Op) (a b : List (Op × Event V)) (ev : Event V)
    (h : run s init ops = a ++ (.exit, ev) :: b) :
    ((Op.enter, Event.returned) ∉ a → ev = .raised .attributeError) ∧ ((Op.enter, Event.returned) ∈ a → ev = .returned) := by
  obtain ⟨st, hst, hev⟩ := hist_at h
  have hinv := inv_hist hst
  subst hev
  constructor
  · intro hn; simp [step, hinv.entered.2 hn]
  · intro hy
    cases hi : st.inp with
    | none => exact absurd hy (hinv.entered.1 hi)
    | some i => simp [step, hi]

/-- `items` of a source of bytes that was never entered is an `AssertionError`; a source with interpreted values reports it only when
the generator is advanced.  Otherwise `items` returns a generator, another one each time. -/
theorem C85_generator (s : Source V) (ops : List Op) (a b : List (Op × Event V)) (keep : Str → Bool) (ev : Event V)
    (h : run s init ops = a ++ (.items keep, ev) :: b) :
    ((Op.enter, Event.returned) ∉ a → s.lazy = false → ev = .raised .assertionError) ∧
    ((Op.enter, Event.returned) ∈ a ∨ s.lazy = true → ∃ g, ev = .generator g ∧ (∀ keep', (Op.items keep', Event.generator g) ∉ a)) := by
  obtain ⟨st, hst, hev⟩ := hist_at h
  have hinv := inv_hist hst
  subst hev
  constructor
  · intro hn hl; simp [step, hinv.entered.2 hn, hl]
  · intro hy
    refine ⟨st.gens.length, ?_, fun keep' hk => ?_⟩
    · have : (!s.lazy && st.inp.isNone) = false := by
        rcases hy with hy | hy
        · cases hi : st.inp with
          | none => exact absurd hy (hinv.entered.1 hi)
          | some i => simp
        · simp [hy]
      simp [step, this]
    · obtain ⟨gs, h1, -⟩ := hinv.gens _ _ hk
      simp at h1

theorem none_finished {s : Source V} {t : List (Op × Event V)} {st : State} (h : Hist s t st) :
    st.inp = none → ∀ g, st.gens[g]? = some .finished → Raised g t := by
  induction h with
  | nil => intro _ g hg; simp [init] at hg
  | @snoc t st op hst ih =>
    intro hi g hg
    have hinv := inv_hist hst
    rw [raised_snoc]
    cases op with
    | enter =>
      cases ha : s.archive with
      | error e => simp only [step, ha] at hi hg; exact .inl (ih hi g hg)
      | ok ms => simp [step, ha] at hi
    | exit =>
      cases hin : st.inp with
      | none => simp only [step, hin] at hg; exact .inl (ih hin g hg)
      | some i => simp [step, hin] at hi
    | items keep =>
      simp only [step] at hi hg
      split at hi
      · rename_i hc
        simp only [hc, if_true] at hg
        exact .inl (ih hi g hg)
      · rename_i hc
        simp only [hc] at hg
        have hg' : (st.gens ++ [GenState.fresh keep])[g]? = some .finished := hg
        rw [List.getElem?_append] at hg'
        split at hg'
        · exact .inl (ih hi g hg')
        · rw [List.getElem?_singleton] at hg'
          split at hg' <;> simp at hg'
    | next g' =>
      cases hg' : st.gens[g']? with
      | none => simp only [step, hg'] at hi hg; exact .inl (ih hi g hg)
      | some gs =>
        cases gs with
        | finished => simp only [step, hg'] at hi hg; exact .inl (ih hi g hg)
        | fresh keep =>
          cases hin : st.inp with
          | some i =>
            exfalso
            simp only [step, hg', hin] at hi
            unfold resume at hi
            cases hh : st.handles[i]? with
            | none => simp [hh, hin] at hi
            | some hd =>
              simp only [hh] at hi
              split at hi <;> simp [hin] at hi
          | none =>
            simp only [step, hg', hin] at hg ⊢
            by_cases hgg : g' = g
            · exact .inr ⟨.assertionError, by rw [hgg]⟩
            · rw [List.getElem?_set_ne hgg] at hg
              exact .inl (ih hin g hg)
        | running keep i pos =>
          exfalso
          obtain ⟨hd, hhd, -⟩ := handle_of_running hinv hg'
          have hne : st.inp ≠ none := fun hn => by
            rw [hinv.noFile hn] at hhd
            exact absurd hhd (by simp)
          simp only [step, hg'] at hi
          unfold resume at hi
          simp only [hhd] at hi
          split at hi <;> exact hne hi

/-- Advancing a generator of a source that was never entered (only a source with interpreted values has such generators) is an
`AssertionError` the first time. -/
theorem C85_never_entered (s : Source V) (ops : List Op) (a b : List (Op × Event V)) (keep : Str → Bool) (g : Nat) (ev : Event V)
    (h : run s init ops = a ++ (.next g, ev) :: b) (hg : (Op.items keep, Event.generator g) ∈ a)
    (hn : (Op.enter, Event.returned) ∉ a) (hr : ¬ Raised g a) : ev = .raised .assertionError := by
  obtain ⟨st, hst, hev⟩ := hist_at h
  have hinv := inv_hist hst
  have hi := hinv.entered.2 hn
  obtain ⟨gs, h1, h2⟩ := hinv.gens g keep hg
  subst hev
  cases gs with
  | fresh k => simp [step, h1, hi]
  | running k i pos =>
    obtain ⟨hd, hhd, -⟩ := h2.2.2.2.1
    rw [hinv.noFile hi] at hhd
    exact absurd hhd (by simp)
  | finished => exact absurd (none_finished hst hi g h1) hr

/-! ## Examples -/

namespace Example

/-- A directory, two files, and one that cannot be extracted. -/
def ms : List TarMember := [⟨"d".toList, false, .ok none⟩, ⟨"x".toList, true, .ok (some (encodeUtf8 "X".toList))⟩,
  ⟨"y".toList, true, .ok (some (encodeUtf8 "Y".toList))⟩, ⟨"bad".toList, true, .ok none⟩]

/-- The source of bytes. -/
def src : Source Bytes := ⟨.ok ms, some, fun _ => true, false, fun _ b => .ok b⟩

/-- Everything but the member that cannot be extracted. -/
def good : Str → Bool := fun k => k != "bad".toList

/-- Two generators in turn; then the source is left, and entered again. -/
def ops : List Op := [.enter, .items good, .items fun _ => true, .next 0, .next 1, .next 0, .next 0, .next 1, .next 1, .exit,
  .items good, .next 2, .enter, .items good, .next 3]

/-- What comes of it: the generator obtained after leaving finds its first member (which the file still has) but cannot extract it. -/
theorem events : (run src init ops).map (·.2) = [.returned, .generator 0, .generator 1, .item "x".toList (encodeUtf8 "X".toList),
    .item "x".toList (encodeUtf8 "X".toList), .item "y".toList (encodeUtf8 "Y".toList), .stop, .item "y".toList (encodeUtf8 "Y".toList),
    .raised .ioError, .returned, .generator 2, .raised .ioError, .returned, .generator 3,
    .item "x".toList (encodeUtf8 "X".toList)] := by decide +kernel

-- the hypotheses of `C85_items`: the first generator has ended without raising
example : ∃ done todo, offered src ms good = done ++ todo ∧ List.Forall₂ (PairOf src good) done (itemsOf 0 (run src init ops)) ∧
    (Stopped 0 (run src init ops) → ¬ Raised 0 (run src init ops) → todo = []) :=
  C85_items src ms rfl ops 0 good (List.mem_cons_of_mem _ (List.mem_cons_self ..))

example : Stopped 0 (run src init ops) ∧ ¬ Raised 0 (run src init ops) := by
  refine ⟨?_, ?_⟩
  · exact (List.mem_iff_getElem?.2 ⟨6, rfl⟩)
  · rintro ⟨e, h⟩
    simp [run, ops, step, init, resume, src, members, ms, advance, wantedKey, extract, inpClosed, good] at h

-- `C85_progress` of the second generator, which meets the member that cannot be extracted
example : ∃ b, run src init ops = [(.enter, .returned), (.items good, .generator 0)] ++ (.items fun _ => true, .generator 1) ::
    [(.next 0, .item "x".toList (encodeUtf8 "X".toList)), (.next 1, .item "x".toList (encodeUtf8 "X".toList)),
      (.next 0, .item "y".toList (encodeUtf8 "Y".toList)), (.next 0, .stop), (.next 1, .item "y".toList (encodeUtf8 "Y".toList))] ++
    (.next 1, .raised .ioError) :: b := ⟨_, rfl⟩
example : IsOpen ([(.enter, .returned), (.items good, .generator 0)] : List (Op × Event Bytes)) :=
  ⟨[], [(.items good, .generator 0)], rfl, by simp⟩

/-- A source that was left can still be asked for a generator, and if no member is left to be extracted that generator may end
without complaint: leaving is noticed only when the archive has to be read. -/
theorem _root_.Vista.TarLife.C85_left_unnoticed_counterexample :
    ∃ (s : Source Bytes) (ops : List Op), (run s init ops).map (·.2) =
      [.returned, .generator 0, .stop, .returned, .generator 1, .stop] := by
  refine ⟨src, [.enter, .items fun _ => false, .next 0, .exit, .items fun _ => false, .next 1], ?_⟩
  decide +kernel

-- the other theorems: a source never entered, and a lazy one
example : (run src init [.exit, .items good]).map (·.2) = [.raised .attributeError, .raised .assertionError] := by decide +kernel
example : (run { src with lazy := true } init [.items good, .next 0, .next 0, .enter, .next 0]).map (·.2) =
    [.generator 0, .raised .assertionError, .stop, .returned, .stop] := by decide +kernel

end Example

end TarLife
end Vista
