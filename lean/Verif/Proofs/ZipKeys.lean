import Verif.Spec.ZipKeys
import Verif.Props.Zip
import Mathlib.Data.List.Induction

/-!
# Proofs about zip sinks with any key functions
-/
set_option linter.unusedSectionVars false
set_option linter.unusedSimpArgs false
namespace Vista
namespace Zip
namespace Keyed

/-! ## Reading -/

/-- What reading the entries gives. -/
def Reads (fn : Str → Res Str) (allowed : Str → Prop) (a : Archive) (M : Str → Option Bytes) : Prop :=
  ∀ k n, allowed k → fn k = .ok n →
    (∀ b, M k = some b → readEntry a n = .ok b) ∧ (M k = none → readEntry a n = .error .keyError)

variable {fn : Str → Res Str} {allowed : Str → Prop}

theorem gives_iff (hN : Names fn allowed) (a : Archive) (M : Str → Option Bytes) : Gives fn allowed a M ↔ Reads fn allowed a M := by
  constructor
  · rintro ⟨src, hs, h1, h2⟩ k n hk hn
    simp only [Source.create, Source.enter, Except.ok.injEq] at hs
    subst hs
    refine ⟨fun b hb => ?_, fun hM => ?_⟩
    · have := (h1 k b hk hb).2 Unit ()
      simp only [Source.asSource, Source.internalGet, bind, Except.bind, hn] at this
      split at this <;> simp_all
    · have := (h2 k hk hM).1
      simp only [Source.asSource, Source.internalGet, bind, Except.bind, hn] at this
      split at this
      · rename_i e he
        split at he <;> simp_all
      · rename_i v hv
        cases v with
        | inl v => simp at this
        | inr d => exact nomatch d
  · intro h
    refine ⟨_, rfl, fun k b hk hb => ?_, fun k hk hM => ?_⟩
    · obtain ⟨n, hn, _⟩ := hN.names k hk
      have := (h k n hk hn).1 b hb
      simp [Source.create, Source.asSource, Source.internalGet, bind, Except.bind, hn, this]
    · obtain ⟨n, hn, _⟩ := hN.names k hk
      have := (h k n hk hn).2 hM
      simp [Source.create, Source.asSource, Source.internalGet, bind, Except.bind, hn, this]

theorem reads_nil : Reads fn allowed [] fun _ => none :=
  fun k n _ _ => ⟨(fun b hb => by cases hb), fun _ => rfl⟩

theorem reads_writestr (hN : Names fn allowed) {a : Archive} {M : Str → Option Bytes} (h : Reads fn allowed a M) {k n : Str}
    (hk : allowed k) (hn : fn k = .ok n) (b : Bytes) :
    Reads fn allowed (writestr a n b) fun j => if j = k then some b else M j := by
  intro j m hj hm
  obtain ⟨n', hn', h0⟩ := hN.names k hk
  obtain rfl : n = n' := by rw [hn] at hn'; exact Except.ok.inj hn'
  rw [readEntry_writestr a n h0]
  by_cases hjk : j = k
  · subst hjk
    obtain rfl : n = m := by rw [hn] at hm; exact Except.ok.inj hm
    simp
  · have hne : n ≠ m := fun h => hjk (hN.injective j k m hj hk hm (h ▸ hn))
    simp only [hjk, if_false, hne]
    exact h j m hj hm

theorem reads_writeAll {a : Archive} {M : Str → Option Bytes} (h : Reads fn allowed a M) (more : List (Str × Bytes))
    (hm : ∀ e ∈ more, Apart fn allowed e.1) : Reads fn allowed (writeAll a more) M := by
  induction more generalizing a with
  | nil => exact h
  | cons e more ih =>
    refine ih (a := writestr a e.1 e.2) ?_ fun x hx => hm x (by simp [hx])
    intro k n hk hn
    rw [writestr, readEntry_append, if_neg (hm e (by simp) k n hk hn)]
    exact h k n hk hn

/-! ## Traces -/

theorem opened_snoc (t : List (KOp × Event)) (op : KOp) (ev : Event) : Opened (t ++ [(op, ev)]) ↔ Opened t ∨ op = .enter := by
  constructor
  · rintro ⟨e, he⟩
    rcases List.mem_append.1 he with he | he
    · exact .inl ⟨e, he⟩
    · simp only [List.mem_singleton, Prod.mk.injEq] at he; exact .inr he.1.symm
  · rintro (⟨e, he⟩ | rfl)
    · exact ⟨e, by simp [he]⟩
    · exact ⟨ev, by simp⟩

theorem isOpen_opened {t : List (KOp × Event)} (h : IsOpen t) : Opened t := by
  obtain ⟨t1, ev, t2, rfl, -⟩ := h; exact ⟨ev, by simp⟩

theorem snoc_eq {α : Type} {t t1 t2 : List α} {x y : α} (h : t ++ [x] = t1 ++ y :: t2) :
    (t = t1 ∧ x = y ∧ t2 = []) ∨ ∃ t2', t2 = t2' ++ [x] ∧ t = t1 ++ y :: t2' := by
  rcases List.eq_nil_or_concat t2 with rfl | ⟨t2', z, rfl⟩
  · left
    have := List.append_inj' h rfl
    exact ⟨this.1, by simpa using this.2, rfl⟩
  · right
    rw [List.concat_eq_append] at h ⊢
    have h' : t ++ [x] = (t1 ++ y :: t2') ++ [z] := by simpa using h
    have := List.append_inj' h' rfl
    simp only [List.cons.injEq, and_true] at this
    exact ⟨t2', by rw [this.2], this.1⟩

theorem isOpen_snoc (t : List (KOp × Event)) (op : KOp) (ev : Event) :
    IsOpen (t ++ [(op, ev)]) ↔ op = .enter ∨ (IsOpen t ∧ ¬ (op = .exit ∧ ev = .returned)) := by
  constructor
  · rintro ⟨t1, e, t2, h, hn⟩
    rcases snoc_eq h with ⟨-, h2, -⟩ | ⟨t2', rfl, rfl⟩
    · simp only [Prod.mk.injEq] at h2; exact .inl h2.1
    · refine .inr ⟨⟨t1, e, t2', rfl, fun hm => hn (by simp [hm])⟩, ?_⟩
      rintro ⟨rfl, rfl⟩; exact hn (by simp)
  · rintro (rfl | ⟨⟨t1, e, t2, rfl, hn⟩, hx⟩)
    · exact ⟨t, ev, [], rfl, by simp⟩
    · refine ⟨t1, e, t2 ++ [(op, ev)], by simp, ?_⟩
      intro hm
      rcases List.mem_append.1 hm with hm | hm
      · exact hn hm
      · simp only [List.mem_singleton, Prod.mk.injEq] at hm; exact hx ⟨hm.1.symm, hm.2.symm⟩

theorem refused_snoc (t : List (KOp × Event)) (op : KOp) (ev : Event) (k : Str) :
    Refused (t ++ [(op, ev)]) k ↔
      Refused t k ∨ (∃ ks, op = .enter ∧ ev = .entered ks ∧ k ∈ ks) ∨ ∃ v, op = .put k v ∧ v ≠ .none ∧ Opened t := by
  constructor
  · rintro (⟨ks, hm, hk⟩ | ⟨t1, v, e, t2, h, hv, ho⟩)
    · rcases List.mem_append.1 hm with hm | hm
      · exact .inl (.inl ⟨ks, hm, hk⟩)
      · simp only [List.mem_singleton, Prod.mk.injEq] at hm
        exact .inr (.inl ⟨ks, hm.1.symm, hm.2.symm, hk⟩)
    · rcases snoc_eq h with ⟨rfl, h2, -⟩ | ⟨t2', rfl, rfl⟩
      · simp only [Prod.mk.injEq] at h2
        exact .inr (.inr ⟨v, h2.1, hv, ho⟩)
      · exact .inl (.inr ⟨t1, v, e, t2', rfl, hv, ho⟩)
  · rintro ((⟨ks, hm, hk⟩ | ⟨t1, v, e, t2, rfl, hv, ho⟩) | ⟨ks, rfl, rfl, hk⟩ | ⟨v, rfl, hv, ho⟩)
    · exact .inl ⟨ks, by simp [hm], hk⟩
    · exact .inr ⟨t1, v, e, t2 ++ [(op, ev)], by simp, hv, ho⟩
    · exact .inl ⟨ks, by simp, hk⟩
    · exact .inr ⟨t, v, ev, [], rfl, hv, ho⟩

theorem oneAtATime_snoc {t : List (KOp × Event)} {op : KOp} {ev : Event} (h : OneAtATime (t ++ [(op, ev)])) :
    OneAtATime t ∧ (op = .enter → ¬ IsOpen t) := by
  constructor
  · rintro t1 e t2 rfl
    exact h t1 e (t2 ++ [(op, ev)]) (by simp)
  · rintro rfl
    exact h t ev [] rfl

theorem oneAtATime_append {t t' : List (KOp × Event)} (h : OneAtATime (t ++ t')) : OneAtATime t := by
  rintro t1 e t2 rfl
  exact h t1 e (t2 ++ t') (by simp)

theorem after_append (f : File) (s : KSink) (ops ops' : List KOp) :
    s.after f (ops ++ ops') = (s.after f ops).2.after (s.after f ops).1 ops' := by
  induction ops generalizing f s with
  | nil => rfl
  | cons op ops ih => simp only [List.cons_append, KSink.after]; exact ih _ _

theorem trace_append (f : File) (s : KSink) (ops ops' : List KOp) :
    s.trace f (ops ++ ops') = s.trace f ops ++ (s.after f ops).2.trace (s.after f ops).1 ops' := by
  induction ops generalizing f s with
  | nil => rfl
  | cons op ops ih => simp only [List.cons_append, KSink.trace, KSink.after, ih]

/-- A place in the trace is a place in the calls. -/
theorem trace_split {f : File} {s : KSink} {ops : List KOp} {t1 t2 : List (KOp × Event)} {op : KOp} {ev : Event}
    (h : s.trace f ops = t1 ++ (op, ev) :: t2) :
    ∃ ops1 ops2, ops = ops1 ++ op :: ops2 ∧ s.trace f ops1 = t1 ∧ ((s.after f ops1).2.call (s.after f ops1).1 op).2 = ev ∧
      s.trace f (ops1 ++ [op]) = t1 ++ [(op, ev)] := by
  induction t1 generalizing f s ops with
  | nil =>
    cases ops with
    | nil => simp [KSink.trace] at h
    | cons o ops =>
      simp only [KSink.trace, List.nil_append, List.cons.injEq, Prod.mk.injEq] at h
      obtain ⟨⟨rfl, rfl⟩, rfl⟩ := h
      exact ⟨[], ops, rfl, rfl, rfl, rfl⟩
  | cons x t1 ih =>
    cases ops with
    | nil => simp [KSink.trace] at h
    | cons o ops =>
      simp only [KSink.trace, List.cons_append, List.cons.injEq] at h
      obtain ⟨rfl, h⟩ := h
      obtain ⟨ops1, ops2, rfl, h1, h2, h3⟩ := ih h
      exact ⟨o :: ops1, ops2, rfl, by simp [KSink.trace, h1], by simpa [KSink.after] using h2, by simpa [KSink.trace] using h3⟩

theorem valuesAfter_snoc (o : Bool) (M : Str → Option Bytes) (t : List (KOp × Event)) (x : KOp × Event) :
    valuesAfter o M (t ++ [x]) = (valuesAfter o M t).step o x := by
  simp [valuesAfter, List.foldl_append]

/-! ## The invariant -/

/-- What holds after some calls. -/
structure Inv (cfg : Config) (allowed : Str → Prop) (f0 : File) (M0 : Str → Option Bytes) (t : List (KOp × Event)) (f : File) (s : KSink) : Prop where
  same : s.cfg = cfg
  nodup : s.keys.Nodup
  mem : ∀ k, k ∈ s.keys ↔ Refused t k
  new : s.zip = .none → ¬ Opened t ∧ f = f0 ∧ valuesAfter cfg.overwrite M0 t = .start M0
  closed : s.zip = .closed → Opened t ∧ ¬ IsOpen t ∧ (valuesAfter cfg.overwrite M0 t).current = none ∧
    ∃ a, f = .archive a ∧ Reads cfg.filename allowed a (valuesAfter cfg.overwrite M0 t).atPath
  opened : ∀ a, s.zip = .opened a → IsOpen t ∧ ∃ C, (valuesAfter cfg.overwrite M0 t).current = some C ∧ Reads cfg.filename allowed a C

variable {cfg : Config} {f0 f : File} {M0 : Str → Option Bytes} {t : List (KOp × Event)} {s : KSink}

theorem setUpdate_nodup {ks more : List Str} (h : ks.Nodup) : (setUpdate ks more).Nodup := by
  refine List.nodup_append.2 ⟨h, (distinct_nodup more).filter _, ?_⟩
  rintro a ha b hb rfl
  simp only [List.mem_filter, decide_eq_true_eq] at hb
  exact hb.2 ha

theorem setUpdate_mem {ks more : List Str} {k : Str} : k ∈ setUpdate ks more ↔ k ∈ ks ∨ k ∈ more := by
  simp only [setUpdate, List.mem_append, List.mem_filter, distinct_mem, decide_eq_true_eq]
  by_cases h : k ∈ ks <;> simp [h]

theorem Inv.start (cfg : Config) : Inv cfg allowed f0 M0 [] f0 ⟨cfg, .none, []⟩ where
  same := rfl
  nodup := List.nodup_nil
  mem k := by
    simp only [List.not_mem_nil, false_iff]
    rintro (⟨ks, h, -⟩ | ⟨t1, v, e, t2, h, -⟩)
    · simp at h
    · simp at h
  new _ := ⟨by rintro ⟨e, h⟩; simp at h, rfl, rfl⟩
  closed h := by cases h
  opened a h := by cases h

/-- The archive as it is when it has just been opened. -/
theorem openFor_reads (hN : Names cfg.filename allowed) (hf0 : f0.Gives cfg.filename allowed M0) (hI : Inv cfg allowed f0 M0 t f s)
    (ho : ¬ IsOpen t) :
    Reads cfg.filename allowed (openFor cfg.overwrite f).1 (if cfg.overwrite then fun _ => none else (valuesAfter cfg.overwrite M0 t).atPath) := by
  cases hc : cfg.overwrite with
  | true => simp only [openFor, if_true]; exact reads_nil
  | false =>
    simp only [openFor, Bool.false_eq_true, if_false]
    have hI' := hI
    cases hz : s.zip with
    | none =>
      obtain ⟨-, rfl, hv⟩ := hI.new hz
      rw [hc] at hv
      rw [hv]
      simp only [Values.start]
      cases f with
      | archive a => exact (gives_iff hN a M0).1 hf0
      | absent => intro k n hk hn; simp only [File.Gives] at hf0; exact ⟨(fun b hb => by rw [hf0 k hk] at hb; cases hb), fun _ => rfl⟩
      | unreadable => intro k n hk hn; simp only [File.Gives] at hf0; exact ⟨(fun b hb => by rw [hf0 k hk] at hb; cases hb), fun _ => rfl⟩
    | closed =>
      obtain ⟨-, -, -, a, rfl, hr⟩ := hI.closed hz
      rw [hc] at hr
      exact hr
    | opened a => exact absurd (hI.opened a hz).1 ho

theorem Inv.enter (hN : Names cfg.filename allowed) (hA : KeepApart cfg allowed) (hf0 : f0.Gives cfg.filename allowed M0)
    (hI : Inv cfg allowed f0 M0 t f s) (ho : ¬ IsOpen t) :
    Inv cfg allowed f0 M0 (t ++ [(.enter, (s.enter f).2)]) (s.enter f).1.1 (s.enter f).1.2 := by
  obtain rfl := hI.same
  have hr := openFor_reads hN hf0 hI ho
  unfold KSink.enter
  cases hk : s.cfg.keysIn with
  | none =>
    refine ⟨rfl, hI.nodup, fun k => ?_, (fun h => by cases h), (fun h => by cases h), fun a h => ?_⟩
    · rw [refused_snoc, hI.mem k]; simp
    · simp only [Handle.opened.injEq] at h
      subst h
      exact ⟨(isOpen_snoc _ _ _).2 (.inl rfl), _, by rw [valuesAfter_snoc]; rfl, hr⟩
  | some g =>
    have hr' := reads_writeAll hr (g (openFor s.cfg.overwrite f).1).1 (hA.1 g hk _)
    simp only []
    cases hg : (g (openFor s.cfg.overwrite f).1).2 with
    | ok ks =>
      refine ⟨rfl, setUpdate_nodup hI.nodup, fun k => ?_, (fun h => by cases h), (fun h => by cases h), fun a h => ?_⟩
      · simp only [refused_snoc, setUpdate_mem, hI.mem k]
        constructor
        · rintro (h | h)
          · exact .inl h
          · exact .inr (.inl ⟨_, by simp, rfl, h⟩)
        · rintro (h | ⟨ks', -, h, hk'⟩ | ⟨v, h, -⟩)
          · exact .inl h
          · simp only [Event.entered.injEq] at h; subst h; exact .inr hk'
          · cases h
      · simp only [Handle.opened.injEq] at h
        subst h
        exact ⟨(isOpen_snoc _ _ _).2 (.inl rfl), _, by rw [valuesAfter_snoc]; rfl, hr'⟩
    | error e =>
      refine ⟨rfl, hI.nodup, fun k => ?_, (fun h => by cases h), (fun h => by cases h), fun a h => ?_⟩
      · rw [refused_snoc, hI.mem k]; simp
      · simp only [Handle.opened.injEq] at h
        subst h
        exact ⟨(isOpen_snoc _ _ _).2 (.inl rfl), _, by rw [valuesAfter_snoc]; rfl, hr'⟩

theorem step_put_raised (o : Bool) (w : Values) (k : Str) (v : Value) (e : Exc) : w.step o (.put k v, .raised e) = w := rfl

/-- A call that raises and changes nothing but, perhaps, the keys. -/
theorem Inv.raised (hI : Inv cfg allowed f0 M0 t f s) {op : KOp} {e : Exc} {ks : List Str} (hop : op ≠ .enter)
    (hnd : ks.Nodup) (hmem : ∀ k, k ∈ ks ↔ Refused (t ++ [(op, .raised e)]) k) :
    Inv cfg allowed f0 M0 (t ++ [(op, .raised e)]) f { s with keys := ks } := by
  obtain rfl := hI.same
  have hv : valuesAfter s.cfg.overwrite M0 (t ++ [(op, .raised e)]) = valuesAfter s.cfg.overwrite M0 t := by
    rw [valuesAfter_snoc]
    cases op with
    | enter => exact absurd rfl hop
    | put k v => rfl
    | exit => rfl
  refine ⟨rfl, hnd, hmem, fun h => ?_, fun h => ?_, fun a h => ?_⟩
  · rw [hv, opened_snoc]; simpa [hop] using hI.new h
  · rw [hv, opened_snoc, isOpen_snoc]; simpa [hop] using hI.closed h
  · rw [hv, isOpen_snoc]; simpa [hop] using hI.opened a h

theorem Inv.opened_iff (hI : Inv cfg allowed f0 M0 t f s) : s.zip ≠ .none ↔ Opened t := by
  constructor
  · intro h
    cases hz : s.zip with
    | none => exact absurd hz h
    | closed => exact (hI.closed hz).1
    | opened a => exact isOpen_opened (hI.opened a hz).1
  · intro h hz
    exact (hI.new hz).1 h

theorem Inv.isOpen_iff (hI : Inv cfg allowed f0 M0 t f s) : (∃ a, s.zip = .opened a) ↔ IsOpen t := by
  constructor
  · rintro ⟨a, h⟩; exact (hI.opened a h).1
  · intro h
    cases hz : s.zip with
    | none => exact absurd (isOpen_opened h) (hI.new hz).1
    | closed => exact absurd h (hI.closed hz).2.1
    | opened a => exact ⟨a, rfl⟩

/-- Writing, once the key has been recorded. -/
theorem Inv.write (hN : Names cfg.filename allowed) (hI : Inv cfg allowed f0 M0 t f s) {k n : Str} {v : Value} {b : Bytes}
    (hk : allowed k) (hn : cfg.filename k = .ok n) (hb : bytesOf v = some b) (hv : v ≠ .none) (hz : s.zip ≠ .none) (hkk : k ∉ s.keys) :
    Inv cfg allowed f0 M0 (t ++ [(.put k v, (({ s with keys := s.keys ++ [k] } : KSink).write f n b).2)])
      (({ s with keys := s.keys ++ [k] } : KSink).write f n b).1.1 (({ s with keys := s.keys ++ [k] } : KSink).write f n b).1.2 := by
  obtain rfl := hI.same
  have hnd : (s.keys ++ [k]).Nodup := by
    refine List.nodup_append.2 ⟨hI.nodup, by simp, ?_⟩
    rintro a ha b hb rfl
    simp only [List.mem_singleton] at hb
    exact hkk (hb ▸ ha)
  have hmem : ∀ ev j, j ∈ s.keys ++ [k] ↔ Refused (t ++ [(.put k v, ev)]) j := by
    intro ev j
    rw [refused_snoc, List.mem_append, hI.mem j]
    constructor
    · rintro (h | h)
      · exact .inl h
      · simp only [List.mem_singleton] at h; subst h
        exact .inr (.inr ⟨v, rfl, hv, hI.opened_iff.1 hz⟩)
    · rintro (h | ⟨ks, h, -⟩ | ⟨w, h, -⟩)
      · exact .inl h
      · cases h
      · simp only [KOp.put.injEq] at h; exact .inr (by simp [h.1])
  unfold KSink.write
  cases hz' : s.zip with
  | none => exact absurd hz' hz
  | closed =>
    simp only []
    have := hI.raised (op := .put k v) (e := .valueError) (by simp) hnd (hmem _)
    rw [hz'] at this
    exact this
  | opened a =>
    obtain ⟨ho, C, hC, hr⟩ := hI.opened a hz'
    refine ⟨rfl, hnd, hmem _, (fun h => by cases h), (fun h => by cases h), fun a' h => ?_⟩
    simp only [Handle.opened.injEq] at h
    subst h
    refine ⟨(isOpen_snoc _ _ _).2 (.inr ⟨ho, by rintro ⟨h, -⟩; cases h⟩), _, ?_, reads_writestr hN hr hk hn b⟩
    rw [valuesAfter_snoc]
    simp only [Values.step, hC, Option.map_some, hb]

theorem Inv.put (hN : Names cfg.filename allowed) (hI : Inv cfg allowed f0 M0 t f s) {k : Str} {v : Value}
    (hk : allowed k ∨ ∃ e, cfg.filename k = .error e) :
    Inv cfg allowed f0 M0 (t ++ [(.put k v, (s.put f k v).2)]) (s.put f k v).1.1 (s.put f k v).1.2 := by
  obtain rfl := hI.same
  have same : ∀ e, (s.zip = .none ∨ v = .none ∨ k ∈ s.keys) → ∀ j, j ∈ s.keys ↔ Refused (t ++ [(.put k v, .raised e)]) j := by
    intro e h j
    rw [refused_snoc, hI.mem j]
    constructor
    · exact .inl
    · rintro (h' | ⟨ks, h', -⟩ | ⟨w, h', hw, ho⟩)
      · exact h'
      · cases h'
      · simp only [KOp.put.injEq] at h'
        obtain ⟨rfl, rfl⟩ := h'
        rcases h with h | h | h
        · exact absurd h (hI.opened_iff.2 ho)
        · exact absurd h hw
        · exact (hI.mem k).1 h
  have more : ∀ e, s.zip ≠ .none → v ≠ .none → k ∉ s.keys →
      (s.keys ++ [k]).Nodup ∧ ∀ j, j ∈ s.keys ++ [k] ↔ Refused (t ++ [(.put k v, .raised e)]) j := by
    intro e hz hv hkk
    refine ⟨?_, fun j => ?_⟩
    · refine List.nodup_append.2 ⟨hI.nodup, by simp, ?_⟩
      rintro a ha b hb rfl
      simp only [List.mem_singleton] at hb
      exact hkk (hb ▸ ha)
    · rw [refused_snoc, List.mem_append, hI.mem j]
      constructor
      · rintro (h | h)
        · exact .inl h
        · simp only [List.mem_singleton] at h; subst h
          exact .inr (.inr ⟨v, rfl, hv, hI.opened_iff.1 hz⟩)
      · rintro (h | ⟨ks, h, -⟩ | ⟨w, h, -⟩)
        · exact .inl h
        · cases h
        · simp only [KOp.put.injEq] at h; exact .inr (by simp [h.1])
  have hput : s.zip ≠ .none → v ≠ .none → Inv s.cfg allowed f0 M0 (t ++ [(.put k v, (s.record f k v).2)]) (s.record f k v).1.1
      (s.record f k v).1.2 := by
    intro hz hv
    unfold KSink.record
    by_cases hkk : k ∈ s.keys
    · simp only [hkk, if_true]
      exact hI.raised (by simp) hI.nodup (same _ (.inr (.inr hkk)))
    · simp only [hkk, if_false]
      cases hn : s.cfg.filename k with
      | error e =>
        simp only []
        have := more e hz hv hkk
        exact hI.raised (by simp) this.1 this.2
      | ok n =>
        have hk' : allowed k := hk.resolve_right (by rintro ⟨e, he⟩; rw [hn] at he; cases he)
        cases v with
        | none => exact absurd rfl hv
        | str t' => exact hI.write hN hk' hn rfl hv hz hkk
        | bytes b => exact hI.write hN hk' hn rfl hv hz hkk
        | other =>
          have := more .valueError hz hv hkk
          exact hI.raised (by simp) this.1 this.2
  have hnone : s.zip ≠ .none → v = .none → Inv s.cfg allowed f0 M0 (t ++ [(.put k v, .raised .valueError)]) f s := fun _ hv =>
    hI.raised (by simp) hI.nodup (same _ (.inr (.inl hv)))
  unfold KSink.put
  cases hz : s.zip with
  | none => exact hI.raised (by simp) hI.nodup (same _ (.inl hz))
  | closed =>
    have hz' : s.zip ≠ .none := by rw [hz]; simp
    cases v with
    | none => exact hnone hz' rfl
    | str x => exact hput hz' (by simp)
    | bytes x => exact hput hz' (by simp)
    | other => exact hput hz' (by simp)
  | opened a =>
    have hz' : s.zip ≠ .none := by rw [hz]; simp
    cases v with
    | none => exact hnone hz' rfl
    | str x => exact hput hz' (by simp)
    | bytes x => exact hput hz' (by simp)
    | other => exact hput hz' (by simp)

theorem Inv.exit (hA : KeepApart cfg allowed) (hI : Inv cfg allowed f0 M0 t f s) :
    Inv cfg allowed f0 M0 (t ++ [(.exit, (s.exit f).2)]) (s.exit f).1.1 (s.exit f).1.2 := by
  obtain rfl := hI.same
  have same : ∀ ev j, j ∈ s.keys ↔ Refused (t ++ [(.exit, ev)]) j := by
    intro ev j
    rw [refused_snoc, hI.mem j]
    simp
  have hraised : ∀ e, Inv s.cfg allowed f0 M0 (t ++ [(.exit, .raised e)]) f s := fun e => hI.raised (by simp) hI.nodup (same _)
  have hclosed : s.zip = .closed → Inv s.cfg allowed f0 M0 (t ++ [(.exit, .returned)]) f s := by
    intro hz
    obtain ⟨h1, h2, h3, h4⟩ := hI.closed hz
    have hv : valuesAfter s.cfg.overwrite M0 (t ++ [(.exit, .returned)]) = valuesAfter s.cfg.overwrite M0 t := by
      rw [valuesAfter_snoc]
      generalize valuesAfter s.cfg.overwrite M0 t = w at h3
      cases w; simp only at h3; subst h3; rfl
    refine ⟨rfl, hI.nodup, same _, (fun h => by rw [hz] at h; cases h), fun _ => ?_, fun a h => by rw [hz] at h; cases h⟩
    rw [hv, opened_snoc, isOpen_snoc]
    exact ⟨.inl h1, by simp, h3, h4⟩
  have hleft : ∀ a C, IsOpen t → (valuesAfter s.cfg.overwrite M0 t).current = some C → Reads s.cfg.filename allowed a C →
      Inv s.cfg allowed f0 M0 (t ++ [(.exit, .returned)]) (.archive a) { s with zip := .closed } := by
    intro a C ho hC hr
    refine ⟨rfl, hI.nodup, same _, (fun h => by cases h), fun _ => ?_, fun a h => by cases h⟩
    rw [valuesAfter_snoc, opened_snoc, isOpen_snoc]
    refine ⟨.inl (isOpen_opened ho), by simp, rfl, a, rfl, ?_⟩
    simp only [Values.step, hC, Option.getD_some]
    exact hr
  unfold KSink.exit
  cases hz : s.zip with
  | none =>
    cases s.cfg.keysOut with
    | none => exact hraised _
    | some g =>
      simp only []
      cases (g .none s.keys).2 with
      | ok u => exact hraised _
      | error e => exact hraised _
  | closed =>
    cases s.cfg.keysOut with
    | none => exact hclosed hz
    | some g =>
      simp only []
      cases (g .closed s.keys).2 with
      | ok u => exact hclosed hz
      | error e => exact hraised _
  | opened a =>
    obtain ⟨ho, C, hC, hr⟩ := hI.opened a hz
    cases hk : s.cfg.keysOut with
    | none => exact hleft a C ho hC hr
    | some g =>
      have hr' := reads_writeAll hr (g (.opened a) s.keys).1 (hA.2 g hk _ _)
      simp only []
      cases (g (.opened a) s.keys).2 with
      | ok u => exact hleft _ C ho hC hr'
      | error e =>
        refine ⟨rfl, hI.nodup, same _, (fun h => by cases h), (fun h => by cases h), fun a' h => ?_⟩
        simp only [Handle.opened.injEq] at h
        subst h
        rw [valuesAfter_snoc, isOpen_snoc]
        exact ⟨.inr ⟨ho, by simp⟩, C, hC, hr'⟩

/-- The invariant holds after any calls. -/
theorem Inv.all (hN : Names cfg.filename allowed) (hA : KeepApart cfg allowed) (hf0 : f0.Gives cfg.filename allowed M0) (ops : List KOp)
    (hu : InUse cfg.filename allowed ops) (ho : OneAtATime ((⟨cfg, .none, []⟩ : KSink).trace f0 ops)) :
    Inv cfg allowed f0 M0 ((⟨cfg, .none, []⟩ : KSink).trace f0 ops) ((⟨cfg, .none, []⟩ : KSink).after f0 ops).1
      ((⟨cfg, .none, []⟩ : KSink).after f0 ops).2 := by
  induction ops using List.reverseRecOn with
  | nil => exact Inv.start cfg
  | append_singleton ops op ih =>
    rw [trace_append] at ho ⊢
    rw [after_append]
    have ho' := ho
    simp only [KSink.trace] at ho
    obtain ⟨h1, h2⟩ := oneAtATime_snoc ho
    have hI := ih (fun k v h => hu k v (by simp [h])) h1
    simp only [KSink.trace, KSink.after]
    cases op with
    | enter => exact hI.enter hN hA hf0 (h2 rfl)
    | put k v => exact hI.put hN (hu k v (by simp))
    | exit => exact hI.exit hA

end Keyed
end Zip
end Vista
