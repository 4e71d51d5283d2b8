import Verif.Proofs.ZipKeys
import Verif.Props.ZipLife

/-!
# C106: zip sinks with any key functions
-/
set_option linter.unusedSectionVars false
set_option linter.unusedSimpArgs false
namespace Vista
namespace Zip
namespace Keyed

/-- A sink can be made unless it has a function to read keys and none to write them. -/
theorem C106_create (cfg : Config) :
    (cfg.keysIn = none ∨ cfg.keysOut ≠ none → KSink.create cfg = .ok ⟨cfg, .none, []⟩) ∧
    (cfg.keysIn ≠ none ∧ cfg.keysOut = none → KSink.create cfg = .error .valueError) := by
  obtain ⟨fn, o, ki, ko⟩ := cfg
  cases ki <;> cases ko <;> simp [KSink.create, checkArg, bind, Except.bind]

section
variable {cfg : Config} {allowed : Str → Prop} (hN : Names cfg.filename allowed) (hA : KeepApart cfg allowed)
  {file : File} {M : Str → Option Bytes} (hfile : file.Gives cfg.filename allowed M) {sink : KSink} (hsink : KSink.create cfg = .ok sink)
  (ops : List KOp) (huse : InUse cfg.filename allowed ops) (hone : OneAtATime (sink.trace file ops))
include hN hA hfile hsink huse hone

theorem created : sink = ⟨cfg, .none, []⟩ := by
  have h := C106_create cfg
  by_cases hc : cfg.keysIn = none ∨ cfg.keysOut ≠ none
  · rw [h.1 hc] at hsink; exact (Except.ok.inj hsink).symm
  · rw [h.2 ⟨fun hi => hc (.inl hi), by
      by_contra ho; exact hc (.inr ho)⟩] at hsink
    cases hsink

theorem invariant : Inv cfg allowed file M (sink.trace file ops) (sink.after file ops).1 (sink.after file ops).2 := by
  obtain rfl := created hN hA hfile hsink ops huse hone
  exact Inv.all hN hA hfile ops huse hone

/-- When the object is thrown away after any calls, also after key functions have raised: if it was ever entered, there is an archive at
the path that gives exactly the values put successfully since the sink was last entered (and, appending, those that were there before);
if the sink was left without an exception this is so at once.  If it was never entered the file is as before. -/
theorem C106_values :
    (¬ Opened (sink.trace file ops) → (sink.after file ops).1 = file ∧ (sink.after file ops).2.dropped (sink.after file ops).1 = file) ∧
    (Opened (sink.trace file ops) → ¬ IsOpen (sink.trace file ops) →
      ∃ a, (sink.after file ops).1 = .archive a ∧ (sink.after file ops).2.dropped (sink.after file ops).1 = .archive a ∧
        Gives cfg.filename allowed a (valuesAfter cfg.overwrite M (sink.trace file ops)).atPath) ∧
    (IsOpen (sink.trace file ops) →
      ∃ a C, (sink.after file ops).2.dropped (sink.after file ops).1 = .archive a ∧
        (valuesAfter cfg.overwrite M (sink.trace file ops)).current = some C ∧ Gives cfg.filename allowed a C) := by
  have hI := invariant hN hA hfile hsink ops huse hone
  generalize hf : (sink.after file ops).1 = f at hI
  generalize hs : (sink.after file ops).2 = s at hI
  refine ⟨fun h => ?_, fun h h' => ?_, fun h => ?_⟩
  · cases hz : s.zip with
    | none => rw [(hI.new hz).2.1]; exact ⟨rfl, by simp [KSink.dropped, hz]⟩
    | closed => exact absurd (hI.closed hz).1 h
    | opened a => exact absurd (isOpen_opened (hI.opened a hz).1) h
  · cases hz : s.zip with
    | none => exact absurd h (hI.new hz).1
    | closed =>
      obtain ⟨-, -, -, a, rfl, hr⟩ := hI.closed hz
      exact ⟨a, rfl, by simp [KSink.dropped, hz], (gives_iff hN a _).2 hr⟩
    | opened a => exact absurd (hI.opened a hz).1 h'
  · obtain ⟨a, hz⟩ := hI.isOpen_iff.2 h
    obtain ⟨-, C, hC, hr⟩ := hI.opened a hz
    exact ⟨a, C, by simp [KSink.dropped, hz], hC, (gives_iff hN a _).2 hr⟩

/-- What each `put` does. -/
theorem C106_put (t1 t2 : List (KOp × Event)) (k : Str) (v : Value) (ev : Event)
    (ht : sink.trace file ops = t1 ++ (.put k v, ev) :: t2) :
    (¬ Opened t1 → ev = .raised .assertionError) ∧
    (Opened t1 → v = .none ∨ Refused t1 k → ev = .raised .valueError) ∧
    (Opened t1 → v ≠ .none → ¬ Refused t1 k →
      (∀ e, cfg.filename k = .error e → ev = .raised e) ∧
      (∀ n, cfg.filename k = .ok n →
        (bytesOf v = none ∨ ¬ IsOpen t1 → ev = .raised .valueError) ∧
        ((bytesOf v).isSome = true → IsOpen t1 → ev = .returned))) := by
  obtain ⟨ops1, ops2, rfl, rfl, rfl, -⟩ := trace_split ht
  rw [ht] at hone
  have hI := invariant hN hA hfile hsink ops1 (fun k v h => huse k v (by simp [h])) (oneAtATime_append hone)
  generalize (sink.after file ops1).1 = f at hI
  generalize (sink.after file ops1).2 = s at hI
  simp only [KSink.call]
  refine ⟨fun h => ?_, fun h h' => ?_, fun h hv hr => ?_⟩
  · cases hz : s.zip with
    | none => simp [KSink.put, hz]
    | closed => exact absurd (hI.opened_iff.1 (by simp [hz])) h
    | opened a => exact absurd (hI.opened_iff.1 (by simp [hz])) h
  · have hz := hI.opened_iff.2 h
    rw [← hI.mem k] at h'
    unfold KSink.put
    cases hz' : s.zip with
    | none => exact absurd hz' hz
    | closed => rcases h' with h' | h' <;> cases v <;> simp_all [KSink.record]
    | opened a => rcases h' with h' | h' <;> cases v <;> simp_all [KSink.record]
  · have hz := hI.opened_iff.2 h
    rw [← hI.mem k] at hr
    have hcfg := hI.same
    unfold KSink.put
    refine ⟨fun e he => ?_, fun n hn => ⟨fun hb => ?_, fun hb ho => ?_⟩⟩
    · cases hz' : s.zip with
      | none => exact absurd hz' hz
      | closed => cases v <;> simp_all [KSink.record]
      | opened a => cases v <;> simp_all [KSink.record]
    · cases hz' : s.zip with
      | none => exact absurd hz' hz
      | closed => cases v <;> simp_all [KSink.record, KSink.write, bytesOf]
      | opened a =>
        have hb' : bytesOf v = none := hb.resolve_right (fun hn => hn (hI.opened a hz').1)
        cases v <;> simp_all [KSink.record, KSink.write, bytesOf]
    · obtain ⟨a, hz'⟩ := hI.isOpen_iff.2 ho
      cases v <;> simp_all [KSink.record, KSink.write, bytesOf]

/-- Entering calls the function that reads keys, if there is one, with an archive that has the values at the path (nothing, overwriting),
and passes on what it raises. -/
theorem C106_enter (t1 t2 : List (KOp × Event)) (ev : Event) (ht : sink.trace file ops = t1 ++ (.enter, ev) :: t2) :
    ∃ a, Gives cfg.filename allowed a (if cfg.overwrite then fun _ => none else (valuesAfter cfg.overwrite M t1).atPath) ∧
      (cfg.overwrite = true → a = []) ∧
      (cfg.keysIn = none → ev = .entered []) ∧
      ∀ g, cfg.keysIn = some g →
        (∀ ks, (g a).2 = .ok (some ks) → ev = .entered ks) ∧ ((g a).2 = .ok none → ev = .entered []) ∧
        ∀ e, (g a).2 = .error e → ev = .raised e := by
  obtain ⟨ops1, ops2, rfl, rfl, rfl, -⟩ := trace_split ht
  have ho : ¬ IsOpen (sink.trace file ops1) := hone _ _ _ ht
  rw [ht] at hone
  have hI := invariant hN hA hfile hsink ops1 (fun k v h => huse k v (by simp [h])) (oneAtATime_append hone)
  generalize (sink.after file ops1).1 = f at hI
  generalize (sink.after file ops1).2 = s at hI
  refine ⟨(openFor cfg.overwrite f).1, (gives_iff hN _ _).2 (openFor_reads hN hfile hI ho), fun h => by simp [openFor, h], fun h => ?_, fun g hg => ?_⟩
  · simp [KSink.call, KSink.enter, hI.same, h]
  · simp only [KSink.call, KSink.enter, hI.same, hg]
    refine ⟨fun ks h => by simp [h], fun h => by simp [h], fun e h => by simp [h]⟩

/-- Leaving calls the function that writes keys, if there is one, with an archive that has the values put, and with exactly the keys that
are refused, each once; it raises what that function raises.  Leaving a sink never entered always raises. -/
theorem C106_exit (t1 t2 : List (KOp × Event)) (ev : Event) (ht : sink.trace file ops = t1 ++ (.exit, ev) :: t2) :
    ∃ ks, ks.Nodup ∧ (∀ k, k ∈ ks ↔ Refused t1 k) ∧
    (IsOpen t1 → ∃ a C, (valuesAfter cfg.overwrite M t1).current = some C ∧ Gives cfg.filename allowed a C ∧
      (cfg.keysOut = none → ev = .returned) ∧
      ∀ g, cfg.keysOut = some g →
        ((g (.opened a) ks).2 = .ok () → ev = .returned) ∧ ∀ e, (g (.opened a) ks).2 = .error e → ev = .raised e) ∧
    (Opened t1 → ¬ IsOpen t1 → (cfg.keysOut = none → ev = .returned) ∧
      ∀ g, cfg.keysOut = some g → ((g .closed ks).2 = .ok () → ev = .returned) ∧ ∀ e, (g .closed ks).2 = .error e → ev = .raised e) ∧
    (¬ Opened t1 → (cfg.keysOut = none → ev = .raised .attributeError) ∧
      ∀ g, cfg.keysOut = some g → ((g .none ks).2 = .ok () → ev = .raised .attributeError) ∧ ∀ e, (g .none ks).2 = .error e → ev = .raised e) := by
  obtain ⟨ops1, ops2, rfl, rfl, rfl, -⟩ := trace_split ht
  rw [ht] at hone
  have hI := invariant hN hA hfile hsink ops1 (fun k v h => huse k v (by simp [h])) (oneAtATime_append hone)
  generalize (sink.after file ops1).1 = f at hI
  generalize (sink.after file ops1).2 = s at hI
  refine ⟨s.keys, hI.nodup, hI.mem, fun h => ?_, fun h h' => ?_, fun h => ?_⟩
  · obtain ⟨a, hz⟩ := hI.isOpen_iff.2 h
    obtain ⟨-, C, hC, hr⟩ := hI.opened a hz
    refine ⟨a, C, hC, (gives_iff hN _ _).2 hr, fun hk => by simp [KSink.call, KSink.exit, hI.same, hz, hk], fun g hg => ⟨fun h => ?_, fun e h => ?_⟩⟩
    · simp [KSink.call, KSink.exit, hI.same, hz, hg, h]
    · simp [KSink.call, KSink.exit, hI.same, hz, hg, h]
  · cases hz : s.zip with
    | none => exact absurd h (hI.new hz).1
    | opened a => exact absurd (hI.opened a hz).1 h'
    | closed =>
      refine ⟨fun hk => by simp [KSink.call, KSink.exit, hI.same, hz, hk], fun g hg => ⟨fun h => ?_, fun e h => ?_⟩⟩
      · simp [KSink.call, KSink.exit, hI.same, hz, hg, h]
      · simp [KSink.call, KSink.exit, hI.same, hz, hg, h]
  · cases hz : s.zip with
    | closed => exact absurd (hI.closed hz).1 h
    | opened a => exact absurd (isOpen_opened (hI.opened a hz).1) h
    | none =>
      refine ⟨fun hk => by simp [KSink.call, KSink.exit, hI.same, hz, hk], fun g hg => ⟨fun h => ?_, fun e h => ?_⟩⟩
      · simp [KSink.call, KSink.exit, hI.same, hz, hg, h]
      · simp [KSink.call, KSink.exit, hI.same, hz, hg, h]

/-- While the sink is open the file is as it was when the sink was entered (only if appending, and nothing has been put successfully since),
or cannot be read. -/
theorem C106_while_open (t1 t2 : List (KOp × Event)) (ev : Event) (ht : sink.trace file ops = t1 ++ (.enter, ev) :: t2)
    (hopen : (KOp.exit, Event.returned) ∉ t2) :
    (sink.after file ops).1 = .unreadable ∨
    (cfg.overwrite = false ∧ (∃ a, (sink.after file ops).1 = .archive a) ∧ (∀ k v, (KOp.put k v, Event.returned) ∉ t2) ∧
      ∃ ops1, sink.trace file ops1 = t1 ∧ (sink.after file ops1).1 = (sink.after file ops).1) := by
  obtain ⟨ops1, ops2, rfl, rfl, h3, -⟩ := trace_split ht
  have hone' := hone
  rw [trace_append] at ht
  simp only [KSink.trace, List.append_cancel_left_eq, List.cons.injEq, Prod.mk.injEq, true_and] at ht
  obtain ⟨-, rfl⟩ := ht
  have hI := invariant hN hA hfile hsink ops1 (fun k v h => huse k v (by simp [h])) (oneAtATime_append (by rw [trace_append] at hone; exact hone))
  have hrest : ∀ t1' ev' t2', ((sink.after file ops1).2.enter (sink.after file ops1).1).1.2.trace
      ((sink.after file ops1).2.enter (sink.after file ops1).1).1.1 ops2 ≠ t1' ++ (.enter, ev') :: t2' := by
    intro t1' ev' t2' h
    refine hone (sink.trace file ops1 ++ (.enter, ((sink.after file ops1).2.enter (sink.after file ops1).1).2) :: t1') ev' t2' ?_
      ⟨sink.trace file ops1, _, t1', rfl, fun hm => hopen ?_⟩
    · rw [trace_append]
      simp only [KSink.trace, KSink.call, h, List.append_assoc, List.cons_append]
    · simp only [KSink.call, h]
      simp [hm]
  rw [after_append]
  simp only [KSink.after, KSink.call] at hopen ⊢
  have hcfg := hI.same
  clear hone hone' huse hI h3
  generalize hf1 : (sink.after file ops1).1 = f1 at *
  generalize (sink.after file ops1).2 = s1 at *
  -- the state after entering
  have h0 : (∃ a, (s1.enter f1).1.2.zip = .opened a) ∧ ((s1.enter f1).1.1 = .unreadable ∨ (cfg.overwrite = false ∧ (∃ a, f1 = .archive a) ∧ (s1.enter f1).1.1 = f1)) := by
    have ho : (openFor cfg.overwrite f1).2 = .unreadable ∨ (cfg.overwrite = false ∧ (∃ a, f1 = .archive a) ∧ (openFor cfg.overwrite f1).2 = f1) := by
      cases hc : cfg.overwrite <;> cases f1 <;> simp [openFor]
    have hw : ∀ more, (openFor cfg.overwrite f1).2.written more = .unreadable ∨
        (cfg.overwrite = false ∧ (∃ a, f1 = .archive a) ∧ (openFor cfg.overwrite f1).2.written more = f1) := by
      intro more
      unfold File.written
      split
      · exact ho
      · exact .inl rfl
    unfold KSink.enter
    rw [hcfg]
    cases cfg.keysIn with
    | none => exact ⟨⟨_, rfl⟩, ho⟩
    | some g =>
      simp only []
      cases (g (openFor cfg.overwrite f1).1).2 with
      | ok ks => exact ⟨⟨_, rfl⟩, hw _⟩
      | error e => exact ⟨⟨_, rfl⟩, hw _⟩
  generalize (s1.enter f1).1.1 = f at *
  generalize (s1.enter f1).1.2 = s at *
  have key : (s.after f ops2).1 = .unreadable ∨ ((s.after f ops2).1 = f ∧ ∀ k v, (KOp.put k v, Event.returned) ∉ s.trace f ops2) := by
    obtain ⟨⟨a, hz⟩, -⟩ := h0
    clear hcfg hf1
    induction ops2 generalizing f s a with
    | nil => exact .inr ⟨rfl, by simp [KSink.trace]⟩
    | cons op ops2 ih =>
      simp only [KSink.trace, KSink.after] at hopen hrest ⊢
      have hnext : (∃ a', (s.call f op).1.2.zip = .opened a') ∧ ((s.call f op).1.1 = .unreadable ∨
          ((s.call f op).1.1 = f ∧ ∀ k v, op = .put k v → (s.call f op).2 ≠ .returned)) := by
        cases op with
        | enter => exact absurd rfl (hrest [] _ _)
        | put k v =>
          have hrec : v ≠ .none → (∃ a', (s.record f k v).1.2.zip = .opened a') ∧ ((s.record f k v).1.1 = .unreadable ∨
              ((s.record f k v).1.1 = f ∧ (s.record f k v).2 ≠ .returned)) := by
            intro hv
            unfold KSink.record
            by_cases hk : k ∈ s.keys
            · simp only [hk, if_true]; exact ⟨⟨a, hz⟩, .inr ⟨trivial, by simp⟩⟩
            · simp only [hk, if_false]
              cases s.cfg.filename k with
              | error e => exact ⟨⟨a, hz⟩, .inr ⟨rfl, by simp⟩⟩
              | ok n =>
                cases v with
                | none => exact absurd rfl hv
                | str x => simp [KSink.write, hz]
                | bytes x => simp [KSink.write, hz]
                | other => exact ⟨⟨a, hz⟩, .inr ⟨rfl, by simp⟩⟩
          have hp : v ≠ .none → s.put f k v = s.record f k v := by
            intro hv
            unfold KSink.put
            rw [hz]
            cases v with
            | none => exact absurd rfl hv
            | str x => rfl
            | bytes x => rfl
            | other => rfl
          by_cases hv : v = .none
          · subst hv
            simp only [KSink.call, KSink.put, hz]
            exact ⟨⟨a, rfl⟩, .inr ⟨trivial, by simp⟩⟩
          · simp only [KSink.call, hp hv]
            exact ⟨(hrec hv).1, (hrec hv).2.imp id fun h => ⟨h.1, fun _ _ _ => h.2⟩⟩
        | exit =>
          have hne : (s.exit f).2 ≠ .returned := fun h => hopen (by simp [KSink.call, h])
          simp only [KSink.call]
          unfold KSink.exit at hne ⊢
          rw [hz] at hne ⊢
          cases hk : s.cfg.keysOut with
          | none => simp [hk] at hne
          | some g =>
            simp only [hk] at hne ⊢
            cases hg : (g (.opened a) s.keys).2 with
            | ok u => simp [hg] at hne
            | error e =>
              refine ⟨⟨_, rfl⟩, ?_⟩
              simp only [File.written]
              split
              · exact .inr ⟨rfl, fun k v h => by cases h⟩
              · exact .inl rfl
      have hstep := ih (s.call f op).1.1 (s.call f op).1.2 (fun hm => hopen (by simp [hm]))
        (fun t1' ev' t2' h => hrest ((op, (s.call f op).2) :: t1') ev' t2' (by simp [h])) hnext.1.choose hnext.1.choose_spec
      rcases hstep with h | ⟨h, hp⟩
      · exact .inl h
      · rcases hnext.2 with h' | ⟨h', hr⟩
        · exact .inl (h.trans h')
        · refine .inr ⟨h.trans h', fun k v hm => ?_⟩
          rcases List.mem_cons.1 hm with hm | hm
          · simp only [Prod.mk.injEq] at hm
            exact hr k v hm.1.symm hm.2.symm
          · exact hp k v hm
  rcases key with h | ⟨h, hp⟩
  · exact .inl h
  · rcases h0.2 with h' | ⟨ho, ⟨a, ha⟩, h'⟩
    · exact .inl (h.trans h')
    · exact .inr ⟨ho, ⟨a, by rw [h, h', ha]⟩, hp, ops1, rfl, by rw [hf1, h, h']⟩

/-- Nothing that was put successfully is lost, also if leaving raises (again and again): once the object is thrown away the value is
in the archive at the path. -/
theorem C106_nothing_lost (t1 t2 : List (KOp × Event)) (ev : Event) (ht : sink.trace file ops = t1 ++ (.enter, ev) :: t2)
    (hopen : (KOp.exit, Event.returned) ∉ t2) (k : Str) (v : Value) (hput : (KOp.put k v, Event.returned) ∈ t2) (hk : allowed k) :
    ∃ a C b, (sink.after file ops).2.dropped (sink.after file ops).1 = .archive a ∧ Gives cfg.filename allowed a C ∧
      bytesOf v = some b ∧ C k = some b := by
  have hIs : IsOpen (sink.trace file ops) := ⟨t1, ev, t2, ht, hopen⟩
  obtain ⟨a, C, h1, h2, h3⟩ := (C106_values hN hA hfile hsink ops huse hone).2.2 hIs
  obtain ⟨u, w, rfl⟩ := List.append_of_mem hput
  -- the value is something that can be written
  have hb : ∃ b, bytesOf v = some b := by
    have hp := C106_put hN hA hfile hsink ops huse hone (t1 ++ (.enter, ev) :: u) w k v .returned (by rw [ht]; simp)
    by_contra hno
    have hbn : bytesOf v = none := by
      cases hv : bytesOf v with
      | none => rfl
      | some b => exact absurd ⟨b, hv⟩ hno
    have hO : Opened (t1 ++ (.enter, ev) :: u) := ⟨ev, by simp⟩
    by_cases hv : v = .none ∨ Refused (t1 ++ (.enter, ev) :: u) k
    · exact absurd (hp.2.1 hO hv) (by simp)
    · rw [not_or] at hv
      obtain ⟨n, hn, -⟩ := hN.names k hk
      exact absurd (((hp.2.2 hO hv.1 hv.2).2 n hn).1 (.inl hbn)) (by simp)
  obtain ⟨b, hb⟩ := hb
  refine ⟨a, C, b, h1, h3, hb, ?_⟩
  -- nothing replaces it
  have hw : ∀ x ∈ w, (∀ e, x ≠ (.enter, e)) ∧ x ≠ (.exit, .returned) ∧ ∀ v', x ≠ (.put k v', .returned) := by
    intro x hx
    obtain ⟨w1, w2, rfl⟩ := List.append_of_mem hx
    refine ⟨?_, fun h => hopen (by simp [h]), ?_⟩
    · rintro e rfl
      refine hone (t1 ++ (.enter, ev) :: (u ++ (.put k v, .returned) :: w1)) e w2 (by rw [ht]; simp) ⟨t1, ev, _, rfl, fun hm => hopen ?_⟩
      simp only [List.mem_append, List.mem_cons] at hm ⊢
      tauto
    · rintro v' rfl
      have hp := C106_put hN hA hfile hsink ops huse hone (t1 ++ (.enter, ev) :: (u ++ (.put k v, .returned) :: w1)) w2 k v' .returned
        (by rw [ht]; simp)
      have hv : v ≠ .none := by rintro rfl; simp [bytesOf] at hb
      exact absurd (hp.2.1 ⟨ev, by simp⟩ (.inr (.inr ⟨t1 ++ (.enter, ev) :: u, v, .returned, w1, by simp, hv, ⟨ev, by simp⟩⟩))) (by simp)
  have hfold : ∀ (w : List (KOp × Event)) (W : Values) (C0 : Str → Option Bytes), W.current = some C0 → C0 k = some b →
      (∀ x ∈ w, (∀ e, x ≠ (.enter, e)) ∧ x ≠ (.exit, .returned) ∧ ∀ v', x ≠ (.put k v', .returned)) →
      ∃ C', (w.foldl (Values.step cfg.overwrite) W).current = some C' ∧ C' k = some b := by
    intro w
    induction w with
    | nil => intro W C0 h h' _; exact ⟨C0, h, h'⟩
    | cons x w ih =>
      intro W C0 h h' hx
      rw [List.foldl_cons]
      have hx0 := hx x (by simp)
      have hw := fun y hy => hx y (List.mem_cons_of_mem _ hy)
      obtain ⟨op, e⟩ := x
      cases op with
      | enter => exact absurd rfl (hx0.1 e)
      | exit =>
        cases e with
        | returned => exact absurd rfl hx0.2.1
        | entered ks => exact ih _ C0 h h' hw
        | raised e => exact ih _ C0 h h' hw
      | put j v' =>
        cases e with
        | returned =>
          have hj : k ≠ j := by rintro rfl; exact hx0.2.2 v' rfl
          refine ih _ (fun i => if i = j then bytesOf v' else C0 i) ?_ ?_ hw
          · simp [Values.step, h]
          · simp [hj, h']
        | entered ks => exact ih _ C0 h h' hw
        | raised e => exact ih _ C0 h h' hw
  have hpre : IsOpen (sink.trace file ops) := hIs
  -- the archive when the value has just been put
  have hnow : ∃ C0, (valuesAfter cfg.overwrite M (t1 ++ (.enter, ev) :: u)).current = some C0 := by
    obtain ⟨ops1, ops2, rfl, h4, -, -⟩ := trace_split (t1 := t1 ++ (.enter, ev) :: u) (t2 := w) (op := .put k v) (ev := .returned)
      (by rw [ht]; simp)
    have hI := invariant hN hA hfile hsink ops1 (fun k v h => huse k v (by simp [h])) (oneAtATime_append (by rw [trace_append] at hone; exact hone))
    rw [h4] at hI
    obtain ⟨a', ha'⟩ := hI.isOpen_iff.2 ⟨t1, ev, u, rfl, fun hm => hopen (by simp [hm])⟩
    obtain ⟨-, C0, h5, -⟩ := hI.opened a' ha'
    exact ⟨C0, h5⟩
  obtain ⟨C0, hC0⟩ := hnow
  obtain ⟨C', hC', hk'⟩ := hfold w ((valuesAfter cfg.overwrite M (t1 ++ (.enter, ev) :: u)).step cfg.overwrite (.put k v, .returned))
    (fun j => if j = k then bytesOf v else C0 j) (by simp [Values.step, hC0]) (by simp [hb]) hw
  have : valuesAfter cfg.overwrite M (sink.trace file ops) =
      w.foldl (Values.step cfg.overwrite) ((valuesAfter cfg.overwrite M (t1 ++ (.enter, ev) :: u)).step cfg.overwrite (.put k v, .returned)) := by
    rw [ht]
    simp [valuesAfter, List.foldl_append]
  rw [this, hC'] at h2
  rw [← Option.some.inj h2]
  exact hk'

end

/-- If the function that reads keys raises without writing, an appending sink leaves the store as it was. -/
theorem C106_failed_enter (fn : Str → Res Str) (g : Archive → List (Str × Bytes) × Res (Option (List Str)))
    (out : Handle → List Str → List (Str × Bytes) × Res Unit) (a : Archive) (e : Exc) (hg : g a = ([], .error e)) :
    ∃ sink, KSink.create ⟨fn, false, some g, some out⟩ = .ok sink ∧ sink.trace (.archive a) [.enter] = [(.enter, .raised e)] ∧
      (sink.after (.archive a) [.enter]).1 = .archive a ∧
      (sink.after (.archive a) [.enter]).2.dropped (sink.after (.archive a) [.enter]).1 = .archive a := by
  refine ⟨_, (C106_create _).1 (.inr (by simp)), ?_, ?_, ?_⟩ <;>
    simp [KSink.trace, KSink.after, KSink.call, KSink.enter, KSink.dropped, openFor, hg, File.written, writeAll]

/-- But an overwriting sink has emptied the store by then, although the block never ran. -/
theorem C106_failed_enter_counterexample (fn : Str → Res Str) (g : Archive → List (Str × Bytes) × Res (Option (List Str)))
    (out : Handle → List Str → List (Str × Bytes) × Res Unit) (f : File) (e : Exc) (hg : g [] = ([], .error e)) :
    ∃ sink, KSink.create ⟨fn, true, some g, some out⟩ = .ok sink ∧ sink.trace f [.enter] = [(.enter, .raised e)] ∧
      (sink.after f [.enter]).1 = .unreadable ∧ (sink.after f [.enter]).2.dropped (sink.after f [.enter]).1 = .archive [] := by
  refine ⟨_, (C106_create _).1 (.inr (by simp)), ?_, ?_, ?_⟩ <;>
    simp [KSink.trace, KSink.after, KSink.call, KSink.enter, KSink.dropped, openFor, hg, File.written, writeAll]

/-! ## Concrete cases -/

/-- The default key functions, `key_value.py:42-60`.  (Of `None` and of a closed archive `writestr` raises.) -/
def defaults (order : List Str → List Str) (fn : Str → Res Str) (overwrite : Bool) : Config where
  filename := fn
  overwrite := overwrite
  keysIn := some fun a => ([], readKeysFile a)
  keysOut := some fun
    | .none, _ => ([], .error .attributeError)
    | .closed, _ => ([], .error .valueError)
    | .opened _, ks => ([(keysEntry, encodeUtf8 (joinWith '\n' (order ks)))], .ok ())

/-- The default key functions meet the conditions for the usual names. -/
theorem C106_defaults (order : List Str → List Str) {fn : Str → Res Str} {allowed : Str → Prop} (hN : Naming fn allowed) (overwrite : Bool) :
    Names (defaults order fn overwrite).filename allowed ∧ KeepApart (defaults order fn overwrite) allowed ∧
      ∃ sink, KSink.create (defaults order fn overwrite) = .ok sink := by
  refine ⟨⟨fun k hk => ?_, hN.injective⟩, ⟨fun g hg a e he => ?_, fun g hg h ks e he k n hk hn => ?_⟩, _, (C106_create _).1 (.inr (by simp [defaults]))⟩
  · obtain ⟨n, h1, -, h2⟩ := hN.names k hk
    exact ⟨n, h1, h2⟩
  · simp only [defaults, Option.some.injEq] at hg; subst hg; simp at he
  · simp only [defaults, Option.some.injEq] at hg
    subst hg
    cases h with
    | none => simp at he
    | closed => simp at he
    | opened a =>
      simp only [List.mem_singleton] at he
      subst he
      obtain ⟨n', h1, h2, -⟩ := hN.names k hk
      simp only [defaults] at hn
      rw [hn] at h1
      rw [Except.ok.inj h1]
      exact fun h => h2 (h.symm.trans (show entryName keysEntry = _ from by decide))

namespace Example

/-- A function to write keys that writes something and then raises, the first time it is called with only one key. -/
def moody : Handle → List Str → List (Str × Bytes) × Res Unit
  | .opened _, [_] => ([("__partial".toList, ⟨#[1]⟩)], .error .runtimeError)
  | .opened _, _ => ([], .ok ())
  | _, _ => ([], .error .attributeError)

/-- Keys are the names of the entries. -/
def cfg : Config := ⟨fun k => .ok ("k/".toList ++ k), false, some fun a => ([], .ok (some (a.map fun e => e.1.drop 2))), some moody⟩

def Plain (k : Str) : Prop := '\x00' ∉ k

theorem plain_append {k : Str} (h : Plain k) : '\x00' ∉ "k/".toList ++ k := by
  simp only [List.mem_append, not_or]
  exact ⟨by decide, h⟩

example : Names cfg.filename Plain :=
  ⟨fun k hk => ⟨_, rfl, plain_append hk⟩, fun k k' n _ _ h h' => by
    simp only [cfg, Except.ok.injEq] at h h'
    exact List.append_cancel_left (h.trans h'.symm)⟩

example : KeepApart cfg Plain := by
  refine ⟨fun g hg a e he => ?_, fun g hg h ks e he k n _ hn => ?_⟩
  · simp only [cfg, Option.some.injEq] at hg; subst hg; simp at he
  · simp only [cfg, Option.some.injEq] at hg
    subst hg
    simp only [cfg, Except.ok.injEq] at hn
    have hx : e.1 = "__partial".toList := by
      unfold moody at he
      split at he
      · simp only [List.mem_singleton] at he; rw [he]
      · simp at he
      · simp at he
    rw [hx, ← hn]
    intro hc
    have h2 : some '_' = some 'k' := (show (entryName "__partial".toList).head? = some '_' from by decide).symm.trans (congrArg List.head? hc)
    exact absurd h2 (by decide)

def sink : KSink := ⟨cfg, .none, []⟩

def old : File := .archive []

/-- Leaving raises once, the block goes on, leaving succeeds the second time; then a put is too late. -/
def calls : List KOp := [.put "a".toList (.str "A".toList), .enter, .put "a".toList (.str "A".toList), .exit, .put "a".toList (.str "X".toList),
  .put "b".toList (.bytes ⟨#[2]⟩), .put "c".toList .other, .exit, .put "d".toList (.str "D".toList)]

example : KSink.create cfg = .ok sink := rfl

example : (sink.trace old calls).map (·.2) =
    [.raised .assertionError, .entered [], .returned, .raised .runtimeError, .raised .valueError, .returned, .raised .valueError, .returned,
      .raised .valueError] := by decide +kernel

example : (match (sink.after old calls).1 with
    | .archive a => a == [("k/a".toList, encodeUtf8 "A".toList), ("__partial".toList, ⟨#[1]⟩), ("k/b".toList, ⟨#[2]⟩)]
    | _ => false) = true := by decide +kernel

/-- Thrown away after the first, failed, leaving. -/
example : (match (sink.after old (calls.take 4)).2.dropped (sink.after old (calls.take 4)).1 with
    | .archive a => a == [("k/a".toList, encodeUtf8 "A".toList), ("__partial".toList, ⟨#[1]⟩)]
    | _ => false) = true := by decide +kernel

end Example
end Keyed
end Zip
end Vista
