import Verif.Spec.ZipImage
import Verif.Proofs.ZipImage

/-!
# Property C96: what a killed zip sink leaves
-/
set_option linter.unusedSectionVars false
set_option linter.unusedSimpArgs false
namespace Vista
namespace ZipImage
open Zip

/-! ## The entries a session writes -/

theorem put_extends {s : Sink} {a : Archive} (h : s.zip = .opened a) (k : Str) (v : Value) :
    ∃ E, (s.put k v).1.zip = .opened (a ++ E) ∧ (s.put k v).1.cfg = s.cfg := by
  simp only [Sink.put, h]
  split
  · exact ⟨[], by simp [h], rfl⟩
  · split
    · exact ⟨[], by simp [h], rfl⟩
    · split
      · exact ⟨[], by simp [h], rfl⟩
      · split
        · rename_i n _ _ t _
          exact ⟨[(entryName n, encodeUtf8 t)], by simp [Sink.write, h, writestr], by simp [Sink.write, h]⟩
        · rename_i n _ _ b _
          exact ⟨[(entryName n, b)], by simp [Sink.write, h, writestr], by simp [Sink.write, h]⟩
        · exact ⟨[], by simp [h], rfl⟩

theorem puts_extends : ∀ (cs : List (Str × Value)) (s : Sink) (a : Archive), s.zip = .opened a →
    ∃ E, (s.puts cs).1.zip = .opened (a ++ E) ∧ (s.puts cs).1.cfg = s.cfg := by
  intro cs
  induction cs with
  | nil => intro s a h; exact ⟨[], by simpa [Sink.puts] using h, rfl⟩
  | cons c cs ih =>
    intro s a h
    obtain ⟨k, v⟩ := c
    obtain ⟨E, h1, h2⟩ := put_extends h k v
    obtain ⟨F, h3, h4⟩ := ih _ _ h1
    exact ⟨E ++ F, by rw [Sink.puts, h3, List.append_assoc], by rw [Sink.puts, h4, h2]⟩

/-- A session of a sink with the default key functions writes at least the entry with the keys. -/
theorem session_extends {order : List Str → List Str} {fn : Str → Res Str} {overwrite : Bool} {disk : Disk} {sink : Sink}
    (hc : Sink.create (defaultConfig order fn overwrite) = .ok sink) {cs : List (Str × Value)} {a : Archive} {s : Sink} {outs : List (Res Unit)}
    (h : session disk sink cs = .ok (some a, s, outs)) :
    ∃ E, E ≠ [] ∧ a = (if overwrite then [] else disk.getD []) ++ E := by
  have hsink : sink = ⟨defaultConfig order fn overwrite, .none, []⟩ := by
    simp [Sink.create, defaultConfig, checkArg, bind, Except.bind] at hc
    rw [← hc]; rfl
  subst hsink
  simp only [session, bind, Except.bind] at h
  split at h
  · cases h
  rename_i s0 hs0
  have h0 : s0.zip = .opened (if overwrite then [] else disk.getD []) ∧ s0.cfg = defaultConfig order fn overwrite := by
    simp only [Sink.enter, defaultConfig, bind, Except.bind] at hs0
    split at hs0
    · cases hs0
    · split at hs0 <;> (cases hs0; exact ⟨rfl, rfl⟩)
  obtain ⟨E, e1, e2⟩ := puts_extends cs s0 _ h0.1
  rw [h0.2] at e2
  have hx : (s0.puts cs).1.exit disk =
      ((some (writestr ((if overwrite then [] else disk.getD []) ++ E) keysEntry (encodeUtf8 (joinWith '\n' (order (s0.puts cs).1.keys)))),
        { (s0.puts cs).1 with zip := .closed }), .ok ()) := by
    simp only [Sink.exit, e1, e2, defaultConfig, writeKeysFile]
  rw [hx] at h
  simp only [Except.ok.injEq, Prod.mk.injEq, Option.some.injEq] at h
  refine ⟨E ++ [(entryName keysEntry, encodeUtf8 (joinWith '\n' (order (s0.puts cs).1.keys)))], by simp, ?_⟩
  rw [← h.1, writestr, List.append_assoc]

theorem written_ne {order : List Str → List Str} {fn : Str → Res Str} {overwrite : Bool} {file : Option Image} {sink : Sink}
    (hc : Sink.create (defaultConfig order fn overwrite) = .ok sink) {cs : List (Str × Value)} {E : List (Str × Bytes)} {outs : List (Res Unit)}
    (h : Written overwrite file sink cs E outs) : E ≠ [] := by
  obtain ⟨s, hs⟩ := h
  obtain ⟨F, h1, h2⟩ := session_extends hc hs
  rw [List.append_cancel_left h2]
  exact h1

/-! ## Histories -/

section
variable {V : Type} {cd : Codec V} {fn : Str → Res Str} {allowed : Str → Prop} {order : List Str → List Str}

/-- What is at the path and what it holds. -/
def FileHolds (cd : Codec V) (fn : Str → Res Str) (allowed : Str → Prop) (file : Option Image) (m : Option (Str → Option V)) : Prop :=
  SoundFile file ∧ match m with
    | none => archiveAt file = none
    | some M => ∃ a, archiveAt file = some a ∧ Holds cd fn allowed a M

theorem FileHolds.onDisk {file : Option Image} {m : Option (Str → Option V)} (h : FileHolds cd fn allowed file m) :
    OnDisk cd fn allowed (archiveAt file) (m.getD fun _ => none) := by
  cases m with
  | none => exact .inr ⟨h.2, rfl⟩
  | some M => exact .inl h.2

theorem key_condition {disk : Disk} {M : Str → Option V} (hempty : ¬ allowed []) (h : OnDisk cd fn allowed disk M) (x : Session V)
    (hall : ∀ e ∈ x.puts, allowed e.1) : ¬ ∀ k, (afterSession M x.overwrite x.puts k).isSome = true ↔ k = [] := by
  intro hc
  have h0 := (hc []).2 rfl
  simp only [afterSession] at h0
  rw [Option.isSome_or] at h0
  rcases Bool.or_eq_true _ _ ▸ h0 with h0 | h0
  · split at h0
    · simp at h0
    · rcases h with ⟨a, -, hh⟩ | ⟨-, rfl⟩
      · exact hempty (hh.dom [] h0)
      · simp at h0
  · obtain ⟨v, hv⟩ := Option.isSome_iff_exists.1 h0
    simp only [firstPut, Option.map_eq_some_iff] at hv
    obtain ⟨e, he, -⟩ := hv
    have h1 := List.mem_of_find?_eq_some he
    have h2 := List.find?_some he
    simp only [decide_eq_true_eq] at h2
    exact hempty (h2 ▸ hall e h1)

/-- What the model of a session says about its entries. -/
theorem session_entries (hN : Naming fn allowed) (horder : ∀ l, (order l).Perm l) (hempty : ¬ allowed []) {file : Option Image}
    {m : Option (Str → Option V)} (hf : FileHolds cd fn allowed file m) (x : Session V) (hall : ∀ e ∈ x.puts, allowed e.1) :
    ∃ sink E outs, Sink.create (defaultConfig order fn x.overwrite) = .ok sink ∧ Written x.overwrite file sink (calls cd.value x) E outs ∧
      E ≠ [] ∧ Holds cd fn allowed ((if x.overwrite then [] else (archiveAt file).getD []) ++ E)
        (afterSession (m.getD fun _ => none) x.overwrite x.puts) ∧
      Outcomes (fun k => if x.overwrite then none else (m.getD fun _ => none) k) x.puts outs := by
  obtain ⟨sink, a, s, outs, h1, h2, h3, h4⟩ := session_spec (cd := cd) hN horder (archiveAt file) (m.getD fun _ => none) x (.inr hf.onDisk) hall
    (key_condition hempty hf.onDisk x hall)
  obtain ⟨E, e1, e2⟩ := session_extends h1 h2
  exact ⟨sink, E, outs, h1, ⟨s, by rw [← e2]; exact h2⟩, e1, by rw [← e2]; exact h3, h4⟩

theorem done_holds (hN : Naming fn allowed) (horder : ∀ l, (order l).Perm l) (hempty : ¬ allowed []) {file file' : Option Image}
    {m : Option (Str → Option V)} (hf : FileHolds cd fn allowed file m) (x : Session V) (hall : ∀ e ∈ x.puts, allowed e.1)
    {sink : Sink} (hc : Sink.create (defaultConfig order fn x.overwrite) = .ok sink) {outs : List (Res Unit)}
    (h : Done x.overwrite file sink (calls cd.value x) outs file') :
    FileHolds cd fn allowed file' (some (afterSession (m.getD fun _ => none) x.overwrite x.puts)) ∧
      Outcomes (fun k => if x.overwrite then none else (m.getD fun _ => none) k) x.puts outs := by
  obtain ⟨sink', E, outs', h1, h2, h3, h4, h5⟩ := session_entries (cd := cd) hN horder hempty hf x hall
  rw [hc, Except.ok.injEq] at h1
  subst h1
  obtain ⟨F, img, w, c, rfl⟩ := h
  obtain ⟨s, hs⟩ := h2
  obtain ⟨t, ht⟩ := w
  rw [hs] at ht
  simp only [Except.ok.injEq, Prod.mk.injEq, Option.some.injEq, List.append_cancel_left_eq] at ht
  obtain ⟨rfl, -, rfl⟩ := ht
  obtain ⟨c1, c2⟩ := completes_file hf.1 c
  refine ⟨⟨fun i hi => by cases hi; exact c2, _, c1, h4⟩, h5⟩

theorem killed_holds (hN : Naming fn allowed) (horder : ∀ l, (order l).Perm l) (hempty : ¬ allowed []) {file file' : Option Image}
    {m : Option (Str → Option V)} (hf : FileHolds cd fn allowed file m) (x : Session V) (hall : ∀ e ∈ x.puts, allowed e.1)
    {sink : Sink} (hc : Sink.create (defaultConfig order fn x.overwrite) = .ok sink) (h : Killed x.overwrite file sink (calls cd.value x) file') :
    FileHolds cd fn allowed file' m ∨ FileHolds cd fn allowed file' none ∨
      FileHolds cd fn allowed file' (some (afterSession (m.getD fun _ => none) x.overwrite x.puts)) := by
  rcases h with rfl | ⟨F, outs, img, w, c, rfl⟩
  · exact .inl hf
  obtain ⟨sink', E, outs', h1, h2, h3, h4, h5⟩ := session_entries (cd := cd) hN horder hempty hf x hall
  rw [hc, Except.ok.injEq] at h1
  subst h1
  obtain ⟨s, hs⟩ := h2
  obtain ⟨t, ht⟩ := w
  rw [hs] at ht
  simp only [Except.ok.injEq, Prod.mk.injEq, Option.some.injEq, List.append_cancel_left_eq] at ht
  obtain ⟨rfl, -, rfl⟩ := ht
  rcases images_file hf.1 h3 c with h | h | ⟨c1, c2⟩
  · rw [h]; exact .inl hf
  · exact .inr (.inl ⟨fun i hi => by cases hi; exact sound_of_unreadable h, contents_none h⟩)
  · exact .inr (.inr ⟨fun i hi => by cases hi; exact c2, _, c1, h4⟩)

theorem runs_holds (hN : Naming fn allowed) (horder : ∀ l, (order l).Perm l) (hempty : ¬ allowed []) {h : List (Event V)} {file : Option Image}
    (hr : Runs order fn cd.value h file) (hall : ∀ e ∈ h, ∀ p ∈ e.session.puts, allowed p.1) :
    ∃ m, CanHold h m ∧ FileHolds cd fn allowed file m := by
  induction hr with
  | start => exact ⟨none, .start, ⟨(fun i hi => by cases hi), rfl⟩⟩
  | done x _ hc hd ih =>
    obtain ⟨m, h1, h2⟩ := ih fun e he => hall e (by simp [he])
    exact ⟨_, .done x h1, (done_holds hN horder hempty h2 x (hall (.done x) (by simp)) hc hd).1⟩
  | killed x _ hc hk ih =>
    obtain ⟨m, h1, h2⟩ := ih fun e he => hall e (by simp [he])
    rcases killed_holds hN horder hempty h2 x (hall (.killed x) (by simp)) hc hk with h | h | h
    · exact ⟨_, .unchanged x h1, h⟩
    · exact ⟨_, .unreadable x h1, h⟩
    · exact ⟨_, .finished x h1, h⟩

theorem enter_of_holds (hN : Naming fn allowed) {file : Option Image} {M : Str → Option V} (h : FileHolds cd fn allowed file (some M)) :
    ∃ src, enterSource file (Source.create ⟨fn, some readKeysFile, cd.process⟩) = .ok src ∧ Serves src.asSource allowed M := by
  obtain ⟨-, a, ha, hh⟩ := h
  cases file with
  | none => cases ha
  | some img =>
    simp only [archiveAt, Option.bind_some] at ha
    obtain ⟨src, h1, h2⟩ := serves_of_holds hN hh
    exact ⟨src, by simp only [enterSource, ha]; exact h1, h2⟩

theorem enter_of_unreadable {file : Option Image} (h : FileHolds cd fn allowed file none) (W : Type) (src : Source W) :
    enterSource file src = .error .ioError ∨ enterSource file src = .error .other := by
  obtain ⟨-, h⟩ := h
  cases file with
  | none => exact .inl rfl
  | some img =>
    simp only [archiveAt, Option.bind_some] at h
    exact .inr (by simp only [enterSource, h])

/-! ## C96 -/

/-- After any history of sessions on a path, some completed and some killed at any point: what is there is what the history allows
(`CanHold`); if that is nothing that can be read, entering any source raises; otherwise a source serves exactly that.  Any session
can be run next, and then the calls of `put` that raise are exactly those with a key that is there (`ValueError`). -/
theorem killed_history (cd : Codec V) (hN : Naming fn allowed) (horder : ∀ l, (order l).Perm l) (hempty : ¬ allowed []) (h : List (Event V))
    (file : Option Image) (hr : Runs order fn cd.value h file) (hall : ∀ e ∈ h, ∀ p ∈ e.session.puts, allowed p.1) :
    ∃ m, CanHold h m ∧
      (m = none → ∀ (W : Type) (src : Source W), enterSource file src = .error .ioError ∨ enterSource file src = .error .other) ∧
      (∀ M, m = some M → ∃ src, enterSource file (Source.create ⟨fn, some readKeysFile, cd.process⟩) = .ok src ∧ Serves src.asSource allowed M) ∧
      ∀ x : Session V, (∀ e ∈ x.puts, allowed e.1) → ∃ sink outs file', Sink.create (defaultConfig order fn x.overwrite) = .ok sink ∧
        Done x.overwrite file sink (calls cd.value x) outs file' ∧
        Outcomes (fun k => if x.overwrite then none else (m.getD fun _ => none) k) x.puts outs := by
  obtain ⟨m, h1, h2⟩ := runs_holds hN horder hempty hr hall
  refine ⟨m, h1, ?_, ?_, ?_⟩
  · rintro rfl W src
    exact enter_of_unreadable h2 W src
  · rintro M rfl
    exact enter_of_holds hN h2
  · intro x hx
    obtain ⟨sink, E, outs, e1, e2, e3, e4, e5⟩ := session_entries (cd := cd) hN horder hempty h2 x hx
    obtain ⟨img, c⟩ := completes_exists (actions (openArchive x.overwrite file).2.1 (openArchive x.overwrite file).2.2 E) (openArchive x.overwrite file).1
    exact ⟨sink, outs, some img, e1, ⟨E, img, e2, c, rfl⟩, e5⟩

theorem canHold_values {h : List (Event V)} {m : Option (Str → Option V)} (hc : CanHold h m) :
    ∀ M, m = some M → ∀ k v, M k = some v → ∃ e ∈ h, (k, v) ∈ e.session.puts := by
  have hstep : ∀ (m : Option (Str → Option V)) (x : Session V) (h : List (Event V)) (ev : Event V), ev.session = x →
      (∀ M, m = some M → ∀ k v, M k = some v → ∃ e ∈ h, (k, v) ∈ e.session.puts) →
      ∀ M, some (afterSession (m.getD fun _ => none) x.overwrite x.puts) = some M → ∀ k v, M k = some v → ∃ e ∈ h ++ [ev], (k, v) ∈ e.session.puts := by
    rintro m x h ev rfl ih M hM k v hv
    cases hM
    simp only [afterSession] at hv
    rcases hf : firstPut ev.session.puts k with _ | w
    · rw [hf, Option.or_none] at hv
      split at hv
      · cases hv
      · cases m with
        | none => cases hv
        | some M =>
          obtain ⟨e, he, hk⟩ := ih M rfl k v hv
          exact ⟨e, by simp [he], hk⟩
    · by_cases hc : (if ev.session.overwrite then none else (m.getD fun _ => none) k) = none
      · rw [hc, hf] at hv
        simp only [Option.none_or, Option.some.injEq] at hv
        subst hv
        simp only [firstPut, Option.map_eq_some_iff] at hf
        obtain ⟨⟨k', v'⟩, h1, h2⟩ := hf
        have h3 := List.find?_some h1
        simp only [decide_eq_true_eq] at h3
        exact ⟨ev, by simp, by rw [← h2, ← h3]; exact List.mem_of_find?_eq_some h1⟩
      · obtain ⟨u, hu⟩ := Option.ne_none_iff_exists'.1 hc
        rw [hu, Option.some_or, Option.some.injEq] at hv
        subst hv
        split at hu
        · cases hu
        · cases m with
          | none => cases hu
          | some M =>
            obtain ⟨e, he, hk⟩ := ih M rfl k u hu
            exact ⟨e, by simp [he], hk⟩
  induction hc with
  | start => intro M hM; cases hM
  | done x _ ih => exact hstep _ x _ (.done x) rfl ih
  | unchanged x _ ih =>
    intro M hM k v hv
    obtain ⟨e, he, hk⟩ := ih M hM k v hv
    exact ⟨e, by simp [he], hk⟩
  | unreadable x _ ih => intro M hM; cases hM
  | finished x _ ih => exact hstep _ x _ (.killed x) rfl ih

/-- Character stores. -/
theorem C96_char (hN : Naming fn allowed) (horder : ∀ l, (order l).Perm l) (hempty : ¬ allowed []) (h : List (Event Str))
    (file : Option Image) (hr : Runs order fn .str h file) (hall : ∀ e ∈ h, ∀ p ∈ e.session.puts, allowed p.1) :
    ∃ m, CanHold h m ∧
      (m = none → ∀ (W : Type) (src : Source W), enterSource file src = .error .ioError ∨ enterSource file src = .error .other) ∧
      (∀ M, m = some M → ∃ src, enterSource file (Source.create (charConfig fn)) = .ok src ∧ Serves src.asSource allowed M) ∧
      ∀ x : Session Str, (∀ e ∈ x.puts, allowed e.1) → ∃ sink outs file', Sink.create (defaultConfig order fn x.overwrite) = .ok sink ∧
        Done x.overwrite file sink (calls .str x) outs file' ∧
        Outcomes (fun k => if x.overwrite then none else (m.getD fun _ => none) k) x.puts outs :=
  killed_history charCodec hN horder hempty h file hr hall

/-- Byte stores. -/
theorem C96_bytes (hN : Naming fn allowed) (horder : ∀ l, (order l).Perm l) (hempty : ¬ allowed []) (h : List (Event Bytes))
    (file : Option Image) (hr : Runs order fn .bytes h file) (hall : ∀ e ∈ h, ∀ p ∈ e.session.puts, allowed p.1) :
    ∃ m, CanHold h m ∧
      (m = none → ∀ (W : Type) (src : Source W), enterSource file src = .error .ioError ∨ enterSource file src = .error .other) ∧
      (∀ M, m = some M → ∃ src, enterSource file (Source.create (bytesConfig fn)) = .ok src ∧ Serves src.asSource allowed M) ∧
      ∀ x : Session Bytes, (∀ e ∈ x.puts, allowed e.1) → ∃ sink outs file', Sink.create (defaultConfig order fn x.overwrite) = .ok sink ∧
        Done x.overwrite file sink (calls .bytes x) outs file' ∧
        Outcomes (fun k => if x.overwrite then none else (m.getD fun _ => none) k) x.puts outs :=
  killed_history bytesCodec hN horder hempty h file hr hall

/-- Whatever was killed, a source never gives a value that was not put for that key. -/
theorem C96_values (cd : Codec V) (hN : Naming fn allowed) (horder : ∀ l, (order l).Perm l) (hempty : ¬ allowed []) (h : List (Event V))
    (file : Option Image) (hr : Runs order fn cd.value h file) (hall : ∀ e ∈ h, ∀ p ∈ e.session.puts, allowed p.1)
    (src : Source V) (hs : enterSource file (Source.create ⟨fn, some readKeysFile, cd.process⟩) = .ok src) (k : Str) (hk : allowed k) (v : V)
    (hv : src.asSource.getItem k = .ok v) : ∃ e ∈ h, (k, v) ∈ e.session.puts := by
  obtain ⟨m, h1, h2, h3, -⟩ := killed_history cd hN horder hempty h file hr hall
  cases m with
  | none =>
    have := h2 rfl V (Source.create ⟨fn, some readKeysFile, cd.process⟩)
    rw [hs] at this
    rcases this with h | h <;> cases h
  | some M =>
    obtain ⟨src', e1, e2⟩ := h3 M rfl
    rw [hs, Except.ok.injEq] at e1
    subst e1
    refine canHold_values h1 M rfl k v ?_
    cases hM : M k with
    | none => rw [(e2.absent k hk hM).1] at hv; cases hv
    | some w => rw [(e2.present k w hM).1] at hv; rw [Except.ok.inj hv]

theorem canHold_done {h : List (Event V)} {x : Session V} {m' : Option (Str → Option V)} (hc : CanHold (h ++ [.done x]) m') :
    ∃ m, CanHold h m ∧ m' = some (afterSession (m.getD fun _ => none) x.overwrite x.puts) := by
  generalize hl : h ++ [Event.done x] = l at hc
  cases hc with
  | start => simp at hl
  | done y hy =>
    obtain ⟨rfl, h2⟩ := List.append_inj' hl rfl
    simp only [List.cons.injEq, Event.done.injEq, and_true] at h2
    subst h2
    exact ⟨_, hy, rfl⟩
  | unchanged y hy =>
    obtain ⟨-, h2⟩ := List.append_inj' hl rfl
    simp at h2
  | unreadable y hy =>
    obtain ⟨-, h2⟩ := List.append_inj' hl rfl
    simp at h2
  | finished y hy =>
    obtain ⟨-, h2⟩ := List.append_inj' hl rfl
    simp at h2

/-- Whatever was killed before, an overwriting session that runs to its end leaves exactly what it put. -/
theorem C96_overwrite (cd : Codec V) (hN : Naming fn allowed) (horder : ∀ l, (order l).Perm l) (hempty : ¬ allowed []) (h : List (Event V))
    (puts : List (Str × V)) (file : Option Image) (hr : Runs order fn cd.value (h ++ [.done ⟨true, puts⟩]) file)
    (hall : ∀ e ∈ h ++ [.done ⟨true, puts⟩], ∀ p ∈ e.session.puts, allowed p.1) :
    ∃ src, enterSource file (Source.create ⟨fn, some readKeysFile, cd.process⟩) = .ok src ∧ Serves src.asSource allowed (firstPut puts) := by
  obtain ⟨m', h1, -, h3, -⟩ := killed_history cd hN horder hempty _ file hr hall
  obtain ⟨m, -, rfl⟩ := canHold_done h1
  obtain ⟨src, e1, e2⟩ := h3 _ rfl
  refine ⟨src, e1, ?_⟩
  have : afterSession (m.getD fun _ => none) true puts = firstPut puts := by funext k; simp [afterSession]
  rw [← this]
  exact e2

/-- Counterexample to "sessions accumulate" when one is killed: after any history, a session (appending or not) can be killed so that
what was there is lost, and an appending session after it then succeeds without any sign of that: the store has its keys only. -/
theorem C96_append_counterexample (cd : Codec V) (hN : Naming fn allowed) (horder : ∀ l, (order l).Perm l) (hempty : ¬ allowed [])
    (h : List (Event V)) (file : Option Image) (hr : Runs order fn cd.value h file) (hall : ∀ e ∈ h, ∀ p ∈ e.session.puts, allowed p.1)
    (x y : Session V) (hx : ∀ p ∈ x.puts, allowed p.1) (hy : ∀ p ∈ y.puts, allowed p.1) (hnd : (y.puts.map (·.1)).Nodup) :
    ∃ file1 file2 sink outs, Runs order fn cd.value (h ++ [.killed x]) file1 ∧ Sink.create (defaultConfig order fn y.overwrite) = .ok sink ∧
      Done y.overwrite file1 sink (calls cd.value y) outs file2 ∧ outs = y.puts.map (fun _ => .ok ()) ∧
      ∃ src, enterSource file2 (Source.create ⟨fn, some readKeysFile, cd.process⟩) = .ok src ∧ Serves src.asSource allowed (firstPut y.puts) := by
  obtain ⟨m, h1, h2⟩ := runs_holds hN horder hempty hr hall
  obtain ⟨sink, E, outs, e1, e2, e3, e4, e5⟩ := session_entries (cd := cd) hN horder hempty h2 x hx
  obtain ⟨img, i1, i2⟩ := images_unreadable x.overwrite file h2.1 E e3
  have hf1 : FileHolds cd fn allowed (some img) none := ⟨fun i hi => by cases hi; exact sound_of_unreadable i2, contents_none i2⟩
  obtain ⟨sink2, E2, outs2, j1, j2, j3, j4, j5⟩ := session_entries (cd := cd) hN horder hempty hf1 y hy
  obtain ⟨img2, c⟩ := completes_exists (actions (openArchive y.overwrite (some img)).2.1 (openArchive y.overwrite (some img)).2.2 E2) (openArchive y.overwrite (some img)).1
  have hd : Done y.overwrite (some img) sink2 (calls cd.value y) outs2 (some img2) := ⟨E2, img2, j2, c, rfl⟩
  obtain ⟨k1, k2⟩ := done_holds hN horder hempty hf1 y hy j1 hd
  have hm : afterSession ((none : Option (Str → Option V)).getD fun _ => none) y.overwrite y.puts = firstPut y.puts := by
    funext k; simp [afterSession]
  rw [hm] at k1
  refine ⟨some img, some img2, sink2, outs2, .killed x hr e1 (.inr ⟨E, outs, img, e2, i1, rfl⟩), j1, hd, ?_, enter_of_holds hN k1⟩
  obtain ⟨hl, k2⟩ := k2
  refine List.ext_getElem? fun i => ?_
  by_cases hi : i < y.puts.length
  · have hsplit : y.puts = y.puts.take i ++ (y.puts[i].1, y.puts[i].2) :: y.puts.drop (i + 1) := by
      show y.puts = y.puts.take i ++ y.puts[i] :: y.puts.drop (i + 1)
      rw [← List.drop_eq_getElem_cons hi, List.take_append_drop]
    obtain ⟨-, h5⟩ := k2 _ _ _ _ hsplit
    have hlen : (y.puts.take i).length = i := by simp; omega
    rw [hlen] at h5
    rw [h5, List.getElem?_map, List.getElem?_eq_getElem hi]
    · rfl
    · rintro (hc | hc)
      · simp at hc
      · rw [hsplit, List.map_append, List.map_cons, List.nodup_append] at hnd
        exact hnd.2.2 _ hc _ (by simp) rfl
  · rw [List.getElem?_eq_none (by omega), List.getElem?_eq_none (by simp; omega)]

end

/-! ### Concrete cases -/

namespace Example

/-- The conditions can be met, and there are histories with killed sessions, such as this one. -/
example : ∃ file1 file2, Runs id Zip.Example.ident .str [.done ⟨false, [("a".toList, "1".toList)]⟩] file1 ∧
    Runs id Zip.Example.ident .str ([.done ⟨false, [("a".toList, "1".toList)]⟩] ++ [.killed ⟨false, [("b".toList, "2".toList)]⟩]) file2 := by
  have hp : ∀ (k : Str), k = "a".toList ∨ k = "b".toList ∨ k = "c".toList → Zip.Example.plainKey k := by
    rintro k (rfl | rfl | rfl) <;> (unfold Zip.Example.plainKey; decide)
  have h0 : ¬ Zip.Example.plainKey [] := by unfold Zip.Example.plainKey; simp
  obtain ⟨m, -, -, -, h4⟩ := killed_history charCodec Zip.Example.naming (fun l => List.Perm.refl (id l)) h0 [] none .start (by simp)
  obtain ⟨sink, outs, file1, e1, e2, -⟩ := h4 ⟨false, [("a".toList, "1".toList)]⟩ (by simpa using hp _ (.inl rfl))
  have r1 : Runs id Zip.Example.ident charCodec.value ([] ++ [.done ⟨false, [("a".toList, "1".toList)]⟩]) file1 := .done _ .start e1 e2
  obtain ⟨file2, -, -, -, r2, -⟩ := C96_append_counterexample charCodec Zip.Example.naming (fun l => List.Perm.refl (id l)) h0 _ file1 r1
    (by simpa [Event.session] using hp _ (.inl rfl)) ⟨false, [("b".toList, "2".toList)]⟩ ⟨false, []⟩ (by simpa using hp _ (.inr (.inl rfl))) (by simp) (by simp)
  exact ⟨file1, file2, r1, r2⟩

/-- A file while the third entry is written over the directory of a file with two: it cannot be read. -/
example : directoryOf [.entry "a".toList (encodeUtf8 "1".toList), .entry "__keys".toList (encodeUtf8 "a".toList), .directory [("a".toList, 0), ("__keys".toList, 1)], .endRecord 2] =
      some [("a".toList, 0), ("__keys".toList, 1)] ∧
    directoryOf [.entry "a".toList (encodeUtf8 "1".toList), .entry "__keys".toList (encodeUtf8 "a".toList), .entry "b".toList (encodeUtf8 "2".toList), .endRecord 2] = none ∧
    directoryOf [.entry "a".toList (encodeUtf8 "1".toList), .entry "__keys".toList (encodeUtf8 "a".toList), .entry "b".toList (encodeUtf8 "2".toList), .directory [], .endRecord 2] = none :=
  ⟨rfl, rfl, rfl⟩

end Example
end ZipImage
end Vista
