import Verif.Spec.ZipLife
import Verif.Props.Zip

/-!
# Property C97: the life of a zip sink
-/
set_option linter.unusedSectionVars false
set_option linter.unusedSimpArgs false
namespace Vista
namespace Zip

/-! ## The settings -/

/-- A sink is made exactly if there is no function to read keys without one to write them; otherwise `ValueError`.  It is not entered and
refuses no key. -/
theorem C97_create (cfg : SinkConfig) :
    (cfg.keysIn = none ∨ cfg.keysOut ≠ none → Sink.create cfg = .ok ⟨cfg, .none, []⟩) ∧
    (cfg.keysIn ≠ none ∧ cfg.keysOut = none → Sink.create cfg = .error .valueError) := by
  cases hi : cfg.keysIn <;> cases ho : cfg.keysOut <;> simp [Sink.create, checkArg, hi, ho, bind, Except.bind]

section
variable {V : Type} {cd : Codec V} {allowed : Str → Prop} {order : List Str → List Str}

theorem readKeysFile_lines {a : Archive} {ks : List Str} (h : readKeysFile a = .ok (some ks)) : ks.Nodup ∧ ∀ k ∈ ks, '\n' ∉ k := by
  simp only [readKeysFile] at h
  split at h
  · split at h
    · cases h; simp
    · simp only [bind, Except.bind] at h
      split at h
      · cases h
      · cases h
        exact ⟨distinct_nodup _, fun k hk => splitOn_no_sep '\n' _ k ((distinct_mem _ _).1 hk)⟩
  · cases h
  · cases h

/-- The archive holds the store. -/
structure Arch (cd : Codec V) (fn : Str → Res Str) (allowed : Str → Prop) (a : Archive) (st : Store V) : Prop where
  unlisted : st.listed = none → readKeysFile a = .ok none
  listed : ∀ L, st.listed = some L → L [] = false ∧ ∃ ks, readKeysFile a = .ok (some ks) ∧ ∀ k, k ∈ ks ↔ L k = true
  present : ∀ k n v, allowed k → fn k = .ok n → st.value k = some v → ∃ b, readEntry a n = .ok b ∧ cd.process b = .ok v
  absent : ∀ k n, allowed k → fn k = .ok n → st.value k = none → readEntry a n = .error .keyError

theorem arch_nothing (fn : Str → Res Str) : Arch cd fn allowed [] (Store.nothing : Store V) :=
  ⟨fun _ => rfl, (fun L h => by cases h), (fun k n v _ _ h => by cases h), fun k n _ _ _ => rfl⟩

theorem Arch.reads {fn : Str → Res Str} {a : Archive} {st : Store V} (h : Arch cd fn allowed a st) :
    ∃ r, readKeysFile a = .ok r ∧ (st.listed = none → r = none) ∧
      ∀ L, st.listed = some L → L [] = false ∧ ∃ ks, r = some ks ∧ ks.Nodup ∧ (∀ k ∈ ks, '\n' ∉ k) ∧ ∀ k, k ∈ ks ↔ L k = true := by
  cases hl : st.listed with
  | none => exact ⟨none, h.unlisted hl, fun _ => rfl, fun L hL => by cases hL⟩
  | some L =>
    obtain ⟨h0, ks, h1, h2⟩ := h.listed L hl
    obtain ⟨h3, h4⟩ := readKeysFile_lines h1
    refine ⟨some ks, h1, (fun h => by cases h), fun L' hL' => ?_⟩
    cases hL'
    exact ⟨h0, ks, rfl, h3, h4, h2⟩

theorem Arch.atPath {fn : Str → Res Str} (hN : Naming fn allowed) {a : Archive} {st : Store V} (h : Arch cd fn allowed a st) :
    AtPath cd fn allowed (some a) (some st) := by
  obtain ⟨r, h1, h2, h3⟩ := h.reads
  refine ⟨⟨⟨fn, some readKeysFile, cd.process⟩, some a, r⟩, by simp [Source.enter, Source.create, h1, bind, Except.bind], ?_, ?_, ?_, ?_, ?_⟩
  · intro hl; simp only [Source.asSource, h2 hl]
  · intro L hl
    obtain ⟨-, ks, rfl, h4, -, h5⟩ := h3 L hl
    exact ⟨ks, rfl, h4, h5⟩
  · intro k v hk hv
    obtain ⟨n, hn, -⟩ := hN.names k hk
    obtain ⟨b, hb, hp⟩ := h.present k n v hk hn hv
    simp [Source.asSource, Source.internalGet, hn, hb, hp, bind, Except.bind]
  · intro k hk hv
    obtain ⟨n, hn, -⟩ := hN.names k hk
    simp [Source.asSource, Source.internalGet, hn, h.absent k n hk hn hv, bind, Except.bind]
  · intro k e he
    simp [Source.asSource, Source.internalGet, he, bind, Except.bind]

theorem arch_of_atPath {fn : Str → Res Str} {disk : Disk} {st : Store V} (h : AtPath cd fn allowed disk (some st)) (h0 : NoEmptyKey (some st)) :
    ∃ a, disk = some a ∧ Arch cd fn allowed a st := by
  obtain ⟨src, h1, h2⟩ := h
  cases disk with
  | none => cases h1
  | some a =>
    refine ⟨a, rfl, ?_⟩
    simp only [Source.enter, Source.create, bind, Except.bind] at h1
    split at h1
    · cases h1
    rename_i r hr
    cases h1
    refine ⟨?_, ?_, ?_, ?_⟩
    · intro hl
      have := h2.unlisted hl
      simp only [Source.asSource, Except.ok.injEq] at this
      rw [hr, this]
    · intro L hl
      obtain ⟨ks, h3, -, h4⟩ := h2.listed L hl
      simp only [Source.asSource, Except.ok.injEq] at h3
      exact ⟨h0 st L rfl hl, ks, by rw [hr, h3], h4⟩
    · intro k n v hk hn hv
      have := (h2.present k v hk hv).1
      simp only [Source.asSource, Source.internalGet, hn, bind, Except.bind] at this
      cases hb : readEntry a n with
      | error e => rw [readEntry_error a n e hb] at hb; simp [hb] at this
      | ok b =>
        refine ⟨b, rfl, ?_⟩
        cases hp : cd.process b with
        | error e => simp [hb, hp] at this
        | ok w => simp [hb, hp] at this; rw [this]
    · intro k n hk hn hv
      have := (h2.absent k hk hv).2 Unit ()
      simp only [Source.asSource, Source.internalGet, hn, bind, Except.bind] at this
      cases hb : readEntry a n with
      | error e => rw [readEntry_error a n e hb]
      | ok b =>
        cases hp : cd.process b with
        | error e => simp [hb, hp] at this
        | ok w => simp [hb, hp] at this

/-- The file holds the store, in terms of archives. -/
def DiskIs (cd : Codec V) (fn : Str → Res Str) (allowed : Str → Prop) (disk : Disk) (file : Option (Store V)) : Prop :=
  (disk = none ∧ file = none) ∨ ∃ a st, disk = some a ∧ file = some st ∧ Arch cd fn allowed a st

theorem diskIs_of_atPath {fn : Str → Res Str} {disk : Disk} {file : Option (Store V)} (h : AtPath cd fn allowed disk file) (h0 : NoEmptyKey file) :
    DiskIs cd fn allowed disk file := by
  cases file with
  | none => exact .inl ⟨h.1, rfl⟩
  | some st =>
    obtain ⟨a, h1, h2⟩ := arch_of_atPath h h0
    exact .inr ⟨a, st, h1, rfl, h2⟩

theorem DiskIs.atPath {fn : Str → Res Str} (hN : Naming fn allowed) {disk : Disk} {file : Option (Store V)} (h : DiskIs cd fn allowed disk file) :
    AtPath cd fn allowed disk file := by
  rcases h with ⟨rfl, rfl⟩ | ⟨a, st, rfl, rfl, h⟩
  · exact ⟨rfl, fun _ => rfl⟩
  · exact h.atPath hN

/-- The handle is as the phase says. -/
def HandleIs (cd : Codec V) (fn : Str → Res Str) (allowed : Str → Prop) (z : Handle) (l : Life V) : Prop :=
  (l.phase = .new ∧ z = .none) ∨ (l.phase = .left ∧ z = .closed) ∨ (l.phase = .entered ∧ ∃ a, z = .opened a ∧ Arch cd fn allowed a l.current)

/-- The sink is in the state. -/
structure InLife (cd : Codec V) (allowed : Str → Prop) (order : List Str → List Str) (S : Settings) (disk : Disk) (s : Sink) (l : Life V) : Prop where
  cfg : s.cfg = config order S.filename S.overwrite S.readsKeys S.writesKeys
  disk : DiskIs cd S.filename allowed disk l.file
  handle : HandleIs cd S.filename allowed s.zip l
  nodup : s.keys.Nodup
  keys : ∀ k, k ∈ s.keys ↔ l.refused k = true
  fine : ∀ k ∈ s.keys, '\n' ∉ k ∧ k ≠ []

theorem life_enter {S : Settings} {disk : Disk} {s : Sink} {l : Life V}
    (h : InLife cd allowed order S disk s l) :
    InLife cd allowed order S (happen cd disk s .enter).1.1 (happen cd disk s .enter).1.2 (l.after S .enter).1 ∧
      (happen cd disk s .enter).2 = (l.after S .enter).2 := by
  obtain ⟨a, ha, harch⟩ : ∃ a, (if S.overwrite then [] else disk.getD []) = a ∧ Arch cd S.filename allowed a (l.opened S) := by
    refine ⟨_, rfl, ?_⟩
    unfold Life.opened
    by_cases ho : S.overwrite = true
    · simp only [ho, if_true]; exact arch_nothing _
    · simp only [ho, if_false]
      rcases h.disk with ⟨h1, h2⟩ | ⟨b, st, h1, h2, h3⟩
      · rw [h1, h2]; exact arch_nothing _
      · rw [h1, h2]; exact h3
  obtain ⟨r, r1, r2, r3⟩ := harch.reads
  have hcfg := h.cfg
  cases hr : S.readsKeys with
  | false =>
    have he : s.enter disk = .ok { s with zip := .opened a } := by
      simp only [Sink.enter, hcfg, config, hr, Bool.false_eq_true, if_false, ha]
    simp only [happen, Sink.call, he, Life.after, hr, Bool.false_and, Bool.or_false, and_true]
    exact ⟨h.cfg, h.disk, .inr (.inr ⟨rfl, a, rfl, harch⟩), h.nodup, h.keys, h.fine⟩
  | true =>
    cases hl : (l.opened S).listed with
    | none =>
      have hr0 := r2 hl
      subst hr0
      have he : s.enter disk = .ok { s with zip := .opened a } := by
        simp only [Sink.enter, hcfg, config, hr, if_true, ha, r1, bind, Except.bind]
      simp only [happen, Sink.call, he, Life.after, hl, Bool.and_false, Bool.or_false, and_true]
      exact ⟨h.cfg, h.disk, .inr (.inr ⟨rfl, a, rfl, harch⟩), h.nodup, h.keys, h.fine⟩
    | some L =>
      obtain ⟨h0, ks, rfl, k1, k2, k3⟩ := r3 L hl
      have he : s.enter disk = .ok { s with zip := .opened a, keys := setUpdate s.keys ks } := by
        simp only [Sink.enter, hcfg, config, hr, if_true, ha, r1, bind, Except.bind]
      simp only [happen, Sink.call, he, Life.after, hl, hr, Bool.true_and, and_true]
      refine ⟨h.cfg, h.disk, .inr (.inr ⟨rfl, a, rfl, harch⟩), ?_, ?_, ?_⟩
      · refine List.nodup_append.2 ⟨h.nodup, (distinct_nodup ks).filter _, ?_⟩
        rintro k hk k' hk' rfl
        simp only [List.mem_filter, decide_eq_true_eq] at hk'
        exact hk'.2 hk
      · intro k
        simp only [setUpdate, List.mem_append, List.mem_filter, decide_eq_true_eq, distinct_mem, Bool.or_eq_true]
        rw [← h.keys k, ← k3 k]
        constructor
        · rintro (h | h)
          · exact .inl h
          · exact .inr h.1
        · rintro (h | h)
          · exact .inl h
          · by_cases hk : k ∈ s.keys
            · exact .inl hk
            · exact .inr ⟨h, hk⟩
      · intro k hk
        simp only [setUpdate, List.mem_append, List.mem_filter, decide_eq_true_eq, distinct_mem] at hk
        rcases hk with hk | ⟨hk, -⟩
        · exact h.fine k hk
        · refine ⟨k2 k hk, ?_⟩
          rintro rfl
          rw [k3, h0] at hk
          cases hk

theorem arch_write {fn : Str → Res Str} (hN : Naming fn allowed) {a : Archive} {st : Store V} (h : Arch cd fn allowed a st) {k n : Str} (hk : allowed k)
    (hn : fn k = .ok n) (v : V) :
    Arch cd fn allowed (writestr a n (cd.bytes v)) { st with value := fun j => if j = k then some v else st.value j } := by
  obtain ⟨n', hn', hne, h0⟩ := hN.names k hk
  rw [hn, Except.ok.injEq] at hn'
  subst hn'
  have hr : readKeysFile (writestr a n (cd.bytes v)) = readKeysFile a := by
    simp only [readKeysFile, readEntry_writestr _ _ h0, if_neg (show ¬ n = keysEntry from hne)]
  refine ⟨fun hl => by rw [hr]; exact h.unlisted hl, fun L hl => by rw [hr]; exact h.listed L hl, ?_, ?_⟩
  · intro j m w hj hm hw
    rw [readEntry_writestr _ _ h0]
    by_cases hjk : j = k
    · subst hjk
      rw [hn, Except.ok.injEq] at hm
      subst hm
      simp only [if_true, Option.some.injEq] at hw
      subst hw
      exact ⟨_, by simp, cd.reads v⟩
    · simp only [if_neg hjk] at hw
      rw [if_neg (fun e => hjk (hN.injective j k m hj hk hm (by rw [hn, e])))]
      exact h.present j m w hj hm hw
  · intro j m hj hm hw
    rw [readEntry_writestr _ _ h0]
    by_cases hjk : j = k
    · simp only [hjk, if_true] at hw; cases hw
    · simp only [if_neg hjk] at hw
      rw [if_neg (fun e => hjk (hN.injective j k m hj hk hm (by rw [hn, e])))]
      exact h.absent j m hj hm hw

theorem life_put {S : Settings} (hN : Naming S.filename allowed) {disk : Disk} {s : Sink} {l : Life V} (k : Str) (x : Arg V)
    (hc : Considered cd S.filename allowed l (.put k x)) (h : InLife cd allowed order S disk s l) :
    InLife cd allowed order S (happen cd disk s (.put k x)).1.1 (happen cd disk s (.put k x)).1.2 (l.after S (.put k x)).1 ∧
      (happen cd disk s (.put k x)).2 = (l.after S (.put k x)).2 := by
  obtain ⟨hk0, hk1, hk2⟩ := hc
  have hfn : s.cfg.filename = S.filename := by rw [h.cfg]; rfl
  simp only [happen, Sink.call]
  by_cases hnew : l.phase = .new
  · have hz : s.zip = .none := by
      rcases h.handle with ⟨-, h1⟩ | ⟨h1, -⟩ | ⟨h1, -⟩
      · exact h1
      · rw [hnew] at h1; cases h1
      · rw [hnew] at h1; cases h1
    have h1 : s.put k (x.toValue cd) = (s, .error .assertionError) := (C56_rejected s k _).1 hz
    have h2 : l.after S (.put k x) = (l, .error .assertionError) := by simp only [Life.after, hnew]
    rw [h1, h2]; exact ⟨h, rfl⟩
  have hz : s.zip ≠ .none := by
    rcases h.handle with ⟨h1, -⟩ | ⟨-, h1⟩ | ⟨-, a, h1, -⟩
    · exact absurd h1 hnew
    · rw [h1]; simp
    · rw [h1]; simp
  by_cases hx : x = .none
  · subst hx
    have h1 : s.put k (Arg.toValue cd (.none : Arg V)) = (s, .error .valueError) := (C56_rejected s k _).2 hz (.inl rfl)
    have h2 : l.after S (.put k .none) = (l, .error .valueError) := by
      cases hp : l.phase with
      | new => exact absurd hp hnew
      | entered => simp only [Life.after, hp]
      | left => simp only [Life.after, hp]
    rw [h1, h2]; exact ⟨h, rfl⟩
  by_cases hmem : k ∈ s.keys
  · have h1 : s.put k (x.toValue cd) = (s, .error .valueError) := (C56_rejected s k _).2 hz (.inr hmem)
    have h2 : l.after S (.put k x) = (l, .error .valueError) := by
      have := (h.keys k).1 hmem
      cases hp : l.phase <;> cases x <;> simp_all [Life.after]
    rw [h1, h2]; exact ⟨h, rfl⟩
  have href : l.refused k = false := by
    cases hr : l.refused k
    · rfl
    · exact absurd ((h.keys k).2 hr) hmem
  -- the key is added
  have hv : x.toValue cd ≠ .none := by
    cases x with
    | none => exact absurd rfl hx
    | value v => rcases cd.writes v with h | ⟨s, h, -⟩ <;> simp [Arg.toValue, h]
    | unsuitable => simp [Arg.toValue]
  have hstate : ∀ (z : Handle) (c : Store V), HandleIs cd S.filename allowed z { l with current := c } →
      InLife cd allowed order S disk { s with zip := z, keys := s.keys ++ [k] }
        { l with refused := fun j => l.refused j || decide (j = k), current := c } := by
    intro z c hh
    refine ⟨h.cfg, h.disk, hh, ?_, ?_, ?_⟩
    · refine List.nodup_append.2 ⟨h.nodup, by simp, ?_⟩
      rintro j hj j' hj' rfl
      exact hmem (List.mem_singleton.1 hj' ▸ hj)
    · intro j
      simp only [List.mem_append, List.mem_singleton, Bool.or_eq_true, decide_eq_true_eq, h.keys j]
    · intro j hj
      simp only [List.mem_append, List.mem_singleton] at hj
      rcases hj with hj | rfl
      · exact h.fine j hj
      · exact ⟨hk1, hk0⟩
  cases hf : S.filename k with
  | error e =>
    have h1 : s.put k (x.toValue cd) = ({ s with keys := s.keys ++ [k] }, .error e) := by
      unfold Sink.put
      split
      · rename_i hzz; exact absurd hzz hz
      · split
        · rename_i hvv; exact absurd hvv hv
        · simp only [if_neg hmem, hfn, hf]
    have h2 : l.after S (.put k x) = ({ l with refused := fun j => l.refused j || decide (j = k) }, .error e) := by
      cases hp : l.phase <;> cases x <;> simp_all [Life.after]
    rw [h1, h2]
    exact ⟨hstate s.zip l.current h.handle, rfl⟩
  | ok n =>
    have hal : allowed k := hk2.resolve_right (by rintro ⟨e, he⟩; rw [hf] at he; cases he)
    cases x with
    | none => exact absurd rfl hx
    | unsuitable =>
      have h1 : s.put k (Arg.toValue cd (.unsuitable : Arg V)) = ({ s with keys := s.keys ++ [k] }, .error .valueError) := by
        unfold Sink.put
        split
        · rename_i hzz; exact absurd hzz hz
        · simp only [Arg.toValue, if_neg hmem, hfn, hf]
      have h2 : l.after S (.put k .unsuitable) = ({ l with refused := fun j => l.refused j || decide (j = k) }, .error .valueError) := by
        cases hp : l.phase <;> simp_all [Life.after]
      rw [h1, h2]
      exact ⟨hstate s.zip l.current h.handle, rfl⟩
    | value v =>
      have h1 : s.put k (cd.value v) = Sink.write { s with keys := s.keys ++ [k] } n (cd.bytes v) := by
        unfold Sink.put
        split
        · rename_i hzz; exact absurd hzz hz
        · rcases cd.writes v with hw | ⟨t, hw, hb⟩
          · simp only [hw, if_neg hmem, hfn, hf]
          · simp only [hw, hb, if_neg hmem, hfn, hf]
      simp only [Arg.toValue, h1]
      rcases h.handle with ⟨hp, -⟩ | ⟨hp, hzz⟩ | ⟨hp, a, hzz, ha⟩
      · exact absurd hp hnew
      · have h2 : l.after S (.put k (.value v)) = ({ l with refused := fun j => l.refused j || decide (j = k) }, .error .valueError) := by
          simp_all [Life.after]
        rw [h2]
        simp only [Sink.write, hzz]
        have := hstate s.zip l.current h.handle
        rw [hzz] at this
        exact ⟨by rw [← hzz]; exact hstate s.zip l.current h.handle, trivial⟩
      · have h2 : l.after S (.put k (.value v)) =
            ({ l with refused := fun j => l.refused j || decide (j = k),
                      current := { l.current with value := fun j => if j = k then some v else l.current.value j } }, .ok ()) := by
          simp_all [Life.after]
        rw [h2]
        simp only [Sink.write, hzz]
        exact ⟨hstate _ _ (.inr (.inr ⟨hp, _, rfl, arch_write hN ha hal hf v⟩)), trivial⟩

theorem life_exit {S : Settings} (hN : Naming S.filename allowed) (horder : ∀ l, (order l).Perm l) {disk : Disk} {s : Sink} {l : Life V}
    (h : InLife cd allowed order S disk s l) :
    InLife cd allowed order S (happen cd disk s .exit).1.1 (happen cd disk s .exit).1.2 (l.after S .exit).1 ∧
      (happen cd disk s .exit).2 = (l.after S .exit).2 := by
  have hcfg := h.cfg
  simp only [happen, Sink.call]
  rcases h.handle with ⟨hp, hz⟩ | ⟨hp, hz⟩ | ⟨hp, a, hz, ha⟩
  · simp only [Sink.exit, hz, Life.after, hp, and_true]; exact h
  · have h1 : s.exit disk = ((disk, s), if S.writesKeys then .error .valueError else .ok ()) := by
      simp only [Sink.exit, hz, hcfg, config]
      cases S.writesKeys <;> rfl
    simp only [h1, Life.after, hp, and_true]; exact h
  · cases hw : S.writesKeys with
    | false =>
      have h1 : s.exit disk = ((some a, { s with zip := .closed }), .ok ()) := by
        simp only [Sink.exit, hz, hcfg, config, hw, Bool.false_eq_true, if_false]
      simp only [h1, Life.after, hp, hw, Bool.false_eq_true, if_false, and_true]
      exact ⟨h.cfg, .inr ⟨a, _, rfl, rfl, ha⟩, .inr (.inl ⟨rfl, rfl⟩), h.nodup, h.keys, h.fine⟩
    | true =>
      obtain ⟨a', w1, w2, -⟩ := readKeysFile_written order a s.keys
      obtain ⟨a'', ks', w1', w3, w4, w5⟩ := C57_keys order horder a s.keys h.nodup
      rw [w1, Except.ok.injEq] at w1'
      subst w1'
      have hgood := w5.2 ⟨fun k hk => (h.fine k hk).1, fun e => (h.fine [] (by rw [e]; simp)).2 rfl⟩
      have h1 : s.exit disk = ((some a', { s with zip := .closed }), .ok ()) := by
        simp only [Sink.exit, hz, hcfg, config, hw, if_true, w1]
      simp only [h1, Life.after, hp, hw, if_true, and_true]
      refine ⟨h.cfg, .inr ⟨a', _, rfl, rfl, ?_⟩, .inr (.inl ⟨rfl, rfl⟩), h.nodup, h.keys, h.fine⟩
      have hne : ∀ k n, allowed k → S.filename k = .ok n → n ≠ keysEntry := by
        intro k n hk hn
        obtain ⟨n', hn', hne, -⟩ := hN.names k hk
        rw [hn, Except.ok.injEq] at hn'
        subst hn'
        exact hne
      refine ⟨(fun hl => by cases hl), fun L hl => ?_, ?_, ?_⟩
      · simp only [Option.some.injEq] at hl
        subst hl
        refine ⟨?_, ks', w3, fun k => by rw [hgood, h.keys]⟩
        cases hr : l.refused []
        · rfl
        · exact absurd rfl (h.fine [] ((h.keys []).2 hr)).2
      · intro k n v hk hn hv
        rw [w2 n (hne k n hk hn)]
        exact ha.present k n v hk hn hv
      · intro k n hk hn hv
        rw [w2 n (hne k n hk hn)]
        exact ha.absent k n hk hn hv

theorem life_step {S : Settings} (hN : Naming S.filename allowed) (horder : ∀ l, (order l).Perm l) {disk : Disk} {s : Sink} {l : Life V}
    (e : Event V) (hc : Considered cd S.filename allowed l e) (h : InLife cd allowed order S disk s l) :
    InLife cd allowed order S (happen cd disk s e).1.1 (happen cd disk s e).1.2 (l.after S e).1 ∧ (happen cd disk s e).2 = (l.after S e).2 := by
  cases e with
  | enter => exact life_enter h
  | put k x => exact life_put hN k x hc h
  | exit => exact life_exit hN horder h
  | replaced d f =>
    refine ⟨⟨h.cfg, diskIs_of_atPath hc.2.1 hc.2.2, ?_, h.nodup, h.keys, h.fine⟩, rfl⟩
    rcases h.handle with h1 | h1 | ⟨h1, -⟩
    · exact .inl h1
    · exact .inr (.inl h1)
    · exact absurd h1 hc.1

theorem life_run {S : Settings} (hN : Naming S.filename allowed) (horder : ∀ l, (order l).Perm l) : ∀ (es : List (Event V)) {disk : Disk} {s : Sink}
    {l : Life V}, AllConsidered cd allowed S l es → InLife cd allowed order S disk s l →
    InLife cd allowed order S (happenAll cd disk s es).1.1 (happenAll cd disk s es).1.2 (l.run S es).1 ∧ (happenAll cd disk s es).2 = (l.run S es).2
  | [], _, _, _, _, h => ⟨h, rfl⟩
  | e :: es, _, _, _, hc, h => by
    obtain ⟨h1, h2⟩ := life_step hN horder e hc.1 h
    obtain ⟨h3, h4⟩ := life_run hN horder es hc.2 h1
    exact ⟨h3, by simp only [happenAll, Life.run, h2, h4]⟩

/-- Whatever happens to a sink object, each call has the outcome the machine says, and while the sink is not open the file holds what the
machine says: a source that is entered offers exactly that. -/
theorem C97_life (cd : Codec V) (S : Settings) (hN : Naming S.filename allowed) (horder : ∀ l, (order l).Perm l) (hkeys : S.readsKeys = true → S.writesKeys = true)
    (disk : Disk) (file : Option (Store V)) (hdisk : AtPath cd S.filename allowed disk file) (h0 : NoEmptyKey file) (es : List (Event V))
    (hes : AllConsidered cd allowed S (.start file) es) :
    ∃ sink, Sink.create (config order S.filename S.overwrite S.readsKeys S.writesKeys) = .ok sink ∧
      (happenAll cd disk sink es).2 = ((Life.start file).run S es).2 ∧
      (((Life.start file).run S es).1.phase ≠ .entered →
        AtPath cd S.filename allowed (happenAll cd disk sink es).1.1 ((Life.start file).run S es).1.file) := by
  refine ⟨_, (C97_create _).1 ?_, ?_⟩
  · cases hr : S.readsKeys with
    | false => exact .inl rfl
    | true => exact .inr (by simp [config, hkeys hr])
  · obtain ⟨h1, h2⟩ := life_run (cd := cd) (order := order) hN horder es (disk := disk)
      (s := ⟨config order S.filename S.overwrite S.readsKeys S.writesKeys, .none, []⟩) (l := .start file) hes
      ⟨rfl, diskIs_of_atPath hdisk h0, .inl ⟨rfl, rfl⟩, by simp, by simp [Life.start], by simp⟩
    exact ⟨h2, fun _ => h1.disk.atPath hN⟩

/-! ## One object for several sessions -/

theorem run_append (S : Settings) : ∀ (es fs : List (Event V)) (l : Life V), l.run S (es ++ fs) =
    (((l.run S es).1.run S fs).1, (l.run S es).2 ++ ((l.run S es).1.run S fs).2)
  | [], _, _ => rfl
  | e :: es, fs, l => by simp only [List.cons_append, Life.run, run_append S es fs]

theorem considered_append (S : Settings) : ∀ (es fs : List (Event V)) (l : Life V), AllConsidered cd allowed S l es →
    AllConsidered cd allowed S (l.run S es).1 fs → AllConsidered cd allowed S l (es ++ fs)
  | [], _, _, _, h => h
  | e :: es, fs, l, h, h' => ⟨h.1, considered_append S es fs _ h.2 h'⟩

theorem puts_run (S : Settings) (hN : Naming S.filename allowed) (hempty : ¬ allowed []) : ∀ (puts : List (Str × V)) (l : Life V) (M : Str → Option V), l.phase = .entered →
    l.current.value = M → (l.refused = fun k => (M k).isSome) → (∀ e ∈ puts, allowed e.1) →
    AllConsidered cd allowed S l (puts.map fun e => .put e.1 (.value e.2)) ∧
    ∃ c, (l.run S (puts.map fun e => .put e.1 (.value e.2))).1 =
        ⟨.entered, l.file, c, fun k => ((M k).or (firstPut puts k)).isSome⟩ ∧ c.value = fun k => (M k).or (firstPut puts k)
  | [], l, M, hp, hc, hr, _ => by
    refine ⟨trivial, l.current, ?_, ?_⟩
    · obtain ⟨p, f, c, r⟩ := l
      simp only at hp hc hr
      subst hp hr
      simp [Life.run, firstPut_nil]
    · rw [hc]; funext k; simp [firstPut_nil]
  | (k, v) :: puts, l, M, hp, hc, hr, hall => by
    have hk : allowed k := hall (k, v) (by simp)
    obtain ⟨n, hn, -⟩ := hN.names k hk
    have hcons : Considered cd S.filename allowed l (.put k (.value v)) :=
      ⟨fun h => hempty (h ▸ hk), hN.lines k hk, .inl hk⟩
    have hstep : ∃ l', (l.after S (.put k (.value v))).1 = l' ∧ l'.phase = .entered ∧ l'.file = l.file ∧
        l'.current.value = (fun j => (M j).or (if j = k then some v else none)) ∧
        l'.refused = fun j => ((M j).or (if j = k then some v else none)).isSome := by
      refine ⟨_, rfl, ?_⟩
      cases hm : (M k).isSome with
      | true =>
        have hx : ∀ j, (M j).or (if j = k then some v else none) = M j := by
          intro j
          by_cases hj : j = k
          · subst hj
            obtain ⟨w, hw⟩ := Option.isSome_iff_exists.1 hm
            rw [hw]; rfl
          · rw [if_neg hj, Option.or_none]
        have : l.refused k = true := by rw [hr]; exact hm
        simp only [Life.after, hp, this, if_true, hx, hc, true_and]
        exact hr
      | false =>
        have : l.refused k = false := by rw [hr]; exact hm
        simp only [Life.after, hp, this, Bool.false_eq_true, if_false, hn, true_and]
        constructor
        · funext j
          rw [hc]
          by_cases hj : j = k
          · subst hj
            rw [Option.isSome_eq_false_iff, Option.isNone_iff_eq_none] at hm
            rw [hm]; simp
          · simp [hj]
        · funext j
          rw [hr]
          by_cases hj : j = k
          · subst hj; simp
          · simp [hj]
    obtain ⟨l', h1, h2, h3, h4, h5⟩ := hstep
    obtain ⟨i1, c, i2, i3⟩ := puts_run S hN hempty puts l' _ h2 h4 h5 (fun e he => hall e (by simp [he]))
    have hval : ∀ j, ((M j).or (if j = k then some v else none)).or (firstPut puts j) = (M j).or (firstPut ((k, v) :: puts) j) := by
      intro j
      rw [firstPut_cons]
      by_cases hj : j = k
      · subst hj; cases M j <;> simp
      · have hj' : ¬ k = j := fun h => hj h.symm
        cases M j <;> simp [hj, hj']
    simp only [hval] at i2 i3
    refine ⟨⟨hcons, by rw [h1]; exact i1⟩, c, ?_, i3⟩
    simp only [List.map_cons, Life.run, h1]
    rw [i2, h3]

theorem session_run (S : Settings) (hN : Naming S.filename allowed) (hempty : ¬ allowed []) (ho : S.overwrite = false) (hr : S.readsKeys = true)
    (hw : S.writesKeys = true) (puts : List (Str × V)) (l : Life V) (M : Str → Option V) (hp : l.phase ≠ .entered)
    (hf : (l.file = none ∧ M = fun _ => none) ∨ l.file = some (.of M)) (href : ∀ k, l.refused k = true → (M k).isSome = true)
    (hall : ∀ e ∈ puts, allowed e.1) :
    AllConsidered cd allowed S l (.enter :: puts.map (fun e => .put e.1 (.value e.2)) ++ [.exit]) ∧
    ∃ l', (l.run S (.enter :: puts.map (fun e => .put e.1 (.value e.2)) ++ [.exit])).1 = l' ∧ l'.phase ≠ .entered ∧
      l'.file = some (.of (afterSession M false puts)) ∧ ∀ k, l'.refused k = true → (afterSession M false puts k).isSome = true := by
  have hopen : (l.opened S).value = M ∧ (l.after S .enter).1.refused = fun k => (M k).isSome := by
    have hof : l.opened S = l.file.getD .nothing := by simp [Life.opened, ho]
    simp only [Life.after, hof, hr, Bool.true_and]
    rcases hf with ⟨h1, h2⟩ | h1
    · subst h2
      rw [h1]
      refine ⟨rfl, ?_⟩
      funext k
      have := href k
      simp only [Option.getD_none, Store.nothing]
      simpa using this
    · rw [h1]
      refine ⟨rfl, ?_⟩
      funext k
      simp only [Option.getD_some, Store.of]
      have := href k
      cases h : l.refused k
      · simp
      · simp [this h]
  obtain ⟨h1, c, h2, h3⟩ := puts_run (cd := cd) S hN hempty puts (l.after S .enter).1 M rfl (by simpa [Life.after] using hopen.1) hopen.2 hall
  have hfile : (l.after S .enter).1.file = l.file := rfl
  rw [hfile] at h2
  constructor
  · exact considered_append S (.enter :: puts.map _) [.exit] l ⟨hp, h1⟩ ⟨trivial, trivial⟩
  · have hrun : (l.run S (.enter :: puts.map fun e => .put e.1 (.value e.2))).1 =
        ⟨.entered, l.file, c, fun k => ((M k).or (firstPut puts k)).isSome⟩ := h2
    rw [run_append, hrun]
    simp only [Life.run, Life.after, hw, if_true]
    refine ⟨_, rfl, by simp, ?_, ?_⟩
    · have : afterSession M false puts = fun k => (M k).or (firstPut puts k) := by funext k; simp [afterSession]
      rw [Store.of, this, h3]
    · intro k hk
      simpa [afterSession] using hk

theorem sessions_run (S : Settings) (hN : Naming S.filename allowed) (hempty : ¬ allowed []) (ho : S.overwrite = false) (hr : S.readsKeys = true)
    (hw : S.writesKeys = true) : ∀ (xs : List (List (Str × V))) (l : Life V) (M : Str → Option V), l.phase ≠ .entered →
    l.file = some (.of M) → (∀ k, l.refused k = true → (M k).isSome = true) → (∀ puts ∈ xs, ∀ e ∈ puts, allowed e.1) →
    AllConsidered cd allowed S l (sessionEvents xs) ∧ (l.run S (sessionEvents xs)).1.phase ≠ .entered ∧
      (l.run S (sessionEvents xs)).1.file = some (.of (afterSessions M (xs.map fun puts => ⟨false, puts⟩)))
  | [], l, M, hp, hf, href, _ => ⟨trivial, hp, hf⟩
  | puts :: xs, l, M, hp, hf, href, hall => by
    obtain ⟨h1, l', h2, h3, h4, h5⟩ := session_run (cd := cd) S hN hempty ho hr hw puts l M hp (.inr hf) href (hall puts (by simp))
    obtain ⟨i1, i2, i3⟩ := sessions_run S hN hempty ho hr hw xs l' _ h3 h4 h5 (fun q hq => hall q (by simp [hq]))
    simp only [sessionEvents, List.flatMap_cons] at *
    rw [run_append]
    simp only [h2]
    exact ⟨considered_append S _ _ l h1 (by rw [h2]; exact i1), i2, i3⟩

/-- One appending sink object (with the default keys) may be used for several sessions: the store is then as if each had been made with a
sink of its own. -/
theorem C97_reuse (cd : Codec V) (fn : Str → Res Str) (hN : Naming fn allowed) (horder : ∀ l, (order l).Perm l) (hempty : ¬ allowed []) (disk : Disk)
    (M : Str → Option V) (hdisk : AtPath cd fn allowed disk (some (.of M))) (hM : ∀ k, (M k).isSome = true → allowed k)
    (xs : List (List (Str × V))) (hall : ∀ puts ∈ xs, ∀ e ∈ puts, allowed e.1) :
    ∃ sink, Sink.create (defaultConfig order fn false) = .ok sink ∧
      AtPath cd fn allowed (happenAll cd disk sink (sessionEvents xs)).1.1 (some (.of (afterSessions M (xs.map fun puts => ⟨false, puts⟩)))) := by
  obtain ⟨h1, h2, h3⟩ := sessions_run (cd := cd) ⟨fn, false, true, true⟩ hN hempty rfl rfl rfl xs (.start (some (.of M))) M (by simp [Life.start]) rfl
    (by simp [Life.start]) hall
  have h0 : NoEmptyKey (some (Store.of M)) := by
    intro st L hst hL
    cases hst
    cases hL
    show (M []).isSome = false
    cases h : (M []).isSome
    · rfl
    · exact absurd (hM [] h) hempty
  obtain ⟨sink, e1, -, e3⟩ := C97_life (order := order) cd ⟨fn, false, true, true⟩ hN horder (fun _ => rfl) disk _ hdisk h0 _ h1
  refine ⟨sink, e1, ?_⟩
  rw [← h3]
  exact e3 h2

/-! ## Sources -/

/-- A source object can be entered and left again and again.  It offers the store in the file it was last entered with, and only between
entering and leaving: otherwise its methods, and leaving, raise `AssertionError`.  Entering raises `OSError` if there is no file, and
changes nothing then. -/
theorem C97_source (cd : Codec V) (fn : Str → Res Str) (es : List SourceEvent)
    (hes : ∀ a, .enter (some a) ∈ es → ∃ st : Store V, AtPath cd fn allowed (some a) (some st)) :
    (sourceHappenAll (Source.create ⟨fn, some readKeysFile, cd.process⟩) es).2 = sourceOutcomes none es ∧
    (es.foldl openAfter none = none →
      let src := (sourceHappenAll (Source.create ⟨fn, some readKeysFile, cd.process⟩) es).1.asSource
      src.keys = .error .assertionError ∧ (∀ k, src.getItem k = .error .assertionError) ∧ ∀ D k (d : D), src.get D k d = .error .assertionError) ∧
    (∀ a, es.foldl openAfter none = some a → ∀ st, AtPath cd fn allowed (some a) (some st) →
      Offers (sourceHappenAll (Source.create ⟨fn, some readKeysFile, cd.process⟩) es).1.asSource fn allowed st) := by
  have key : ∀ (es : List SourceEvent) (s : Source V), s.cfg = ⟨fn, some readKeysFile, cd.process⟩ →
      (∀ a, s.zip = some a → readKeysFile a = .ok s.keys) →
      (∀ a, .enter (some a) ∈ es → ∃ st : Store V, AtPath cd fn allowed (some a) (some st)) →
      (sourceHappenAll s es).2 = sourceOutcomes s.zip es ∧ (sourceHappenAll s es).1.cfg = ⟨fn, some readKeysFile, cd.process⟩ ∧
      (sourceHappenAll s es).1.zip = es.foldl openAfter s.zip ∧
      ∀ a, (sourceHappenAll s es).1.zip = some a → readKeysFile a = .ok (sourceHappenAll s es).1.keys := by
    intro es
    induction es with
    | nil => intro s hc hk _; exact ⟨rfl, hc, rfl, hk⟩
    | cons e es ih =>
      intro s hc hk hes
      have hstep : (sourceHappen s e).2 = sourceOutcome s.zip e ∧ (sourceHappen s e).1.cfg = ⟨fn, some readKeysFile, cd.process⟩ ∧
          (sourceHappen s e).1.zip = openAfter s.zip e ∧ ∀ a, (sourceHappen s e).1.zip = some a → readKeysFile a = .ok (sourceHappen s e).1.keys := by
        cases e with
        | exit =>
          cases hz : s.zip with
          | none =>
            simp only [sourceHappen, Source.callExit, Source.exit, hz, sourceOutcome, openAfter]
            exact ⟨by simp, hc, trivial, fun a h => by cases h⟩
          | some b =>
            simp only [sourceHappen, Source.callExit, Source.exit, hz, sourceOutcome, openAfter]
            exact ⟨by simp, hc, trivial, fun a h => by cases h⟩
        | enter d =>
          cases d with
          | none =>
            simp only [sourceHappen, Source.callEnter, sourceOutcome, openAfter]
            exact ⟨trivial, hc, trivial, hk⟩
          | some a =>
            obtain ⟨st, src, h1, -⟩ := hes a (by simp)
            simp only [Source.enter, Source.create, bind, Except.bind] at h1
            cases hr : readKeysFile a with
            | error e => simp [hr] at h1
            | ok r =>
              simp only [sourceHappen, Source.callEnter, hc, hr, sourceOutcome, openAfter]
              exact ⟨trivial, trivial, trivial, fun b hb => by cases hb; exact hr⟩
      obtain ⟨s1, s2, s3, s4⟩ := hstep
      obtain ⟨i1, i2, i3, i4⟩ := ih _ s2 s4 fun a ha => hes a (by simp [ha])
      rw [s3] at i1 i3
      exact ⟨by simp only [sourceHappenAll, sourceOutcomes, s1, i1], i2, i3, i4⟩
  obtain ⟨k1, k2, k3, k4⟩ := key es (Source.create ⟨fn, some readKeysFile, cd.process⟩) rfl (fun a h => by cases h) hes
  refine ⟨k1, fun hn => ?_, fun a ha st hst => ?_⟩
  · rw [show (Source.create ⟨fn, some readKeysFile, cd.process⟩ : Source V).zip = none from rfl, hn] at k3
    simp only [Source.asSource, Source.internalGet, k3]
    exact ⟨trivial, fun k => rfl, fun D k d => trivial⟩
  · rw [show (Source.create ⟨fn, some readKeysFile, cd.process⟩ : Source V).zip = none from rfl, ha] at k3
    clear k1 key
    revert k2 k3 k4
    generalize (sourceHappenAll (Source.create ⟨fn, some readKeysFile, cd.process⟩) es).1 = t
    obtain ⟨c, z, ks⟩ := t
    intro k2 k4 k3
    simp only at k2 k3 k4
    subst k2 k3
    obtain ⟨src, h1, h2⟩ := hst
    simp only [Source.enter, Source.create, k4 a rfl, bind, Except.bind, Except.ok.injEq] at h1
    subst h1
    exact h2

/-- With any keys function, or none, and any way of reading the bytes, whatever is in the files: entering raises what the keys function
raises, and the source is open all the same.  While it is open, `keys()` is what the keys function last returned (`None` if there is no
keys function, or if it has only raised), and a value is what a source made and entered just then, without keys function, gives. -/
theorem C97_keys_function (cfg : SourceConfig V) (es : List SourceEvent) :
    (sourceHappenAll (Source.create cfg) es).2 = sourceOutcomesWith cfg.keysFunction none es ∧
    (es.foldl openAfter none = none →
      let src := (sourceHappenAll (Source.create cfg) es).1.asSource
      src.keys = .error .assertionError ∧ (∀ k, src.getItem k = .error .assertionError) ∧ ∀ D k (d : D), src.get D k d = .error .assertionError) ∧
    (∀ a, es.foldl openAfter none = some a →
      let src := (sourceHappenAll (Source.create cfg) es).1.asSource
      (cfg.keysFunction = none → src.keys = .ok none) ∧
      (∀ f, cfg.keysFunction = some f → src.keys = .ok (((keysReturned f es).getLast?).getD none)) ∧
      ∃ fresh, (Source.create { cfg with keysFunction := none }).enter (some a) = .ok fresh ∧
        (∀ k, src.getItem k = fresh.asSource.getItem k) ∧ ∀ D k (d : D), src.get D k d = fresh.asSource.get D k d) := by
  have key : ∀ (es : List SourceEvent) (s : Source V), s.cfg = cfg →
      (sourceHappenAll s es).2 = sourceOutcomesWith cfg.keysFunction s.zip es ∧ (sourceHappenAll s es).1.cfg = cfg ∧
      (sourceHappenAll s es).1.zip = es.foldl openAfter s.zip ∧
      (cfg.keysFunction = none → (sourceHappenAll s es).1.keys = s.keys) ∧
      (∀ f, cfg.keysFunction = some f → (sourceHappenAll s es).1.keys = ((keysReturned f es).getLast?).getD s.keys) := by
    intro es
    induction es with
    | nil => intro s hc; exact ⟨rfl, hc, rfl, fun _ => rfl, fun _ _ => rfl⟩
    | cons e es ih =>
      intro s hc
      have hstep : (sourceHappen s e).2 = sourceOutcomeWith cfg.keysFunction s.zip e ∧ (sourceHappen s e).1.cfg = cfg ∧
          (sourceHappen s e).1.zip = openAfter s.zip e ∧ (cfg.keysFunction = none → (sourceHappen s e).1.keys = s.keys) ∧
          ∀ f, cfg.keysFunction = some f → (sourceHappen s e).1.keys = ((keysReturned f [e]).getLast?).getD s.keys := by
        cases e with
        | exit =>
          cases hz : s.zip with
          | none =>
            simp only [sourceHappen, Source.callExit, Source.exit, hz, sourceOutcomeWith, sourceOutcome, openAfter]
            exact ⟨by simp, hc, trivial, fun _ => trivial, fun _ _ => rfl⟩
          | some b =>
            simp only [sourceHappen, Source.callExit, Source.exit, hz, sourceOutcomeWith, sourceOutcome, openAfter]
            exact ⟨by simp, hc, trivial, fun _ => trivial, fun _ _ => rfl⟩
        | enter d =>
          cases d with
          | none =>
            simp only [sourceHappen, Source.callEnter, sourceOutcomeWith, sourceOutcome, openAfter]
            exact ⟨trivial, hc, trivial, fun _ => trivial, fun _ _ => rfl⟩
          | some a =>
            cases hf : cfg.keysFunction with
            | none =>
              simp only [sourceHappen, Source.callEnter, hc, hf, sourceOutcomeWith, openAfter]
              exact ⟨trivial, trivial, trivial, fun _ => trivial, fun f h => by cases h⟩
            | some f =>
              cases hr : f a with
              | error x =>
                simp only [sourceHappen, Source.callEnter, hc, hf, hr, sourceOutcomeWith, openAfter]
                exact ⟨trivial, trivial, trivial, fun _ => trivial, fun g h => by cases h; simp [keysReturned, hr]⟩
              | ok ks =>
                simp only [sourceHappen, Source.callEnter, hc, hf, hr, sourceOutcomeWith, openAfter]
                exact ⟨trivial, trivial, trivial, (fun h => by cases h), fun g h => by cases h; simp [keysReturned, hr]⟩
      obtain ⟨s1, s2, s3, s4, s5⟩ := hstep
      obtain ⟨i1, i2, i3, i4, i5⟩ := ih _ s2
      rw [s3] at i1 i3
      refine ⟨by simp only [sourceHappenAll, sourceOutcomesWith, s1, i1], i2, i3, fun h => (i4 h).trans (s4 h), fun f h => ?_⟩
      refine (i5 f h).trans ?_
      rw [s5 f h]
      have : keysReturned f (e :: es) = keysReturned f [e] ++ keysReturned f es := by
        unfold keysReturned
        rw [← List.filterMap_append, List.singleton_append]
      rw [this, List.getLast?_append]
      cases (keysReturned f es).getLast? <;> rfl
  obtain ⟨k1, k2, k3, k4, k5⟩ := key es (Source.create cfg) rfl
  refine ⟨k1, fun hn => ?_, fun a ha => ?_⟩
  · rw [show (Source.create cfg : Source V).zip = none from rfl, hn] at k3
    simp only [Source.asSource, Source.internalGet, k3]
    exact ⟨trivial, fun k => rfl, fun D k d => trivial⟩
  · rw [show (Source.create cfg : Source V).zip = none from rfl, ha] at k3
    refine ⟨fun h => ?_, fun f h => ?_, _, rfl, fun k => ?_, fun D k d => ?_⟩
    · simp only [Source.asSource, k3, k4 h]; rfl
    · simp only [Source.asSource, k3, k5 f h]; rfl
    · simp only [Source.asSource, Source.internalGet, k3, k2]; rfl
    · simp only [Source.asSource, Source.internalGet, k3, k2]; rfl

end

/-! ### Concrete cases -/

namespace LifeExample
open Example

/-- Counterexample: a source object entered twice, where the keys function raises the second time, is open, and lists the keys of the
first file beside the values of the second. -/
theorem _root_.Vista.Zip.C97_keys_function_counterexample (f : Archive → Res (Option (List Str))) (a b : Archive) (ks : List Str) (x : Exc)
    (ha : f a = .ok (some ks)) (hb : f b = .error x) (process : Bytes → Res Str) :
    (sourceHappenAll (Source.create ⟨ident, some f, process⟩) [.enter (some a), .exit, .enter (some b)]).2 = [.ok (), .ok (), .error x] ∧
    (sourceHappenAll (Source.create ⟨ident, some f, process⟩) [.enter (some a), .exit, .enter (some b)]).1.asSource.keys = .ok (some ks) := by
  obtain ⟨h1, -, h3⟩ := C97_keys_function ⟨ident, some f, process⟩ [.enter (some a), .exit, .enter (some b)]
  refine ⟨h1.trans (by simp [sourceOutcomesWith, sourceOutcomeWith, sourceOutcome, openAfter, ha, hb]), ?_⟩
  have := (h3 b rfl).2.1 f rfl
  simpa [keysReturned, ha, hb] using this

example : ∃ (f : Archive → Res (Option (List Str))) (a b : Archive) (ks : List Str) (x : Exc), f a = .ok (some ks) ∧ f b = .error x :=
  ⟨fun a => if a = [] then .error .keyError else .ok (some ["k".toList]), [("e".toList, ByteArray.empty)], [], _, _, if_neg (by simp), if_pos rfl⟩

/-- A sink that overwrites, with the default keys; and one without key functions. -/
def keyed : Settings := ⟨ident, true, true, true⟩
def unkeyed : Settings := ⟨ident, false, false, false⟩

/-- What happens: leaving and putting before the sink is entered, a session, a second session with the key of the first, leaving twice. -/
def story : List (Event Str) :=
  [.exit, .put "a".toList (.value "0".toList), .enter, .put "a".toList (.value "1".toList), .put "a".toList (.value "2".toList),
   .put "b".toList .unsuitable, .put "c".toList .none, .exit, .put "d".toList (.value "4".toList), .exit, .enter, .put "a".toList (.value "5".toList),
   .put "c".toList (.value "6".toList), .exit]

def code : Res Unit → Nat
  | .ok _ => 0
  | .error .valueError => 1
  | .error .assertionError => 2
  | .error .attributeError => 3
  | .error _ => 4

/-- The outcomes, the values and the keys that are listed: the keys of the first session and of calls that failed are listed, but not
there. -/
example : ((Life.start none).run keyed story).2.map code = [3, 2, 0, 0, 1, 1, 1, 0, 1, 1, 0, 1, 0, 0] ∧
    (match ((Life.start none).run keyed story).1.file with
      | some st => ["a", "b", "c", "d", "e"].map fun k => ((st.value k.toList).isSome, match st.listed with | some L => L k.toList | none => false)
      | none => []) = [(false, true), (false, true), (true, true), (false, true), (false, false)] := by decide +kernel

theorem considered : AllConsidered charCodec plainKey keyed (.start none) story := by
  have hp : ∀ (k : Str), k ≠ "__keys".toList ∧ '\n' ∉ k ∧ '\x00' ∉ k ∧ k ≠ [] → k ≠ [] ∧ '\n' ∉ k ∧ (plainKey k ∨ ∃ e, ident k = .error e) :=
    fun k h => ⟨h.2.2.2, h.2.1, .inl h⟩
  refine ⟨trivial, hp _ (by decide), ?_, hp _ (by decide), hp _ (by decide), hp _ (by decide), hp _ (by decide), trivial, hp _ (by decide), trivial, ?_,
    hp _ (by decide), hp _ (by decide), trivial, trivial⟩
  · show Phase.new ≠ .entered; decide
  · show ((Life.start none : Life Str).run keyed (story.take 10)).1.phase ≠ .entered; decide +kernel

example := C97_life (order := id) charCodec keyed naming (fun l => List.Perm.refl l) (fun _ => rfl) none none ⟨rfl, fun _ => rfl⟩
  (fun _ _ h => by cases h) story considered

/-- Counterexample: the same key can be put in the second session of an overwriting sink object only if it was not put in the first, and
the store then lists keys it does not have. -/
theorem _root_.Vista.Zip.C97_reuse_counterexample (k : Str) (v w : Str) (hk : plainKey k) :
    ∃ sink st, Sink.create (config id ident true true true) = .ok sink ∧
      (happenAll charCodec none sink [.enter, .put k (.value v), .exit, .enter, .put k (.value w), .exit]).2 =
        [.ok (), .ok (), .ok (), .ok (), .error .valueError, .ok ()] ∧
      AtPath charCodec ident plainKey (happenAll charCodec none sink [.enter, .put k (.value v), .exit, .enter, .put k (.value w), .exit]).1.1 (some st) ∧
      st.value k = none ∧ ∃ L, st.listed = some L ∧ L k = true := by
  have hc : AllConsidered charCodec plainKey keyed (.start none) [.enter, .put k (.value v), .exit, .enter, .put k (.value w), .exit] := by
    have hp : k ≠ [] ∧ '\n' ∉ k ∧ (plainKey k ∨ ∃ e, ident k = .error e) := ⟨hk.2.2.2, hk.2.1, .inl hk⟩
    refine ⟨by simp [Considered, Life.start], hp, trivial, ?_, hp, trivial, trivial⟩
    simp [Considered, Life.after, Life.start, keyed, ident, Life.opened, Store.nothing]
  obtain ⟨sink, h1, h2, h3⟩ := C97_life (order := id) charCodec keyed naming (fun l => List.Perm.refl l) (fun _ => rfl) none none ⟨rfl, fun _ => rfl⟩
    (fun _ _ h => by cases h) _ hc
  simp only [Life.run, Life.after, Life.start, keyed, ident, Life.opened, Store.nothing, if_true, Bool.and_false, Bool.or_false, Bool.false_or,
    Bool.false_eq_true, if_false, decide_true] at h2 h3
  exact ⟨sink, _, h1, h2, h3 (by simp), rfl, _, rfl, by simp⟩

example : plainKey "a".toList := by unfold plainKey; decide

/-- An empty archive is a store without a list of keys; a sink without key functions appends to it. -/
example : AtPath charCodec ident plainKey (some []) (some .nothing) := (arch_nothing ident).atPath naming
example := C97_life (order := id) charCodec unkeyed naming (fun l => List.Perm.refl l) (fun h => h) (some []) (some .nothing)
  ((arch_nothing ident).atPath naming) (fun st L h h' => by cases h; cases h')
  [.enter, .put "a".toList (.value "1".toList), .exit, .exit]
  ⟨by simp [Considered, Life.start], ⟨by decide, by decide, .inl (by unfold plainKey; decide)⟩, trivial, trivial, trivial⟩
example := C97_source (allowed := plainKey) charCodec ident [.exit, .enter none, .enter (some []), .exit]
  (fun a h => by
    have : a = [] := by simpa using h
    subst this
    exact ⟨_, (arch_nothing ident).atPath naming⟩)
/-- A store to begin with, made by a sink, and two sessions of one object. -/
example : ∃ disk, AtPath charCodec ident plainKey disk (some (.of (fun _ => none))) := by
  obtain ⟨sink, -, -, h3⟩ := C97_life (order := id) charCodec keyed naming (fun l => List.Perm.refl l) (fun _ => rfl) none none ⟨rfl, fun _ => rfl⟩
    (fun _ _ h => by cases h) [.enter, .exit] ⟨by simp [Considered, Life.start], trivial, trivial⟩
  exact ⟨_, h3 (by decide)⟩
example (disk : Disk) (h : AtPath charCodec ident plainKey disk (some (.of (fun _ => none)))) :=
  C97_reuse (order := id) charCodec ident naming (fun l => List.Perm.refl l) (by unfold plainKey; simp) disk (fun _ => none) h (by simp)
    [[("a".toList, "1".toList)], [("b".toList, "2".toList)]]
    (by
      intro puts hp e he
      simp only [List.mem_cons, List.not_mem_nil, or_false] at hp
      rcases hp with rfl | rfl <;> (simp only [List.mem_singleton] at he; subst he; unfold plainKey; decide))

end LifeExample

end Zip
end Vista
