import Verif.Spec.Zip
import Verif.Spec.KeyValue
import Verif.Props.KeyValue
import Verif.Proofs.PyStr

/-!
# C54-C57: zip-backed key-value stores
-/
set_option linter.unusedSectionVars false
set_option linter.unusedSimpArgs false
namespace Vista
namespace Zip

/-! ## Proof steps -/

theorem distinct_mem {α : Type} [DecidableEq α] (l : List α) (x : α) : x ∈ distinct l ↔ x ∈ l := by
  induction l with
  | nil => simp [distinct]
  | cons y l ih =>
    simp only [distinct, List.mem_cons, List.mem_filter, ih, ne_eq, decide_not, Bool.not_eq_true', decide_eq_false_iff_not]
    by_cases h : x = y <;> simp [h]

theorem distinct_nodup {α : Type} [DecidableEq α] (l : List α) : (distinct l).Nodup := by
  induction l with
  | nil => simp [distinct]
  | cons y l ih =>
    simp only [distinct, List.nodup_cons, List.mem_filter]
    exact ⟨by simp, ih.filter _⟩

theorem readEntry_error (a : Archive) (n : Str) (e : Exc) (h : readEntry a n = .error e) : e = .keyError := by
  induction a with
  | nil => simp only [readEntry, Except.error.injEq] at h; exact h.symm
  | cons x a ih =>
    obtain ⟨m, b⟩ := x
    simp only [readEntry] at h
    split at h
    · simp at h
    · rename_i e' he'
      split at h
      · simp at h
      · simp only [Except.error.injEq] at h
        exact ih (by rw [he', h])

theorem readEntry_append (a : Archive) (m : Str) (b : Bytes) (n : Str) :
    readEntry (a ++ [(m, b)]) n = if m = n then .ok b else readEntry a n := by
  induction a with
  | nil => simp [readEntry]
  | cons x a ih =>
    obtain ⟨m', b'⟩ := x
    simp only [List.cons_append, readEntry, ih]
    by_cases h : m = n
    · simp [h]
    · simp [h]

theorem entryName_id {n : Str} (h : '\x00' ∉ n) : entryName n = n := by
  unfold entryName
  induction n with
  | nil => rfl
  | cons c n ih =>
    simp only [List.mem_cons, not_or] at h
    rw [List.takeWhile_cons_of_pos (by simpa using fun hc => h.1 hc.symm), ih h.2]

theorem readEntry_writestr (a : Archive) (m : Str) (hm : '\x00' ∉ m) (b : Bytes) (n : Str) :
    readEntry (writestr a m b) n = if m = n then .ok b else readEntry a n := by
  rw [writestr, readEntry_append, entryName_id hm]

theorem encodeUtf8_size (s : Str) : (encodeUtf8 s).size = 0 ↔ s = [] := by
  constructor
  · intro h
    have h1 : encodeUtf8 s = encodeUtf8 [] := by
      have : encodeUtf8 s = ByteArray.empty := ByteArray.size_eq_zero_iff.1 h
      rw [this]; rfl
    have h2 := congrArg decodeUtf8 h1
    rw [decodeUtf8_encode, decodeUtf8_encode] at h2
    simpa using h2
  · rintro rfl; rfl

theorem joinWith_eq_nil {c : Char} {ws : List Str} (h : joinWith c ws = []) : ws = [] ∨ ws = [[]] := by
  cases ws with
  | nil => exact .inl rfl
  | cons w ws =>
    cases ws with
    | nil => rw [joinWith] at h; exact .inr (by rw [h])
    | cons w' ws => rw [joinWith] at h; simp at h

theorem readKeysFile_written (order : List Str → List Str) (a : Archive) (ks : List Str) :
    ∃ a', writeKeysFile order a ks = .ok a' ∧ (∀ n, n ≠ keysEntry → readEntry a' n = readEntry a n) ∧
      readKeysFile a' = .ok (some (if joinWith '\n' (order ks) = [] then [] else distinct (splitOn '\n' (joinWith '\n' (order ks))))) := by
  have hk : '\x00' ∉ keysEntry := by decide
  refine ⟨_, rfl, ?_, ?_⟩
  · intro n hn
    rw [readEntry_writestr _ _ hk, if_neg (Ne.symm hn)]
  · simp only [readKeysFile, readEntry_writestr _ _ hk, if_true, encodeUtf8_size, bind, Except.bind, decodeUtf8_encode]
    split <;> rfl

/-! ## C57 -/

/-- Reading the key list that was written for a set of keys gives the same set exactly when no key contains a line feed and the set is
not `{""}`; whatever the order of writing. -/
theorem C57_keys (order : List Str → List Str) (horder : ∀ l, (order l).Perm l) (a : Archive) (ks : List Str) (hks : ks.Nodup) :
    ∃ a' ks', writeKeysFile order a ks = .ok a' ∧ readKeysFile a' = .ok (some ks') ∧ ks'.Nodup ∧
      ((∀ k, k ∈ ks' ↔ k ∈ ks) ↔ (∀ k ∈ ks, '\n' ∉ k) ∧ ks ≠ [[]]) := by
  obtain ⟨a', h1, -, h2⟩ := readKeysFile_written order a ks
  refine ⟨a', _, h1, h2, ?_, ?_⟩
  · split
    · simp
    · exact distinct_nodup _
  · have hmem : ∀ k, k ∈ order ks ↔ k ∈ ks := fun k => (horder ks).mem_iff
    by_cases hj : joinWith '\n' (order ks) = []
    · rw [if_pos hj]
      rcases joinWith_eq_nil hj with h | h
      · have : ks = [] := by
          have := (horder ks).length_eq; rw [h] at this; exact List.length_eq_zero_iff.1 this.symm
        subst this; simp
      · have : ks = [[]] := List.perm_singleton.1 ((h ▸ horder ks).symm)
        subst this; simp
    · rw [if_neg hj]
      have hne : ks ≠ [[]] := by
        rintro rfl
        have := List.perm_singleton.1 (horder [[]])
        rw [this] at hj
        exact hj rfl
      have hne' : order ks ≠ [] := by
        intro h; rw [h] at hj; exact hj rfl
      constructor
      · intro h
        refine ⟨fun k hk hn => ?_, hne⟩
        exact splitOn_no_sep '\n' _ k ((distinct_mem _ _).1 ((h k).2 hk)) hn
      · rintro ⟨h, -⟩ k
        rw [distinct_mem, splitOn_joinWith hne' (fun w hw => h w ((hmem w).1 hw)), hmem]

/-! ## Sessions -/

section
variable {V : Type} (cd : Codec V) (fn : Str → Res Str) (ok : Str → Prop)

/-- The entries of the archive are those of `M`. -/
def Entries (a : Archive) (M : Str → Option V) : Prop :=
  ∀ k n, ok k → fn k = .ok n → readEntry a n = (match M k with | some v => .ok (cd.bytes v) | none => .error .keyError)

/-- An open sink that has stored `M`. -/
structure Inv (s : Sink) (M : Str → Option V) : Prop where
  opened : ∃ a, s.zip = .opened a ∧ Entries cd fn ok a M
  nodup : s.keys.Nodup
  keys : ∀ k, k ∈ s.keys ↔ (M k).isSome = true
  dom : ∀ k, (M k).isSome = true → ok k

variable {cd fn ok}

theorem put_step (hN : Naming fn ok) {s : Sink} (hfn : s.cfg.filename = fn) {M : Str → Option V} (h : Inv cd fn ok s M) (k : Str) (v : V) (hk : ok k) :
    (s.put k (cd.value v)).1.cfg = s.cfg ∧
    ((M k).isSome = true → s.put k (cd.value v) = (s, .error .valueError)) ∧
    ((M k).isSome = false → (s.put k (cd.value v)).2 = .ok () ∧
      Inv cd fn ok (s.put k (cd.value v)).1 (fun k' => if k' = k then some v else M k')) := by
  obtain ⟨⟨a, ha, he⟩, hnd, hkeys, hdom⟩ := h
  obtain ⟨n, hn, hn1, hn2⟩ := hN.names k hk
  have hb : (cd.value v = .bytes (cd.bytes v)) ∨ ∃ t, cd.value v = .str t ∧ cd.bytes v = encodeUtf8 t := cd.writes v
  have hput : s.put k (cd.value v) = if k ∈ s.keys then (s, .error .valueError) else
      ({ s with keys := s.keys ++ [k], zip := .opened (writestr a n (cd.bytes v)) }, .ok ()) := by
    rcases hb with hb | ⟨t, hb, hb'⟩
    · simp only [Sink.put, ha, hb, hfn, hn, Sink.write]
    · simp only [Sink.put, ha, hb, hb', hfn, hn, Sink.write]
  rw [hput]
  by_cases hmem : k ∈ s.keys
  · rw [if_pos hmem]
    refine ⟨rfl, fun _ => rfl, fun hno => ?_⟩
    rw [(hkeys k).1 hmem] at hno
    simp at hno
  · rw [if_neg hmem]
    refine ⟨rfl, fun hyes => absurd ((hkeys k).2 hyes) hmem, fun _ => ⟨rfl, ⟨_, rfl, ?_⟩, ?_, ?_, ?_⟩⟩
    · intro k' n' hk' hn'
      rw [readEntry_writestr _ _ hn2]
      by_cases hkk : k' = k
      · subst hkk
        rw [hn, Except.ok.injEq] at hn'
        simp [hn']
      · have : n ≠ n' := fun h => hkk (hN.injective k' k n' hk' hk hn' (h ▸ hn))
        simp only [this, if_false, hkk]
        exact he k' n' hk' hn'
    · rw [List.nodup_append]
      exact ⟨hnd, by simp, fun x hx y hy => by simp only [List.mem_singleton] at hy; subst hy; rintro rfl; exact hmem hx⟩
    · intro k'
      simp only [List.mem_append, List.mem_singleton, hkeys]
      by_cases hkk : k' = k <;> simp [hkk]
    · intro k' hk'
      by_cases hkk : k' = k
      · rw [hkk]; exact hk
      · simp only [hkk, if_false] at hk'; exact hdom k' hk'

theorem firstPut_nil (k : Str) : firstPut ([] : List (Str × V)) k = none := rfl

theorem firstPut_cons (e : Str × V) (puts : List (Str × V)) (k : Str) :
    firstPut (e :: puts) k = if e.1 = k then some e.2 else firstPut puts k := by
  unfold firstPut
  rw [List.find?_cons]
  by_cases h : e.1 = k <;> simp [h]

theorem puts_spec (hN : Naming fn ok) : ∀ (puts : List (Str × V)) {s : Sink}, s.cfg.filename = fn → ∀ {M : Str → Option V}, Inv cd fn ok s M →
    (∀ e ∈ puts, ok e.1) →
    (s.puts (puts.map fun e => (e.1, cd.value e.2))).1.cfg = s.cfg ∧
    Inv cd fn ok (s.puts (puts.map fun e => (e.1, cd.value e.2))).1 (fun k => (M k).or (firstPut puts k)) ∧
    Outcomes M puts (s.puts (puts.map fun e => (e.1, cd.value e.2))).2 := by
  intro puts
  induction puts with
  | nil =>
    intro s hfn M h _
    refine ⟨rfl, ?_, rfl, ?_⟩
    · have : (fun k => (M k).or (firstPut ([] : List (Str × V)) k)) = M := by funext k; simp [firstPut_nil]
      rw [this]; exact h
    · intro before k v after hp; simp at hp
  | cons e puts ih =>
    intro s hfn M h hall
    obtain ⟨k, v⟩ := e
    obtain ⟨hcfg, hdup, hnew⟩ := put_step hN hfn h k v (hall (k, v) (by simp))
    simp only [List.map_cons, Sink.puts]
    by_cases hM : (M k).isSome = true
    · -- a duplicate
      have hp := hdup hM
      rw [hp]
      obtain ⟨i1, i2, i3, i4⟩ := ih hfn h (fun e he => hall e (by simp [he]))
      refine ⟨i1, ?_, by simp [i3], ?_⟩
      · convert i2 using 1
        funext k'
        rw [firstPut_cons]
        by_cases hk : k = k'
        · subst hk; obtain ⟨w, hw⟩ := Option.isSome_iff_exists.1 hM; simp [hw]
        · simp [hk]
      · intro before k' v' after heq
        cases before with
        | nil =>
          simp only [List.nil_append, List.cons.injEq, Prod.mk.injEq] at heq
          obtain ⟨⟨rfl, rfl⟩, -⟩ := heq
          simp [hM]
        | cons b before =>
          simp only [List.cons_append, List.cons.injEq] at heq
          obtain ⟨rfl, heq⟩ := heq
          obtain ⟨j1, j2⟩ := i4 before k' v' after heq
          simp only [List.length_cons, List.getElem?_cons_succ, List.map_cons, List.mem_cons]
          refine ⟨?_, fun hno => j2 fun hc => hno (hc.elim .inl fun h => .inr (.inr h))⟩
          rintro (hc | rfl | hc)
          · exact j1 (.inl hc)
          · exact j1 (.inl hM)
          · exact j1 (.inr hc)
    · have hM' : (M k).isSome = false := by simpa using hM
      obtain ⟨hok, hinv⟩ := hnew hM'
      obtain ⟨i1, i2, i3, i4⟩ := ih (by rw [hcfg]; exact hfn) hinv (fun e he => hall e (by simp [he]))
      refine ⟨by rw [i1, hcfg], ?_, by simp [i3], ?_⟩
      · convert i2 using 1
        funext k'
        rw [firstPut_cons]
        by_cases hk : k = k'
        · subst hk; simp [Option.not_isSome_iff_eq_none.1 hM]
        · simp [hk, Ne.symm hk]
      · intro before k' v' after heq
        cases before with
        | nil =>
          simp only [List.nil_append, List.cons.injEq, Prod.mk.injEq] at heq
          obtain ⟨⟨rfl, rfl⟩, -⟩ := heq
          simp [hM', hok]
        | cons b before =>
          simp only [List.cons_append, List.cons.injEq] at heq
          obtain ⟨rfl, heq⟩ := heq
          obtain ⟨j1, j2⟩ := i4 before k' v' after heq
          simp only [List.length_cons, List.getElem?_cons_succ, List.map_cons, List.mem_cons]
          constructor
          · rintro (hc | rfl | hc)
            · refine j1 (.inl ?_)
              by_cases hkk : k' = k <;> simp [hkk, hc]
            · exact j1 (.inl (by simp))
            · exact j1 (.inr hc)
          · intro hno
            refine j2 fun hc => hno ?_
            rcases hc with hc | hc
            · by_cases hkk : k' = k
              · exact .inr (.inl hkk)
              · simp only [hkk, if_false] at hc; exact .inl hc
            · exact .inr (.inr hc)

/-- The file holds `M`: the entries, and the key list. -/
structure Holds (cd : Codec V) (fn : Str → Res Str) (ok : Str → Prop) (a : Archive) (M : Str → Option V) : Prop where
  entries : Entries cd fn ok a M
  keys : ∃ ks, readKeysFile a = .ok (some ks) ∧ ks.Nodup ∧ ∀ k, k ∈ ks ↔ (M k).isSome = true
  dom : ∀ k, (M k).isSome = true → ok k

/-- The file holds `M`, or there is none and `M` is empty. -/
def OnDisk (cd : Codec V) (fn : Str → Res Str) (ok : Str → Prop) (disk : Disk) (M : Str → Option V) : Prop :=
  (∃ a, disk = some a ∧ Holds cd fn ok a M) ∨ (disk = none ∧ M = fun _ => none)

theorem session_spec (hN : Naming fn ok) {order : List Str → List Str} (horder : ∀ l, (order l).Perm l) (disk : Disk) (M : Str → Option V)
    (x : Session V) (hdisk : x.overwrite = true ∨ OnDisk cd fn ok disk M) (hall : ∀ e ∈ x.puts, ok e.1)
    (hne : ¬ ∀ k, (afterSession M x.overwrite x.puts k).isSome = true ↔ k = []) :
    ∃ sink a s outs, Sink.create (defaultConfig order fn x.overwrite) = .ok sink ∧
      session disk sink (x.puts.map fun e => (e.1, cd.value e.2)) = .ok (some a, s, outs) ∧
      Holds cd fn ok a (afterSession M x.overwrite x.puts) ∧
      Outcomes (fun k => if x.overwrite then none else M k) x.puts outs := by
  obtain ⟨overwrite, puts⟩ := x
  simp only at *
  let M0 : Str → Option V := fun k => if overwrite then none else M k
  refine ⟨⟨defaultConfig order fn overwrite, .none, []⟩, ?_⟩
  -- entering
  have henter : ∃ s0, Sink.enter disk ⟨defaultConfig order fn overwrite, .none, []⟩ = .ok s0 ∧ s0.cfg = defaultConfig order fn overwrite ∧
      Inv cd fn ok s0 M0 := by
    have hempty : readKeysFile [] = .ok none := rfl
    have hinv0 : Inv cd fn ok ⟨defaultConfig order fn overwrite, .opened [], []⟩ (fun _ => (none : Option V)) :=
      ⟨⟨[], rfl, fun k n _ _ => rfl⟩, by simp, by simp, by simp⟩
    by_cases ho : overwrite = true
    · subst ho
      exact ⟨_, by simp [Sink.enter, defaultConfig, hempty, bind, Except.bind], rfl, hinv0⟩
    · have ho' : overwrite = false := by simpa using ho
      subst ho'
      rcases hdisk.resolve_left (by simp) with ⟨a, rfl, hh⟩ | ⟨rfl, rfl⟩
      · obtain ⟨ks, hks, hnd, hmem⟩ := hh.keys
        refine ⟨⟨defaultConfig order fn false, .opened a, setUpdate [] ks⟩, by simp [Sink.enter, defaultConfig, hks, bind, Except.bind], rfl,
          ⟨a, rfl, hh.entries⟩, ?_, ?_, hh.dom⟩
        · simp only [setUpdate, List.nil_append, List.not_mem_nil, not_false_eq_true, decide_true, List.filter_true]
          exact distinct_nodup _
        · intro k
          simp only [setUpdate, List.nil_append, List.not_mem_nil, not_false_eq_true, decide_true, List.filter_true, distinct_mem, hmem]
          rfl
      · exact ⟨_, by simp [Sink.enter, defaultConfig, hempty, bind, Except.bind], rfl, hinv0⟩
  obtain ⟨s0, hs0, hcfg0, hinv0⟩ := henter
  obtain ⟨p1, p2, p3⟩ := puts_spec hN puts (by rw [hcfg0]; rfl) hinv0 hall
  set s1 := (s0.puts (puts.map fun e => (e.1, cd.value e.2))).1 with hs1
  obtain ⟨⟨a, ha, he⟩, hnd, hkeys, hdom⟩ := p2
  have hM : (fun k => (M0 k).or (firstPut puts k)) = afterSession M overwrite puts := rfl
  -- leaving
  obtain ⟨a', w1, w2, -⟩ := readKeysFile_written order a s1.keys
  obtain ⟨a'', ks', w1', w3, w4, w5⟩ := C57_keys order horder a s1.keys hnd
  rw [w1, Except.ok.injEq] at w1'
  subst w1'
  have hgood : (∀ k, k ∈ ks' ↔ k ∈ s1.keys) := by
    refine w5.2 ⟨fun k hk => hN.lines k (hdom k ((hkeys k).1 hk)), fun h => hne fun k => ?_⟩
    rw [← hM, ← hkeys k, h]; simp
  refine ⟨a', { s1 with zip := .closed }, _, by simp [Sink.create, defaultConfig, checkArg, bind, Except.bind], ?_, ?_, p3⟩
  · have hexit : s1.exit disk = ((some a', { s1 with zip := .closed }), .ok ()) := by
      simp only [Sink.exit, ha, p1, hcfg0, defaultConfig, w1]
    simp only [session, hs0, bind, Except.bind, ← hs1, hexit]
  · refine ⟨?_, ⟨ks', w3, w4, fun k => by rw [hgood, hkeys]; rfl⟩, hdom⟩
    intro k n hk hn
    obtain ⟨n', hn', hne', -⟩ := hN.names k hk
    rw [hn, Except.ok.injEq] at hn'
    subst hn'
    rw [w2 n hne']
    exact he k n hk hn

theorem serves_of_holds (hN : Naming fn ok) {a : Archive} {M : Str → Option V} (h : Holds cd fn ok a M) :
    ∃ src, (Source.create ⟨fn, some readKeysFile, cd.process⟩).enter (some a) = .ok src ∧ Serves src.asSource ok M := by
  obtain ⟨ks, hks, hnd, hmem⟩ := h.keys
  refine ⟨⟨⟨fn, some readKeysFile, cd.process⟩, some a, some ks⟩, by simp [Source.enter, Source.create, hks, bind, Except.bind], ?_, ?_, ?_⟩
  · exact ⟨ks, rfl, hnd, hmem⟩
  · intro k v hv
    have hk := h.dom k (by rw [hv]; rfl)
    obtain ⟨n, hn, -⟩ := hN.names k hk
    have hr := h.entries k n hk hn
    rw [hv] at hr
    simp [Source.asSource, Source.internalGet, hn, hr, cd.reads, bind, Except.bind]
  · intro k hk hv
    obtain ⟨n, hn, -⟩ := hN.names k hk
    have hr := h.entries k n hk hn
    rw [hv] at hr
    simp [Source.asSource, Source.internalGet, hn, hr, bind, Except.bind]

end

/-- Character stores. -/
def charCodec : Codec Str where
  value := .str
  process := decodeUtf8
  bytes := encodeUtf8
  writes v := .inr ⟨v, rfl, rfl⟩
  reads v := decodeUtf8_encode v

/-- Byte stores. -/
def bytesCodec : Codec Bytes where
  value := .bytes
  process b := .ok b
  bytes b := b
  writes _ := .inl rfl
  reads _ := rfl

/-! ## C54, C55 -/

/-- Running sessions one after the other, each with a sink of its own: the file afterwards and the outcomes of the calls of `put`. -/
def runSessions {V : Type} (order : List Str → List Str) (fn : Str → Res Str) (value : V → Value) :
    Disk → List (Session V) → Res (Disk × List (List (Res Unit)))
  | disk, [] => .ok (disk, [])
  | disk, x :: rest => do
    let sink ← Sink.create (defaultConfig order fn x.overwrite)
    let r ← session disk sink (x.puts.map fun e => (e.1, value e.2))
    let r' ← runSessions order fn value r.1 rest
    .ok (r'.1, r.2.2 :: r'.2)

/-- The outcomes of the sessions are as they should be. -/
inductive AllOutcomes {V : Type} : (Str → Option V) → List (Session V) → List (List (Res Unit)) → Prop
  | nil (M : Str → Option V) : AllOutcomes M [] []
  | cons {M : Str → Option V} {x : Session V} {xs : List (Session V)} {outs : List (Res Unit)} {rest : List (List (Res Unit))} :
      Outcomes (fun k => if x.overwrite then none else M k) x.puts outs → AllOutcomes (afterSession M x.overwrite x.puts) xs rest →
      AllOutcomes M (x :: xs) (outs :: rest)

section
variable {V : Type} {fn : Str → Res Str} {allowed : Str → Prop} {order : List Str → List Str}

theorem session_roundtrip (cd : Codec V) (hN : Naming fn allowed) (horder : ∀ l, (order l).Perm l) (overwrite : Bool) (disk : Disk) (hdisk : disk = none ∨ overwrite = true)
    (puts : List (Str × V)) (hall : ∀ e ∈ puts, allowed e.1) (hnd : (puts.map (·.1)).Nodup) (hne : puts.map (·.1) ≠ [[]]) :
    ∃ sink a s, Sink.create (defaultConfig order fn overwrite) = .ok sink ∧
      session disk sink (puts.map fun e => (e.1, cd.value e.2)) = .ok (some a, s, puts.map fun _ => .ok ()) ∧
      ∃ src, (Source.create ⟨fn, some readKeysFile, cd.process⟩).enter (some a) = .ok src ∧
        ∃ M, Serves src.asSource allowed M ∧ ∀ k v, M k = some v ↔ (k, v) ∈ puts := by
  have hM : ∀ k v, firstPut puts k = some v ↔ (k, v) ∈ puts := by
    intro k v
    clear hall hne
    induction puts with
    | nil => simp [firstPut_nil]
    | cons e puts ih =>
      obtain ⟨a, b⟩ := e
      simp only [List.map_cons, List.nodup_cons] at hnd
      rw [firstPut_cons]
      by_cases h : a = k
      · subst h
        simp only [if_true, Option.some.injEq, List.mem_cons, Prod.mk.injEq, true_and]
        refine ⟨fun h => .inl h.symm, fun h => h.elim Eq.symm fun h => absurd (List.mem_map.2 ⟨_, h, rfl⟩) hnd.1⟩
      · simp only [h, if_false, ih hnd.2, List.mem_cons, Prod.mk.injEq, Ne.symm h, false_and, false_or]
  have hstart : (fun k : Str => if overwrite = true then none else (fun _ : Str => (none : Option V)) k) = fun _ => none := by funext k; simp
  have hafter : afterSession (fun _ => (none : Option V)) overwrite puts = firstPut puts := by
    funext k; simp [afterSession]
  obtain ⟨sink, a, s, outs, h1, h2, h3, h4⟩ := session_spec (cd := cd) hN horder disk (fun _ => none) ⟨overwrite, puts⟩
    (hdisk.elim (fun h => .inr (.inr ⟨h, rfl⟩)) .inl) hall (by
      rw [hafter]
      intro h
      have hmem : ∀ k, k ∈ puts.map (·.1) ↔ k = [] := by
        intro k
        rw [← h k]
        constructor
        · intro hk
          obtain ⟨⟨k', v⟩, he, rfl⟩ := List.mem_map.1 hk
          rw [(hM _ _).2 he]; rfl
        · intro hk
          obtain ⟨v, hv⟩ := Option.isSome_iff_exists.1 hk
          exact List.mem_map.2 ⟨_, (hM _ _).1 hv, rfl⟩
      apply hne
      generalize puts.map (·.1) = l at hmem hnd
      match l, hnd, hmem with
      | [], _, hmem => exact absurd ((hmem []).2 rfl) (by simp)
      | [x], _, hmem => rw [(hmem x).1 (by simp)]
      | x :: y :: l, hnd, hmem =>
        rw [(hmem x).1 (by simp), (hmem y).1 (by simp)] at hnd
        simp at hnd)
  have houts : outs = puts.map fun _ => .ok () := by
    rw [hstart] at h4
    obtain ⟨hl, h4⟩ := h4
    simp only at hl
    refine List.ext_getElem? fun i => ?_
    by_cases hi : i < puts.length
    · have hsplit : puts = puts.take i ++ (puts[i].1, puts[i].2) :: puts.drop (i + 1) := by
        show puts = puts.take i ++ puts[i] :: puts.drop (i + 1)
        rw [← List.drop_eq_getElem_cons hi, List.take_append_drop]
      obtain ⟨-, h5⟩ := h4 _ _ _ _ hsplit
      have hlen : (puts.take i).length = i := by simp; omega
      rw [hlen] at h5
      rw [h5, List.getElem?_map, List.getElem?_eq_getElem hi]
      · rfl
      · simp only [Option.isSome_none, Bool.false_eq_true, false_or]
        intro hmem
        rw [hsplit, List.map_append, List.map_cons, List.nodup_append] at hnd
        exact hnd.2.2 _ hmem _ (by simp) rfl
    · rw [List.getElem?_eq_none (by omega), List.getElem?_eq_none (by simp; omega)]
  obtain ⟨src, h5, h6⟩ := serves_of_holds hN h3
  refine ⟨sink, a, s, h1, houts ▸ h2, src, h5, _, h6, ?_⟩
  rw [hafter]; exact hM

/-- Round trip of a character store: a session with distinct keys in which nothing fails; then a source on the same path (with the same
file name function) serves exactly the pairs that were put. -/
theorem C54_char (hN : Naming fn allowed) (horder : ∀ l, (order l).Perm l) (disk : Disk) (overwrite : Bool)
    (hdisk : disk = none ∨ overwrite = true) (puts : List (Str × Str)) (hall : ∀ e ∈ puts, allowed e.1)
    (hnd : (puts.map (·.1)).Nodup) (hne : puts.map (·.1) ≠ [[]]) :
    ∃ sink a s, Sink.create (defaultConfig order fn overwrite) = .ok sink ∧
      session disk sink (puts.map fun e => (e.1, .str e.2)) = .ok (some a, s, puts.map fun _ => .ok ()) ∧
      ∃ src, (Source.create (charConfig fn)).enter (some a) = .ok src ∧
        ∃ M, Serves src.asSource allowed M ∧ ∀ k v, M k = some v ↔ (k, v) ∈ puts :=
  session_roundtrip charCodec hN horder overwrite disk hdisk puts hall hnd hne

/-- The same for a byte store. -/
theorem C54_bytes (hN : Naming fn allowed) (horder : ∀ l, (order l).Perm l) (disk : Disk) (overwrite : Bool)
    (hdisk : disk = none ∨ overwrite = true) (puts : List (Str × Bytes)) (hall : ∀ e ∈ puts, allowed e.1)
    (hnd : (puts.map (·.1)).Nodup) (hne : puts.map (·.1) ≠ [[]]) :
    ∃ sink a s, Sink.create (defaultConfig order fn overwrite) = .ok sink ∧
      session disk sink (puts.map fun e => (e.1, .bytes e.2)) = .ok (some a, s, puts.map fun _ => .ok ()) ∧
      ∃ src, (Source.create (bytesConfig fn)).enter (some a) = .ok src ∧
        ∃ M, Serves src.asSource allowed M ∧ ∀ k v, M k = some v ↔ (k, v) ∈ puts :=
  session_roundtrip bytesCodec hN horder overwrite disk hdisk puts hall hnd hne

theorem runSessions_spec (cd : Codec V) (hN : Naming fn allowed) (horder : ∀ l, (order l).Perm l) (hempty : ¬ allowed []) :
    ∀ (xs : List (Session V)) (disk : Disk) (M : Str → Option V), OnDisk cd fn allowed disk M → (∀ x ∈ xs, ∀ e ∈ x.puts, allowed e.1) →
    ∃ disk' outs, runSessions order fn cd.value disk xs = .ok (disk', outs) ∧ OnDisk cd fn allowed disk' (afterSessions M xs) ∧
      AllOutcomes M xs outs := by
  intro xs
  induction xs with
  | nil => intro disk M h _; exact ⟨disk, [], rfl, h, .nil M⟩
  | cons x xs ih =>
    intro disk M h hall
    have hne : ¬ ∀ k, (afterSession M x.overwrite x.puts k).isSome = true ↔ k = [] := by
      intro hc
      have h0 := (hc []).2 rfl
      simp only [afterSession] at h0
      rw [Option.isSome_or] at h0
      rcases Bool.or_eq_true _ _ ▸ h0 with h0 | h0
      · split at h0
        · simp at h0
        · rcases h with ⟨a, -, hh⟩ | ⟨-, rfl⟩
          · exact hempty (hh.dom [] h0)
          · simp at h0
      · obtain ⟨v, hv⟩ := Option.isSome_iff_exists.1 h0
        simp only [firstPut, Option.map_eq_some_iff] at hv
        obtain ⟨e, he, -⟩ := hv
        have h1 := List.mem_of_find?_eq_some he
        have h2 := List.find?_some he
        simp only [decide_eq_true_eq] at h2
        exact hempty (h2 ▸ hall x (by simp) e h1)
    obtain ⟨sink, a, s, outs, h1, h2, h3, h4⟩ := session_spec (cd := cd) hN horder disk M x (.inr h) (hall x (by simp)) hne
    obtain ⟨disk', rest, i1, i2, i3⟩ := ih (some a) _ (.inl ⟨a, rfl, h3⟩) (fun y hy => hall y (by simp [hy]))
    refine ⟨disk', outs :: rest, ?_, i2, .cons h4 i3⟩
    simp only [runSessions, h1, h2, i1, bind, Except.bind]

/-- Any sequence of sessions on a path, each with a sink of its own, starting without a file: the calls of `put` that raise are exactly
those with a key the store already has (`ValueError`), and afterwards a source serves exactly what the sessions have accumulated (an
overwriting session starts from nothing; the first value put for a key counts).  Keys are not empty. -/
theorem sessions_serve (cd : Codec V) (hN : Naming fn allowed) (horder : ∀ l, (order l).Perm l) (hempty : ¬ allowed []) (xs : List (Session V))
    (hxs : xs ≠ []) (hall : ∀ x ∈ xs, ∀ e ∈ x.puts, allowed e.1) :
    ∃ a outs, runSessions order fn cd.value none xs = .ok (some a, outs) ∧ AllOutcomes (fun _ => none) xs outs ∧
      ∃ src, (Source.create ⟨fn, some readKeysFile, cd.process⟩).enter (some a) = .ok src ∧
        Serves src.asSource allowed (afterSessions (fun _ => none) xs) := by
  obtain ⟨disk', outs, h1, h2, h3⟩ := runSessions_spec cd hN horder hempty xs none (fun _ => none) (.inr ⟨rfl, rfl⟩) hall
  rcases h2 with ⟨a, rfl, hh⟩ | ⟨rfl, -⟩
  · obtain ⟨src, h5, h6⟩ := serves_of_holds hN hh
    exact ⟨a, outs, h1, h3, src, h5, h6⟩
  · exfalso
    clear h3 hall
    have : ∀ (xs : List (Session V)) (disk : Disk) (outs), (xs ≠ [] ∨ disk ≠ none) → runSessions order fn cd.value disk xs ≠ .ok (none, outs) := by
      intro xs
      induction xs with
      | nil => intro disk outs h hc; simp [runSessions] at hc; exact h.elim (fun h => h rfl) (fun h => h hc.1)
      | cons x xs ih =>
        intro disk outs _ hc
        simp only [runSessions, bind, Except.bind] at hc
        split at hc
        · simp at hc
        split at hc
        · simp at hc
        rename_i r hr
        split at hc
        · simp at hc
        rename_i r' hr'
        simp only [Except.ok.injEq, Prod.mk.injEq] at hc
        refine ih r.1 r'.2 (.inr ?_) (by rw [hr', ← hc.1])
        simp only [session, bind, Except.bind] at hr
        split at hr
        · simp at hr
        rename_i sink hsink s hs
        split at hr
        · simp at hr
        rename_i u hu
        simp only [Except.ok.injEq] at hr
        rw [← hr]
        have hopen : ∀ (cs : List (Str × Value)) (s : Sink), (∃ a, s.zip = .opened a) → ∃ a, (s.puts cs).1.zip = .opened a := by
          intro cs
          induction cs with
          | nil => intro s h; exact h
          | cons c cs ih =>
            intro s h
            rw [Sink.puts]
            refine ih _ ?_
            obtain ⟨a, ha⟩ := h
            simp only [Sink.put, ha]
            split
            · exact ⟨a, ha⟩
            · split
              · exact ⟨a, ha⟩
              · split
                · exact ⟨a, rfl⟩
                · split <;> simp only [Sink.write, ha] <;> exact ⟨_, rfl⟩
        have hs0 : ∃ a, s.zip = .opened a := by
          simp only [Sink.enter] at hs
          split at hs
          · simp only [Except.ok.injEq] at hs; rw [← hs]; exact ⟨_, rfl⟩
          · simp only [bind, Except.bind] at hs
            split at hs
            · simp at hs
            · split at hs <;> (simp only [Except.ok.injEq] at hs; rw [← hs]; exact ⟨_, rfl⟩)
        obtain ⟨a, ha⟩ := hopen (x.puts.map fun e => (e.1, cd.value e.2)) s hs0
        simp only [Sink.exit, ha] at hu ⊢
        split
        · simp
        · rename_i f hf
          rw [hf] at hu
          simp only at hu
          split
          · simp
          · rename_i e he
            rw [he] at hu
            simp at hu
    exact this xs none outs (.inl hxs) h1

/-- Character stores. -/
theorem C55_char (hN : Naming fn allowed) (horder : ∀ l, (order l).Perm l) (hempty : ¬ allowed []) (xs : List (Session Str))
    (hxs : xs ≠ []) (hall : ∀ x ∈ xs, ∀ e ∈ x.puts, allowed e.1) :
    ∃ a outs, runSessions order fn .str none xs = .ok (some a, outs) ∧ AllOutcomes (fun _ => none) xs outs ∧
      ∃ src, (Source.create (charConfig fn)).enter (some a) = .ok src ∧ Serves src.asSource allowed (afterSessions (fun _ => none) xs) :=
  sessions_serve charCodec hN horder hempty xs hxs hall

/-- Byte stores. -/
theorem C55_bytes (hN : Naming fn allowed) (horder : ∀ l, (order l).Perm l) (hempty : ¬ allowed []) (xs : List (Session Bytes))
    (hxs : xs ≠ []) (hall : ∀ x ∈ xs, ∀ e ∈ x.puts, allowed e.1) :
    ∃ a outs, runSessions order fn .bytes none xs = .ok (some a, outs) ∧ AllOutcomes (fun _ => none) xs outs ∧
      ∃ src, (Source.create (bytesConfig fn)).enter (some a) = .ok src ∧ Serves src.asSource allowed (afterSessions (fun _ => none) xs) :=
  sessions_serve bytesCodec hN horder hempty xs hxs hall

end

/-! ## C56 -/

/-- A `put` of a key the sink already has, or of `None`, raises `ValueError` and changes nothing; before the sink is entered, `put`
raises `AssertionError` and changes nothing. -/
theorem C56_rejected (s : Sink) (k : Str) (v : Value) :
    (s.zip = .none → s.put k v = (s, .error .assertionError)) ∧
    (s.zip ≠ .none → v = .none ∨ k ∈ s.keys → s.put k v = (s, .error .valueError)) := by
  refine ⟨fun h => by simp only [Sink.put, h], fun h hv => ?_⟩
  cases hz : s.zip with
  | none => exact absurd hz h
  | opened a =>
    simp only [Sink.put, hz]
    rcases hv with rfl | hk
    · rfl
    · cases v <;> simp [hk]
  | closed =>
    simp only [Sink.put, hz]
    rcases hv with rfl | hk
    · rfl
    · cases v <;> simp [hk]

/-- A session with calls of `put` that are rejected leaves the same file as without them. -/
theorem C56_unchanged (disk : Disk) (sink : Sink) (before after : List (Str × Value)) (k : Str) (v : Value) (s : Sink)
    (hs : sink.enter disk = .ok s) (hrej : (s.puts before).1.put k v = ((s.puts before).1, .error .valueError)) :
    (session disk sink (before ++ (k, v) :: after)).map (fun r => (r.1, r.2.1)) =
    (session disk sink (before ++ after)).map (fun r => (r.1, r.2.1)) := by
  have happ : ∀ (cs ds : List (Str × Value)) (t : Sink), (t.puts (cs ++ ds)).1 = ((t.puts cs).1.puts ds).1 := by
    intro cs
    induction cs with
    | nil => intro ds t; rfl
    | cons c cs ih => intro ds t; obtain ⟨a, b⟩ := c; simp only [List.cons_append, Sink.puts]; exact ih ds _
  have h1 : (s.puts (before ++ (k, v) :: after)).1 = (s.puts (before ++ after)).1 := by
    rw [happ, happ, Sink.puts, hrej]
  simp only [session, hs, bind, Except.bind, h1]
  cases ((s.puts (before ++ after)).1.exit disk).2 <;> rfl

/-! ### Concrete cases -/

namespace Example

/-- The default file name function: the key itself. -/
def ident : Str → Res Str := fun k => .ok k

/-- It is fine for keys that are not `__keys` and contain neither a line feed nor NUL. -/
def plainKey (k : Str) : Prop := k ≠ "__keys".toList ∧ '\n' ∉ k ∧ '\x00' ∉ k ∧ k ≠ []

theorem naming : Naming ident plainKey where
  names k h := ⟨k, rfl, h.1, h.2.2.1⟩
  injective k k' n _ _ h h' := by
    simp only [ident, Except.ok.injEq] at h h'; rw [h, h']
  lines k h := h.2.1

/-- Two sessions, the second appending: the keys add up, the duplicate is rejected. -/
example : (match runSessions List.reverse ident Value.str none
      [⟨true, [("a".toList, "1".toList), ("b".toList, "2".toList)]⟩, ⟨false, [("c".toList, "3".toList), ("a".toList, "9".toList)]⟩] with
    | .ok (some a, outs) =>
      (match (Source.create (charConfig ident)).enter (some a) with
        | .ok src =>
          (match src.asSource.getItem "a".toList with | .ok v => v == "1".toList | _ => false) &&
          (match src.asSource.getItem "c".toList with | .ok v => v == "3".toList | _ => false) &&
          (match src.asSource.getItem "d".toList with | .error e => e == .keyError | _ => false) &&
          (match src.asSource.keys with | .ok (some ks) => ks.length == 3 | _ => false) &&
          outs.map (fun o => o.map fun r => match r with | .ok _ => true | .error _ => false) == [[true, true], [true, false]]
        | .error _ => false)
    | _ => false) = true := by decide +kernel

/-- Keys that satisfy the conditions of C55. -/
example : plainKey "a".toList ∧ ¬ plainKey [] ∧ ∀ l : List Str, l.reverse.Perm l :=
  ⟨by unfold plainKey; decide, by unfold plainKey; simp, List.reverse_perm⟩

/-- Counterexample: a value that is neither a string nor bytes is rejected, but its key is listed; iterating over the store then
fails. -/
theorem _root_.Vista.Zip.C56_bad_value_counterexample :
    (match session none ⟨defaultConfig id ident true, .none, []⟩ [("a".toList, .other)] with
    | .ok (some a, _, outs) =>
      outs.map (fun r => match r with | .ok _ => true | .error _ => false) == [false] &&
      (match (Source.create (charConfig ident)).enter (some a) with
        | .ok src => (match src.asSource.keys with | .ok (some ks) => ks == ["a".toList] | _ => false) &&
          (match src.asSource.getItem "a".toList with | .error e => e == .keyError | _ => false)
        | .error _ => false)
    | _ => false) = true := by decide +kernel

/-- Counterexample: one sink object used for two overwriting sessions keeps the keys of the first: putting the same key again raises,
and the store lists a key it does not have. -/
theorem _root_.Vista.Zip.C55_reuse_counterexample :
    (match session none ⟨defaultConfig id ident true, .none, []⟩ [("a".toList, .str "1".toList)] with
    | .ok (disk, sink, _) =>
      (match session disk sink [("a".toList, .str "2".toList)] with
        | .ok (some a, _, outs) =>
          outs.map (fun r => match r with | .ok _ => true | .error _ => false) == [false] &&
          (match (Source.create (charConfig ident)).enter (some a) with
            | .ok src => (match src.asSource.keys with | .ok (some ks) => ks == ["a".toList] | _ => false) &&
              (match src.asSource.getItem "a".toList with | .error e => e == .keyError | _ => false)
            | .error _ => false)
        | _ => false)
    | .error _ => false) = true := by decide +kernel

/-- Counterexample: with a file name function that is not injective, a later put replaces the value of another key without an error. -/
theorem _root_.Vista.Zip.C54_collision_counterexample :
    (match session none ⟨defaultConfig id (fun _ => .ok "f".toList) true, .none, []⟩
        [("a".toList, .str "1".toList), ("b".toList, .str "2".toList)] with
    | .ok (some a, _, outs) =>
      outs.all (fun r => match r with | .ok _ => true | .error _ => false) &&
      (match (Source.create (charConfig (fun _ => .ok "f".toList))).enter (some a) with
        | .ok src => (match src.asSource.getItem "a".toList with | .ok v => v == "2".toList | _ => false)
        | .error _ => false)
    | _ => false) = true := by decide +kernel

/-- Counterexample: the key `__keys` is accepted, and lost when the key list is written. -/
theorem _root_.Vista.Zip.C54_reserved_counterexample :
    (match session none ⟨defaultConfig id ident true, .none, []⟩ [("__keys".toList, .str "1".toList)] with
    | .ok (some a, _, outs) =>
      outs.all (fun r => match r with | .ok _ => true | .error _ => false) &&
      (match (Source.create (charConfig ident)).enter (some a) with
        | .ok src => (match src.asSource.getItem "__keys".toList with | .ok v => v == "__keys".toList | _ => false)
        | .error _ => false)
    | _ => false) = true := by decide +kernel

/-- Counterexample: after the block, `put` raises `ValueError` but records the key, so a later session of the same sink lists it. -/
theorem _root_.Vista.Zip.C56_after_exit_counterexample :
    (match session none ⟨defaultConfig id ident true, .none, []⟩ [] with
    | .ok (disk, sink, _) =>
      (match (sink.put "a".toList (.str "1".toList)).2 with | .error e => e == .valueError | .ok _ => false) &&
      (match session disk (sink.put "a".toList (.str "1".toList)).1 [] with
        | .ok (some a, _, _) => (match readKeysFile a with | .ok (some ks) => ks == ["a".toList] | _ => false)
        | _ => false)
    | .error _ => false) = true := by decide +kernel

end Example

end Zip
end Vista
