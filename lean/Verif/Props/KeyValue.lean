import Verif.Spec.KeyValue
import Verif.Proofs.Prelude
import Verif.Proofs.PyDict

/-!
# C58-C60: key-value sources
-/
set_option linter.unusedSectionVars false
set_option linter.unusedSimpArgs false
namespace Vista

/-! ## C58 -/

/-- What a generator of items yields, without an exception: one pair for each item. -/
theorem Emits.all {α β : Type} {good : α → β → Prop} {bad : α → Exc → Prop} {xs : List α} {g : Gen β} (h : Emits good bad xs g)
    (hb : ∀ x ∈ xs, ∀ e, ¬ bad x e) : g.raised = none ∧ List.Forall₂ good xs g.yielded := by
  induction h with
  | done => exact ⟨rfl, .nil⟩
  | item h _ ih =>
    obtain ⟨h1, h2⟩ := ih fun x hx => hb x (by simp [hx])
    exact ⟨h1, .cons h h2⟩
  | fails h => exact absurd h (hb _ (by simp) _)

/-- Without a key listing, iteration raises `NotImplementedError`; otherwise `items(filter)` yields `(k, source[k])` for the keys that
pass the filter, in the order of `keys()`, until a lookup fails. -/
theorem C58_items {V : Type} (s : KVSource V) (keep : Str → Bool) :
    (∀ e, s.keys = .error e → s.items keep = .error e) ∧
    (s.keys = .ok none → s.items keep = .error .notImplementedError) ∧
    (∀ ks, s.keys = .ok (some ks) → ∃ g, s.items keep = .ok g ∧
      Emits (fun k p => p.1 = k ∧ s.getItem k = .ok p.2) (fun k e => s.getItem k = .error e) (ks.filter keep) g) := by
  refine ⟨fun e h => by simp [KVSource.items, h, bind, Except.bind], fun h => by simp [KVSource.items, h, bind, Except.bind], fun ks h => ?_⟩
  refine ⟨itemsLoop s.getItem keep ks, by simp [KVSource.items, h, bind, Except.bind], ?_⟩
  clear h
  induction ks with
  | nil => exact .done
  | cons k ks ih =>
    rw [itemsLoop]
    by_cases hk : keep k = true
    · rw [List.filter_cons_of_pos hk, if_pos hk]
      cases hg : s.getItem k with
      | ok v => exact .item ⟨rfl, hg⟩ ih
      | error e => exact .fails hg
    · rw [List.filter_cons_of_neg hk, if_neg hk]
      exact ih

/-- If all the keys have values, `items(filter)` yields exactly the pairs of the keys that pass the filter, in order. -/
theorem C58_items_complete {V : Type} (s : KVSource V) (keep : Str → Bool) (ks : List Str) (h : s.keys = .ok (some ks))
    (hv : ∀ k ∈ ks, keep k = true → ∃ v, s.getItem k = .ok v) :
    ∃ g, s.items keep = .ok g ∧ g.raised = none ∧ g.yielded.map (·.1) = ks.filter keep ∧ ∀ k v, (k, v) ∈ g.yielded → s.getItem k = .ok v := by
  obtain ⟨g, h1, h2⟩ := (C58_items s keep).2.2 ks h
  have hall := h2.all (by
    intro k hk e he
    obtain ⟨hk1, hk2⟩ := List.mem_filter.1 hk
    obtain ⟨v, hv⟩ := hv k hk1 hk2
    rw [he] at hv; simp at hv)
  refine ⟨g, h1, hall.1, ?_, ?_⟩
  · have := hall.2
    revert this
    generalize ks.filter keep = l
    generalize g.yielded = ps
    intro h
    induction h with
    | nil => rfl
    | cons h _ ih => simp [h.1, ih]
  · have := hall.2
    revert this
    generalize ks.filter keep = l
    generalize g.yielded = ps
    intro h k v hm
    induction h with
    | nil => simp at hm
    | cons h _ ih =>
      rcases List.mem_cons.1 hm with rfl | hm
      · simp only at h; rw [h.1]; exact h.2
      · exact ih hm

/-- Sources over files listed in a mapping: `keys()` are the ids, `source[id]` reads the file, another key is a `KeyError`; and `get`
agrees. -/
theorem C58_path_mapping {V : Type} (read : Str → Res V) (hread : ∀ p, read p ≠ .error .keyError) (m : List (Str × Str))
    (hm : (m.map (·.1)).Nodup) :
    (pathMapping read m).keys = .ok (some (m.map (·.1))) ∧
    (∀ k p, (k, p) ∈ m → (pathMapping read m).getItem k = read p) ∧
    (∀ k, k ∉ m.map (·.1) → (pathMapping read m).getItem k = .error .keyError) ∧
    (pathMapping read m).Agrees := by
  have hget : ∀ k p, dictGet m k = some p ↔ (k, p) ∈ m := fun k p => dictGet_iff hm k p
  have hnone : ∀ k, k ∉ m.map (·.1) → dictGet m k = none := by
    intro k hk
    cases h : dictGet m k with
    | none => rfl
    | some p => exact absurd (List.mem_map.2 ⟨_, (hget k p).1 h, rfl⟩) hk
  refine ⟨rfl, ?_, ?_, ?_⟩
  · intro k p h
    simp only [pathMapping, (hget k p).2 h]
  · intro k h
    simp only [pathMapping, hnone k h]
  · intro D k d
    simp only [pathMapping]
    cases h : dictGet m k with
    | none => exact ⟨fun v h => by simp at h, fun _ => rfl, fun e he h => by simp only [Except.error.injEq] at h; exact absurd h.symm he⟩
    | some p =>
      simp only [Option.isSome_some, if_true, bind, Except.bind]
      refine ⟨fun v hv => by rw [hv], fun he => absurd he (hread p), fun e _ he => by rw [he]⟩

/-- Reading a file as text or bytes never raises `KeyError` (if opening it does not). -/
theorem readTextFile_not_keyError {files : Files} (hf : ∀ p, files p ≠ .error .keyError) (p : Str) : readTextFile files p ≠ .error .keyError := by
  intro h
  simp only [readTextFile, bind, Except.bind] at h
  split at h
  · rename_i e he
    rw [Except.error.injEq] at h
    exact hf p (by rw [he, h])
  · split at h
    · rename_i e he
      simp only [decodeUtf8] at he
      split at he
      · simp at he
      · simp only [Except.error.injEq] at he h
        rw [← he] at h
        simp at h
    · simp at h

/-- A zip source that has been entered: `get` agrees with `[]`. -/
theorem C58_zip {V : Type} (s : Zip.Source V) (a : Zip.Archive) (hs : s.zip = some a) (hfn : ∀ k, s.cfg.filename k ≠ .error .keyError)
    (hp : ∀ b, s.cfg.process b ≠ .error .keyError) : s.asSource.Agrees := by
  intro D k d
  simp only [Zip.Source.asSource, Zip.Source.internalGet, hs, bind, Except.bind]
  cases hf : s.cfg.filename k with
  | error e =>
    refine ⟨fun v h => by simp at h, fun h => ?_, fun e' _ h => by simpa using h⟩
    simp only [Except.error.injEq] at h
    exact absurd (h ▸ hf) (hfn k)
  | ok n =>
    simp only
    cases hr : Zip.readEntry a n with
    | ok b =>
      simp only
      cases hpb : s.cfg.process b with
      | ok v => simp
      | error e =>
        refine ⟨fun v h => by simp at h, fun h => ?_, fun e' _ h => by simpa using h⟩
        simp only [Except.error.injEq] at h
        exact absurd (h ▸ hpb) (hp b)
    | error e =>
      cases e <;> simp [eq_comm]

/-- Outside a `with` block a zip source raises `AssertionError` for everything. -/
theorem C58_zip_not_entered {V : Type} (s : Zip.Source V) (hs : s.zip = none) :
    s.asSource.keys = .error .assertionError ∧ (∀ k, s.asSource.getItem k = .error .assertionError) ∧
    ∀ D k (d : D), s.asSource.get D k d = .error .assertionError := by
  simp [Zip.Source.asSource, Zip.Source.internalGet, hs, bind, Except.bind]

/-! ## C59 -/

/-- Interpreting the values of a source: the same keys; the value of a key is the function applied to the key and the wrapped value;
`get` agrees with `[]` if it did in the wrapped source (in particular the default is never interpreted). -/
theorem C59_interpreted {T V : Type} (s : KVSource T) (f : Str → T → Res V) :
    (s.interpret f).keys = s.keys ∧
    (∀ k v, (s.interpret f).getItem k = .ok v ↔ ∃ x, s.getItem k = .ok x ∧ f k x = .ok v) ∧
    (∀ k e, (s.interpret f).getItem k = .error e ↔ s.getItem k = .error e ∨ ∃ x, s.getItem k = .ok x ∧ f k x = .error e) ∧
    (s.Agrees → (∀ k x, f k x ≠ .error .keyError) → (s.interpret f).Agrees) := by
  refine ⟨rfl, ?_, ?_, ?_⟩
  · intro k v
    simp only [KVSource.interpret, bind, Except.bind]
    cases s.getItem k <;> simp
  · intro k v
    simp only [KVSource.interpret, bind, Except.bind]
    cases s.getItem k <;> simp
  · intro hs hf D k d
    obtain ⟨h1, h2, h3⟩ := hs Unit k ()
    simp only [KVSource.interpret, bind, Except.bind]
    cases hg : s.getItem k with
    | error e =>
      by_cases he : e = .keyError
      · subst he
        simp [h2 hg, eq_comm]
      · refine ⟨fun v h => by simp at h, fun h => ?_, fun e' _ h => ?_⟩
        · simp only [Except.error.injEq] at h; exact absurd h he
        · simp only [Except.error.injEq] at h; rw [h3 e he hg, h]
    | ok x =>
      simp only [h1 x hg]
      refine ⟨fun v h => by rw [h], fun h => absurd h (hf k x), fun e' _ h => by rw [h]⟩

/-- With a default: found values are interpreted, the default is returned as it is. -/
theorem C59_get {T V D : Type} (s : KVSource T) (f : Str → T → Res V) (k : Str) (d : D) :
    (∀ x, s.get Unit k () = .ok (.inl x) → (s.interpret f).get D k d = (f k x).map .inl) ∧
    (s.get Unit k () = .ok (.inr ()) → (s.interpret f).get D k d = .ok (.inr d)) := by
  refine ⟨fun x h => ?_, fun h => ?_⟩
  · simp only [KVSource.interpret, bind, Except.bind, h]
    cases f k x <;> rfl
  · simp only [KVSource.interpret, bind, Except.bind, h]

/-- Interpreting twice is interpreting with the composed function. -/
theorem C59_compose {T U V : Type} (s : KVSource T) (f : Str → T → Res U) (g : Str → U → Res V) :
    (s.interpret f).interpret g = s.interpret fun k x => (f k x).bind (g k) := by
  simp only [KVSource.interpret, KVSource.mk.injEq, true_and]
  constructor
  · funext k
    simp only [bind, Except.bind]
    cases s.getItem k <;> simp
  · funext D k d
    simp only [bind, Except.bind]
    cases s.get Unit k () with
    | error e => rfl
    | ok r =>
      cases r with
      | inr u => rfl
      | inl x => simp only; cases f k x <;> rfl

theorem interpretLoop_emits {T V : Type} (f : Str → T → Res V) (e : Option Exc) (ps : List (Str × T)) :
    (∃ ys, List.Forall₂ (fun p q => q.1 = p.1 ∧ f p.1 p.2 = .ok q.2) ps ys ∧ interpretLoop f e ps = ⟨ys, e⟩) ∨
    (∃ before p after ys x, ps = before ++ p :: after ∧ List.Forall₂ (fun p q => q.1 = p.1 ∧ f p.1 p.2 = .ok q.2) before ys ∧
      f p.1 p.2 = .error x ∧ interpretLoop f e ps = ⟨ys, some x⟩) := by
  induction ps with
  | nil => exact .inl ⟨[], .nil, rfl⟩
  | cons p ps ih =>
    obtain ⟨k, x⟩ := p
    rw [interpretLoop]
    cases hf : f k x with
    | error y => exact .inr ⟨[], (k, x), ps, [], y, rfl, .nil, hf, rfl⟩
    | ok v =>
      rcases ih with ⟨ys, h1, h2⟩ | ⟨before, q, after, ys, y, rfl, h1, h2, h3⟩
      · exact .inl ⟨(k, v) :: ys, .cons ⟨rfl, hf⟩ h1, by simp only [h2]⟩
      · exact .inr ⟨(k, x) :: before, q, after, (k, v) :: ys, y, rfl, .cons ⟨rfl, hf⟩ h1, h2, by simp only [h3]⟩

/-- Interpreting a linear source: the pairs of the wrapped source in the same order with interpreted values, until the function
raises; then that exception; otherwise whatever ended the wrapped generator. -/
theorem C59_linear {T V : Type} (s : LinearSource T) (f : Str → T → Res V) (keep : Str → Bool) :
    (∀ e, s keep = .error e → interpretLinear s f keep = .ok ⟨[], some e⟩) ∧
    (∀ g, s keep = .ok g → ∃ g', interpretLinear s f keep = .ok g' ∧
      ((List.Forall₂ (fun p q => q.1 = p.1 ∧ f p.1 p.2 = .ok q.2) g.yielded g'.yielded ∧ g'.raised = g.raised) ∨
       ∃ before p after x, g.yielded = before ++ p :: after ∧
        List.Forall₂ (fun p q => q.1 = p.1 ∧ f p.1 p.2 = .ok q.2) before g'.yielded ∧ f p.1 p.2 = .error x ∧ g'.raised = some x)) := by
  refine ⟨fun e h => by simp only [interpretLinear, h], fun g h => ⟨interpretLoop f g.raised g.yielded, by simp only [interpretLinear, h], ?_⟩⟩
  rcases interpretLoop_emits f g.raised g.yielded with ⟨ys, h1, h2⟩ | ⟨before, p, after, ys, x, h0, h1, h2, h3⟩
  · rw [h2]; exact .inl ⟨h1, rfl⟩
  · rw [h3]; exact .inr ⟨before, p, after, x, h0, h1, h2, rfl⟩

/-- Interpreting a linear source twice is interpreting it with the composed function. -/
theorem C59_linear_compose {T U V : Type} (s : LinearSource T) (f : Str → T → Res U) (g : Str → U → Res V) :
    interpretLinear (interpretLinear s f) g = interpretLinear s fun k x => (f k x).bind (g k) := by
  funext keep
  simp only [interpretLinear]
  cases s keep with
  | error e => rfl
  | ok gen =>
    simp only [Except.ok.injEq]
    generalize gen.yielded = ps
    induction ps with
    | nil => rfl
    | cons p ps ih =>
      obtain ⟨k, x⟩ := p
      rw [interpretLoop, interpretLoop]
      cases hf : f k x with
      | error e => simp [Except.bind, interpretLoop]
      | ok u =>
        simp only [Except.bind]
        rw [interpretLoop]
        cases hg : g k u with
        | error e => rfl
        | ok v =>
          simp only [Except.bind] at ih
          simp only [ih]

/-- A source's items are interpreted like those of any linear source: both ways of interpreting agree, unless keys or a lookup
raise. -/
theorem C59_items {T V : Type} (s : KVSource T) (f : Str → T → Res V) (keep : Str → Bool) (ks : List Str) (hk : s.keys = .ok (some ks)) :
    (s.interpret f).items keep = interpretLinear s.items f keep := by
  simp only [KVSource.items, KVSource.interpret, hk, bind, Except.bind, interpretLinear, Except.ok.injEq]
  clear hk
  induction ks with
  | nil => rfl
  | cons k ks ih =>
    simp only [itemsLoop]
    by_cases hkeep : keep k = true
    · simp only [hkeep, if_true]
      cases hg : s.getItem k with
      | error e => rfl
      | ok x =>
        simp only [interpretLoop]
        cases hf : f k x with
        | error e => rfl
        | ok v => simp only [ih]
    · simp only [hkeep, Bool.false_eq_true, if_false]
      exact ih

/-! ## C60 -/

open Classical in
/-- Iterating over a tar source yields, in the order of the archive, the key and the content of exactly the members that are offered
(regular files whose name passes the filter and whose key is not empty and passes the key filter), until one cannot be read. -/
theorem C60_items (ms : List TarMember) (keyFunction : Str → Option Str) (nameFilter keep : Str → Bool) :
    ∃ g, tarItems (some ms) keyFunction nameFilter keep = .ok g ∧
      Emits (fun m q => Offered keyFunction nameFilter keep m q.1 ∧ m.extract = .ok (some q.2))
        (fun m e => m.extract = .error e ∨ (m.extract = .ok none ∧ e = .ioError))
        (ms.filter fun m => decide (∃ key, Offered keyFunction nameFilter keep m key)) g := by
  simp only [tarItems, Except.ok.injEq, exists_eq_left']
  induction ms with
  | nil => exact .done
  | cons m ms ih =>
    by_cases hm : ∃ key, Offered keyFunction nameFilter keep m key
    · rw [List.filter_cons_of_pos (by simpa using hm)]
      obtain ⟨key, hm⟩ := hm
      have hm' := hm
      obtain ⟨a1, a2, a3, a4, a5⟩ := hm
      simp only [tarLoop, a1, a2, a3, Bool.and_self, if_true]
      have : (!key.isEmpty && keep key) = true := by
        simp only [a5, Bool.and_true, Bool.not_eq_true', List.isEmpty_eq_false_iff]; exact a4
      simp only [this, if_true]
      cases he : m.extract with
      | error e => exact .fails (.inl he)
      | ok o =>
        cases o with
        | none => exact .fails (.inr ⟨he, rfl⟩)
        | some data => exact .item ⟨hm', he⟩ ih
    · rw [List.filter_cons_of_neg (by simpa using hm)]
      have hskip : tarLoop keyFunction nameFilter keep (m :: ms) = tarLoop keyFunction nameFilter keep ms := by
        rw [tarLoop]
        split
        · rename_i hc
          simp only [Bool.and_eq_true] at hc
          cases hk : keyFunction m.name with
          | none => rfl
          | some key =>
            simp only
            split
            · rename_i hc'
              simp only [Bool.and_eq_true, Bool.not_eq_true', List.isEmpty_eq_false_iff] at hc'
              exact absurd ⟨key, hc.1, hc.2, hk, hc'.1, hc'.2⟩ hm
            · rfl
        · rfl
      rw [hskip]
      exact ih

/-- Before it is entered, a tar source raises `AssertionError`. -/
theorem C60_not_entered (keyFunction : Str → Option Str) (nameFilter keep : Str → Bool) :
    tarItems none keyFunction nameFilter keep = .error .assertionError := rfl

theorem decodeUtf8_encode (s : Str) : decodeUtf8 (encodeUtf8 s) = .ok s := by
  simp [decodeUtf8, encodeUtf8]

/-- A tar source read as text: the members are those of the byte source, and a value is the text whose UTF-8 encoding is the
content. -/
theorem C60_text (ms : List TarMember) (keyFunction : Str → Option Str) (nameFilter keep : Str → Bool) (g : Gen (Str × Bytes))
    (hg : tarItems (some ms) keyFunction nameFilter keep = .ok g) (ps : List (Str × Str))
    (hps : List.Forall₂ (fun (p : Str × Bytes) q => q.1 = p.1 ∧ p.2 = encodeUtf8 q.2) g.yielded ps) :
    tarTextItems (some ms) keyFunction nameFilter keep = .ok ⟨ps, g.raised⟩ := by
  simp only [tarTextItems, interpretLinear, hg, Except.ok.injEq]
  generalize g.yielded = ys at hps
  induction hps with
  | nil => rfl
  | @cons p q ys ps h _ ih =>
    obtain ⟨k, b⟩ := p
    obtain ⟨k', t⟩ := q
    simp only at h
    obtain ⟨rfl, rfl⟩ := h
    simp only [interpretLoop, decodeUtf8_encode, ih]

/-- A member whose content is not UTF-8 ends the items with a `ValueError` (`UnicodeDecodeError`); what comes before it is given. -/
theorem C60_text_undecodable (ms : List TarMember) (keyFunction : Str → Option Str) (nameFilter keep : Str → Bool) (g : Gen (Str × Bytes))
    (hg : tarItems (some ms) keyFunction nameFilter keep = .ok g) (before after : List (Str × Bytes)) (k : Str) (b : Bytes)
    (hy : g.yielded = before ++ (k, b) :: after) (hb : ¬ ∃ s, b = encodeUtf8 s) (ps : List (Str × Str))
    (hps : List.Forall₂ (fun (p : Str × Bytes) q => q.1 = p.1 ∧ p.2 = encodeUtf8 q.2) before ps) :
    tarTextItems (some ms) keyFunction nameFilter keep = .ok ⟨ps, some .valueError⟩ := by
  have hd : decodeUtf8 b = .error .valueError := by
    unfold decodeUtf8
    cases h : b.utf8Decode? with
    | none => rfl
    | some a =>
      refine absurd ⟨a.toList, ?_⟩ hb
      have hv : b.IsValidUTF8 := by
        rw [← ByteArray.isSome_utf8Decode?_iff]; simp [h]
      obtain ⟨l, rfl⟩ := hv
      rw [List.utf8Decode?_utf8Encode] at h
      obtain rfl := Option.some.inj h
      simp [encodeUtf8]
  simp only [tarTextItems, interpretLinear, hg, Except.ok.injEq, hy]
  clear hy
  induction hps with
  | nil => simp only [List.nil_append, interpretLoop, hd]
  | @cons p q ys ps h _ ih =>
    obtain ⟨k, b⟩ := p
    obtain ⟨k', t⟩ := q
    simp only at h
    obtain ⟨rfl, rfl⟩ := h
    simp only [List.cons_append, interpretLoop, decodeUtf8_encode, ih]

/-! ### Concrete cases -/

namespace KVExample

/-- A source over two files, one of which is missing. -/
def files : Files := fun p => if p = "/f".toList then .ok (encodeUtf8 "é\r\nx\ry".toList) else .error .ioError

def src : KVSource Str := pathMapping (readTextFile files) [("a".toList, "/f".toList), ("b".toList, "/g".toList)]

example : (∀ p, files p ≠ .error .keyError) := by
  intro p; unfold files; split <;> simp

/-- Line ends are translated when a file is read as text. -/
example : src.getItem "a".toList = .ok "é\nx\ny".toList := by decide +kernel
example : (match src.items (fun _ => true) with | .ok g => g.yielded == [("a".toList, "é\nx\ny".toList)] && g.raised == some .ioError | .error _ => false) = true := by
  decide +kernel
example : (match src.items (fun k => k == "a".toList) with | .ok g => g.yielded.length == 1 && g.raised == none | .error _ => false) = true := by
  decide +kernel
example : (match src.get Nat "c".toList 5 with | .ok (.inr n) => n == 5 | _ => false) = true := by decide +kernel

/-- A tar archive with a directory, a file that is filtered, an unkeyed file, and two files. -/
def members : List TarMember := [⟨"d".toList, false, .ok none⟩, ⟨"x.txt".toList, true, .ok (some (encodeUtf8 "X".toList))⟩,
  ⟨"skip".toList, true, .ok none⟩, ⟨"".toList, true, .ok none⟩, ⟨"y.txt".toList, true, .ok (some (encodeUtf8 "Y".toList))⟩]

example : (match tarTextItems (some members) some (fun n => n != "skip".toList) (fun _ => true) with
    | .ok g => g.yielded == [("x.txt".toList, "X".toList), ("y.txt".toList, "Y".toList)] && g.raised == none
    | .error _ => false) = true := by decide +kernel

/-- An archive with a text, and then a file that is not UTF-8. -/
def badMembers : List TarMember := [⟨"x".toList, true, .ok (some (encodeUtf8 "X".toList))⟩, ⟨"y".toList, true, .ok (some ⟨#[255]⟩)⟩,
  ⟨"z".toList, true, .ok (some (encodeUtf8 "Z".toList))⟩]

example : (match tarTextItems (some badMembers) some (fun _ => true) (fun _ => true) with
    | .ok g => g.yielded == [("x".toList, "X".toList)] && g.raised == some .valueError
    | .error _ => false) = true := by decide +kernel

end KVExample

end Vista
