import Verif.Model.ZipImage
import Verif.Props.Zip

/-!
# Zip files while they are written
-/
set_option linter.unusedSectionVars false
set_option linter.unusedSimpArgs false
namespace Vista
namespace ZipImage
open Zip

/-! ## Reading -/

theorem directoryOf_iff (img : Image) (es : List (Str × Nat)) :
    directoryOf img = some es ↔ ∃ P : Image, img = P ++ [.directory es, .endRecord P.length] := by
  constructor
  · intro h
    unfold directoryOf at h
    split at h
    · rename_i start es' front hr
      split at h
      · rename_i hl
        cases h
        refine ⟨front.reverse, ?_⟩
        have := congrArg List.reverse hr
        rw [List.reverse_reverse] at this
        rw [this, List.length_reverse, hl]
        simp
      · cases h
    · cases h
  · rintro ⟨P, rfl⟩
    simp [directoryOf]

/-- Read in order. -/
def Resolves (img : Image) (es : List (Str × Nat)) (a : Archive) : Prop := List.Forall₂ (fun e v => entryAt img e = some v) es a

theorem mapM_iff {α β : Type} (f : α → Option β) : ∀ (l : List α) (r : List β),
    l.mapM f = some r ↔ List.Forall₂ (fun x y => f x = some y) l r := by
  intro l
  induction l with
  | nil => intro r; cases r <;> simp
  | cons x l ih =>
    intro r
    rw [List.mapM_cons]
    cases hx : f x with
    | none =>
      simp only [Option.bind_eq_bind, Option.bind_none, reduceCtorEq, false_iff]
      intro h
      cases h with
      | cons h1 h2 => rw [hx] at h1; cases h1
    | some y =>
      cases hl : l.mapM f with
      | none =>
        simp only [Option.bind_eq_bind, Option.bind_some, Option.bind_none, reduceCtorEq, false_iff]
        intro h
        cases h with
        | cons h1 h2 => rw [← ih, hl] at h2; cases h2
      | some ys =>
        simp only [Option.bind_eq_bind, Option.bind_some, Option.pure_def, Option.some.injEq]
        constructor
        · rintro rfl
          exact .cons hx ((ih ys).1 hl)
        · intro h
          cases h with
          | cons h1 h2 =>
            rw [hx, Option.some.injEq] at h1
            rw [← ih, hl, Option.some.injEq] at h2
            rw [h1, h2]

theorem entryAt_append {P Q : Image} {e : Str × Nat} {v : Str × Bytes} (h : entryAt P e = some v) : entryAt (P ++ Q) e = some v := by
  unfold entryAt at h ⊢
  have hi : e.2 < P.length := by
    rcases Nat.lt_or_ge e.2 P.length with h' | h'
    · exact h'
    · rw [List.getElem?_eq_none h'] at h; simp at h
  rw [List.getElem?_append_left hi]
  exact h

theorem resolves_append {P Q : Image} {es : List (Str × Nat)} {a : Archive} (h : Resolves P es a) : Resolves (P ++ Q) es a :=
  List.Forall₂.imp (fun _ _ h => entryAt_append h) h

/-- The file after the entries have been written behind `T`, and the archive has been closed. -/
def finalOf : Image → List (Str × Nat) → List (Str × Bytes) → Image
  | T, dir, [] => T ++ [.directory dir, .endRecord T.length]
  | T, dir, (n, b) :: rest => finalOf (T ++ [.entry n b]) (dir ++ [(n, T.length)]) rest

/-- A file that can be read has its entries in front of its directory. -/
def Sound (img : Image) : Prop := ∀ (P : Image) es, img = P ++ [.directory es, .endRecord P.length] → ∃ a, Resolves P es a

theorem finalOf_spec (E : List (Str × Bytes)) : ∀ (T : Image) (dir : List (Str × Nat)) (a : Archive), Resolves T dir a →
    contents (finalOf T dir E) = some (a ++ E) ∧ Sound (finalOf T dir E) := by
  induction E with
  | nil =>
    intro T dir a h
    have hd : directoryOf (finalOf T dir []) = some dir := (directoryOf_iff _ _).2 ⟨T, rfl⟩
    refine ⟨?_, ?_⟩
    · rw [contents, hd]
      simp only
      rw [mapM_iff, List.append_nil]
      exact resolves_append h
    · intro P es he
      simp only [finalOf] at he
      have h1 := List.append_inj' he rfl
      simp only [List.cons.injEq, Block.directory.injEq] at h1
      rw [← h1.1, ← h1.2.1]
      exact ⟨a, h⟩
  | cons e E ih =>
    intro T dir a h
    obtain ⟨n, b⟩ := e
    have := ih (T ++ [.entry n b]) (dir ++ [(n, T.length)]) (a ++ [(n, b)])
      (List.rel_append (resolves_append h) (.cons (by simp [entryAt]) .nil))
    rw [List.append_assoc] at this
    exact this

theorem sound_of_unreadable {img : Image} (h : directoryOf img = none) : Sound img := by
  intro P es he
  rw [(directoryOf_iff _ _).2 ⟨P, he⟩] at h
  cases h

theorem contents_none {img : Image} (h : directoryOf img = none) : contents img = none := by simp [contents, h]

theorem contents_of_sound {img : Image} (h : Sound img) {es : List (Str × Nat)} (hd : directoryOf img = some es) :
    ∃ P a, img = P ++ [.directory es, .endRecord P.length] ∧ Resolves P es a ∧ contents img = some a := by
  obtain ⟨P, hP⟩ := (directoryOf_iff _ _).1 hd
  obtain ⟨a, ha⟩ := h P es hP
  refine ⟨P, a, hP, ha, ?_⟩
  rw [contents, hd]
  simp only
  rw [mapM_iff, hP]
  exact resolves_append ha

/-! ## Writing -/

/-- From the place `q` on, end records are left over from the directory at `q`. -/
def Clean (q : Nat) (img : Image) : Prop := q ≤ img.length ∧ ∀ r, Block.endRecord r ∈ img.drop q → r = q

/-- Something has been written over the directory at `q`. -/
def Started (q : Nat) (img : Image) : Prop := Clean q img ∧ q < img.length ∧ ∀ es, img[q]? ≠ some (.directory es)

theorem unreadable {q : Nat} {img : Image} (h : Started q img) : directoryOf img = none := by
  cases hd : directoryOf img with
  | none => rfl
  | some es =>
    exfalso
    obtain ⟨P, rfl⟩ := (directoryOf_iff _ _).1 hd
    obtain ⟨⟨h1, h2⟩, h3, h4⟩ := h
    simp only [List.length_append, List.length_cons, List.length_nil] at h3
    have hq : P.length = q := by
      refine h2 _ ?_
      rcases Nat.lt_or_ge q P.length with hlt | hge
      · rw [List.drop_append_of_le_length (by omega)]; simp
      · have : q = P.length ∨ q = P.length + 1 := by omega
        rcases this with rfl | rfl
        · simp
        · simp [List.drop_append]
    subst hq
    exact h4 es (by simp)

theorem mem_drop_of_suffix {i q : Nat} {img remains : Image} {b : Block} (hq : q ≤ i) (h : remains <:+ img.drop (i + 1)) (hb : b ∈ remains) :
    b ∈ img.drop q := by
  have h1 : b ∈ img.drop (i + 1) := h.subset hb
  have : img.drop (i + 1) <:+ img.drop q := List.drop_suffix_drop_left img (by omega)
  exact this.subset h1

theorem clean_puts {q i : Nat} {img img' : Image} {b : Block} (hc : Clean q img) (hq : q ≤ i) (hi : i ≤ img.length) (hb : ∀ r, b ≠ .endRecord r)
    (h : Puts img i b img') : Clean q img' := by
  obtain ⟨remains, hs, h⟩ := h
  have hmem : ∀ r, Block.endRecord r ∈ img'.drop q → r = q := by
    intro r hr
    have hlen : q ≤ (img.take i).length := by rw [List.length_take]; omega
    rcases h with rfl | rfl
    · rw [List.drop_append_of_le_length hlen, List.mem_append, List.mem_cons] at hr
      rcases hr with hr | hr | hr
      · refine hc.2 r ?_
        rw [List.drop_take] at hr
        exact List.mem_of_mem_take hr
      · exact absurd hr.symm (hb r)
      · exact hc.2 r (mem_drop_of_suffix hq hs hr)
    · rw [List.drop_append_of_le_length hlen, List.mem_append, List.mem_cons, List.mem_cons] at hr
      rcases hr with hr | hr | hr | hr
      · refine hc.2 r ?_
        rw [List.drop_take] at hr
        exact List.mem_of_mem_take hr
      · exact absurd hr.symm (hb r)
      · cases hr
      · exact hc.2 r (mem_drop_of_suffix hq hs hr)
  refine ⟨?_, hmem⟩
  rcases h with rfl | rfl <;> simp only [List.length_append, List.length_take, List.length_cons] <;> omega

theorem puts_take {i : Nat} {img img' : Image} {b : Block} (hi : i ≤ img.length) (h : Puts img i b img') :
    img'.take (i + 1) = img.take i ++ [b] ∧ i + 1 ≤ img'.length := by
  obtain ⟨remains, -, h⟩ := h
  have hl : (img.take i).length = i := by rw [List.length_take]; omega
  rcases h with rfl | rfl
  · refine ⟨?_, by simp [hl]⟩
    rw [List.take_append, hl, List.take_of_length_le (by omega)]
    simp
  · refine ⟨?_, by simp [hl]⟩
    rw [List.take_append, hl, List.take_of_length_le (by omega)]
    simp

/-- The state while a session is writing behind `T`, which has something else than a directory at `q`. -/
structure Writing (q : Nat) (T : Image) (img : Image) : Prop where
  clean : Clean q img
  front : img.take T.length = T
  long : T.length ≤ img.length

theorem Writing.started {q : Nat} {T img : Image} (h : Writing q T img) (hq : q < T.length) (hT : ∀ es, T[q]? ≠ some (.directory es)) :
    Started q img := by
  refine ⟨h.clean, by have := h.long; omega, fun es he => hT es ?_⟩
  rw [← h.front, List.getElem?_take, if_pos hq]
  exact he

theorem writing_puts {q : Nat} {T img img' : Image} {b : Block} (h : Writing q T img) (hq : q ≤ T.length) (hb : ∀ r, b ≠ .endRecord r)
    (hp : Puts img T.length b img') : Writing q (T ++ [b]) img' := by
  obtain ⟨h1, h2⟩ := puts_take h.long hp
  rw [h.front] at h1
  exact ⟨clean_puts h.clean hq h.long hb hp, by simpa using h1, by simpa using h2⟩

theorem Writing.shorter {q : Nat} {T img : Image} {b : Block} (h : Writing q (T ++ [b]) img) : Writing q T img := by
  refine ⟨h.clean, ?_, by have := h.long; simp at this; omega⟩
  have := congrArg (List.take T.length) h.front
  rw [List.take_take] at this
  simpa using this

/-- What happens while a block is written. -/
theorem images_put {Q : Image → Prop} {i : Nat} {b : Block} (hQ : ∀ img mid, Q img → Puts img i .junk mid → Q mid) {img x : Image}
    {acts : List Action} (h : Images img (.put i b :: acts) x) (h0 : Q img) :
    Q x ∨ ∃ mid mid', Q mid ∧ Puts mid i b mid' ∧ Images mid' acts x := by
  generalize ha : Action.put i b :: acts = l at h
  induction h with
  | now img acts => exact .inl h0
  | part hp _ ih =>
    cases ha
    exact ih (hQ _ _ h0 hp) rfl
  | put hp h' _ =>
    cases ha
    exact .inr ⟨_, _, h0, hp, h'⟩
  | truncate _ _ => cases ha

theorem completes_put {Q : Image → Prop} {i : Nat} {b : Block} (hQ : ∀ img mid, Q img → Puts img i .junk mid → Q mid) {img x : Image}
    {acts : List Action} (h : Completes img (.put i b :: acts) x) (h0 : Q img) :
    ∃ mid mid', Q mid ∧ Puts mid i b mid' ∧ Completes mid' acts x := by
  generalize ha : Action.put i b :: acts = l at h
  induction h with
  | done img => cases ha
  | part hp _ ih =>
    cases ha
    exact ih (hQ _ _ h0 hp) rfl
  | put hp h' _ =>
    cases ha
    exact ⟨_, _, h0, hp, h'⟩
  | truncate _ _ => cases ha

/-- Once a session has written something, the file cannot be read until it is complete. -/
theorem images_writing {q : Nat} (E : List (Str × Bytes)) : ∀ (T : Image) (dir : List (Str × Nat)) (img x : Image), Writing q T img →
    q < T.length → (∀ es, T[q]? ≠ some (.directory es)) → Images img (actions T.length dir E) x →
    directoryOf x = none ∨ x = finalOf T dir E := by
  induction E with
  | nil =>
    intro T dir img x hw hq hT h
    rw [actions] at h
    rcases images_put (Q := Writing q T) (fun a b ha hb => (writing_puts ha (by omega) (by simp) hb).shorter) h hw with h | ⟨m, m', h1, h2, h⟩
    · exact .inl (unreadable (h.started hq hT))
    have hw' := writing_puts h1 (by omega) (by simp) h2
    have hlen : T.length + 1 = (T ++ [Block.directory dir]).length := by simp
    have hq' : q < (T ++ [Block.directory dir]).length := by simp; omega
    have hT' : ∀ es, (T ++ [Block.directory dir])[q]? ≠ some (.directory es) := by
      intro es; rw [List.getElem?_append_left hq]; exact hT es
    rw [hlen] at h
    rcases images_put (Q := Writing q (T ++ [.directory dir])) (fun a b ha hb => (writing_puts ha (by omega) (by simp) hb).shorter) h hw' with
      h | ⟨k, k', i1, i2, h⟩
    · exact .inl (unreadable (h.started hq' hT'))
    have hfin : finalOf T dir [] = T ++ [.directory dir] ++ [.endRecord T.length] := by simp [finalOf]
    have hk := puts_take i1.long i2
    rw [i1.front] at hk
    -- the file with its end record, and perhaps something behind
    have hstate : directoryOf k' = none ∨ k' = finalOf T dir [] := by
      obtain ⟨remains, hs, hk'⟩ := i2
      rw [i1.front] at hk'
      have key : ∀ R : Image, (∀ r, Block.endRecord r ∈ R → r = q) → R ≠ [] → directoryOf (T ++ [.directory dir] ++ .endRecord T.length :: R) = none := by
        intro R hR hne
        cases hd : directoryOf (T ++ [.directory dir] ++ .endRecord T.length :: R) with
        | none => rfl
        | some es =>
          exfalso
          obtain ⟨P, hP⟩ := (directoryOf_iff _ _).1 hd
          obtain ⟨R', z, rfl⟩ : ∃ R' z, R = R' ++ [z] := ⟨R.dropLast, R.getLast hne, (List.dropLast_append_getLast hne).symm⟩
          have e1 : T ++ [.directory dir] ++ .endRecord T.length :: (R' ++ [z]) = (T ++ [.directory dir] ++ .endRecord T.length :: R') ++ [z] := by simp
          have e2 : P ++ [Block.directory es, .endRecord P.length] = (P ++ [.directory es]) ++ [.endRecord P.length] := by simp
          rw [e1, e2] at hP
          obtain ⟨hP1, hP2⟩ := List.append_inj' hP rfl
          simp only [List.cons.injEq, and_true] at hP2
          have hPq : P.length = q := hR _ (by rw [hP2]; simp)
          have : (T ++ [.directory dir] ++ .endRecord T.length :: R')[q]? = (P ++ [Block.directory es])[q]? := by rw [hP1]
          rw [← hPq] at hT' hq' this
          rw [List.getElem?_append_left hq', List.getElem?_concat_length] at this
          exact hT' es this
      have hmem : ∀ r, Block.endRecord r ∈ remains → r = q := fun r hr =>
        i1.clean.2 r (mem_drop_of_suffix (by omega) hs hr)
      rcases hk' with rfl | rfl
      · by_cases hne : remains = []
        · subst hne; right; rw [hfin]
        · left; exact key _ hmem hne
      · left
        refine key _ (fun r hr => ?_) (by simp)
        rcases List.mem_cons.1 hr with hr | hr
        · cases hr
        · exact hmem r hr
    cases h with
    | now => exact hstate
    | truncate h =>
      cases h
      right
      rw [hfin, show T.length + 2 = (T ++ [Block.directory dir]).length + 1 by simp, hk.1]
  | cons e E ih =>
    intro T dir img x hw hq hT h
    obtain ⟨n, b⟩ := e
    rw [actions] at h
    rcases images_put (Q := Writing q T) (fun a b ha hb => (writing_puts ha (by omega) (by simp) hb).shorter) h hw with h | ⟨m, m', h1, h2, h⟩
    · exact .inl (unreadable (h.started hq hT))
    have hw' := writing_puts h1 (by omega) (by simp) h2
    have hlen : T.length + 1 = (T ++ [Block.entry n b]).length := by simp
    rw [hlen] at h
    exact ih (T ++ [.entry n b]) (dir ++ [(n, T.length)]) m' x hw' (by simp; omega)
      (fun es => by rw [List.getElem?_append_left hq]; exact hT es) h

/-- A session that writes at least one entry: the file is as it was when it had been opened, cannot be read, or is complete. -/
theorem images_session {T : Image} {img x : Image} (dir : List (Str × Nat)) {E : List (Str × Bytes)} (hE : E ≠ []) (hw : Writing T.length T img)
    (h : Images img (actions T.length dir E) x) : x = img ∨ directoryOf x = none ∨ x = finalOf T dir E := by
  cases E with
  | nil => exact absurd rfl hE
  | cons e E =>
    obtain ⟨n, b⟩ := e
    rw [actions] at h
    have hQ : ∀ a m, (a = img ∨ Writing T.length (T ++ [.junk]) a) → Puts a T.length .junk m → (m = img ∨ Writing T.length (T ++ [.junk]) m) := by
      intro a m ha hm
      refine .inr ?_
      rcases ha with rfl | ha
      · exact writing_puts hw (by omega) (by simp) hm
      · exact writing_puts ha.shorter (by omega) (by simp) hm
    have hj : ∀ es, (T ++ [Block.junk])[T.length]? ≠ some (.directory es) := by simp
    rcases images_put hQ h (.inl rfl) with h | ⟨m, m', h1, h2, h⟩
    · rcases h with h | h
      · exact .inl h
      · exact .inr (.inl (unreadable (h.started (by simp) hj)))
    · right
      have hm : Writing T.length T m := by
        rcases h1 with rfl | h1
        · exact hw
        · exact h1.shorter
      have hw' := writing_puts hm (by omega) (by simp) h2
      have hlen : T.length + 1 = (T ++ [Block.entry n b]).length := by simp
      rw [hlen] at h
      exact images_writing E (T ++ [.entry n b]) (dir ++ [(n, T.length)]) m' x hw' (by simp) (by simp) h

theorem completes_writing {q : Nat} (E : List (Str × Bytes)) : ∀ (T : Image) (dir : List (Str × Nat)) (img x : Image), Writing q T img →
    q ≤ T.length → Completes img (actions T.length dir E) x → x = finalOf T dir E := by
  induction E with
  | nil =>
    intro T dir img x hw hq h
    rw [actions] at h
    obtain ⟨m, m', h1, h2, h⟩ := completes_put (Q := Writing q T) (fun a b ha hb => (writing_puts ha (by omega) (by simp) hb).shorter) h hw
    have hw' := writing_puts h1 (by omega) (by simp) h2
    have hlen : T.length + 1 = (T ++ [Block.directory dir]).length := by simp
    rw [hlen] at h
    obtain ⟨k, k', i1, i2, h⟩ := completes_put (Q := Writing q (T ++ [.directory dir]))
      (fun a b ha hb => (writing_puts ha (by simp; omega) (by simp) hb).shorter) h hw'
    have hk := puts_take i1.long i2
    rw [i1.front] at hk
    cases h with
    | truncate h =>
      cases h
      rw [show T.length + 2 = (T ++ [Block.directory dir]).length + 1 by simp, hk.1]
      simp [finalOf]
  | cons e E ih =>
    intro T dir img x hw hq h
    obtain ⟨n, b⟩ := e
    rw [actions] at h
    obtain ⟨m, m', h1, h2, h⟩ := completes_put (Q := Writing q T) (fun a b ha hb => (writing_puts ha (by omega) (by simp) hb).shorter) h hw
    have hw' := writing_puts h1 (by omega) (by simp) h2
    have hlen : T.length + 1 = (T ++ [Block.entry n b]).length := by simp
    rw [hlen] at h
    exact ih (T ++ [.entry n b]) (dir ++ [(n, T.length)]) m' x hw' (by simp; omega) h

theorem completes_exists : ∀ (acts : List Action) (img : Image), ∃ x, Completes img acts x := by
  intro acts
  induction acts with
  | nil => intro img; exact ⟨img, .done img⟩
  | cons a acts ih =>
    intro img
    cases a with
    | put i b =>
      obtain ⟨x, hx⟩ := ih (img.take i ++ [b])
      exact ⟨x, .put ⟨[], List.nil_suffix, .inl rfl⟩ hx⟩
    | truncate n =>
      obtain ⟨x, hx⟩ := ih (img.take n)
      exact ⟨x, .truncate hx⟩

/-! ## Opening -/

/-- A file that is sound, if there is one. -/
def SoundFile (file : Option Image) : Prop := ∀ img, file = some img → Sound img

theorem openArchive_spec (overwrite : Bool) (file : Option Image) (hs : SoundFile file) :
    ∃ T dir, (openArchive overwrite file).2 = (T.length, dir) ∧ Writing T.length T (openArchive overwrite file).1 ∧
      Resolves T dir (if overwrite then [] else (archiveAt file).getD []) := by
  have hempty : Writing 0 [] ([] : Image) := ⟨⟨by simp, by simp⟩, rfl, by simp⟩
  cases overwrite with
  | true => exact ⟨[], [], rfl, hempty, .nil⟩
  | false =>
    cases file with
    | none => exact ⟨[], [], rfl, hempty, .nil⟩
    | some img =>
      simp only [openArchive, Bool.false_eq_true, if_false, archiveAt, Option.bind_some]
      cases hd : directoryOf img with
      | none =>
        exact ⟨img, [], rfl, ⟨⟨Nat.le_refl _, by simp⟩, by simp, by simp⟩, by rw [contents_none hd]; exact .nil⟩
      | some es =>
        obtain ⟨P, a, hP, ha, hc⟩ := contents_of_sound (hs img rfl) hd
        refine ⟨P, es, by simp [hP], ⟨⟨by simp [hP], ?_⟩, by simp [hP], by simp [hP]⟩, by rw [hc]; exact ha⟩
        intro r hr
        rw [hP, List.drop_left] at hr
        simpa using hr

theorem completes_file {overwrite : Bool} {file : Option Image} (hs : SoundFile file) {E : List (Str × Bytes)} {x : Image}
    (h : Completes (openArchive overwrite file).1 (actions (openArchive overwrite file).2.1 (openArchive overwrite file).2.2 E) x) :
    contents x = some ((if overwrite then [] else (archiveAt file).getD []) ++ E) ∧ Sound x := by
  obtain ⟨T, dir, h1, h2, h3⟩ := openArchive_spec overwrite file hs
  rw [h1] at h
  rw [completes_writing E T dir _ x h2 (Nat.le_refl _) h]
  exact finalOf_spec E T dir _ h3

theorem images_file {overwrite : Bool} {file : Option Image} (hs : SoundFile file) {E : List (Str × Bytes)} (hE : E ≠ []) {x : Image}
    (h : Images (openArchive overwrite file).1 (actions (openArchive overwrite file).2.1 (openArchive overwrite file).2.2 E) x) :
    some x = file ∨ directoryOf x = none ∨ (contents x = some ((if overwrite then [] else (archiveAt file).getD []) ++ E) ∧ Sound x) := by
  obtain ⟨T, dir, h1, h2, h3⟩ := openArchive_spec overwrite file hs
  rw [h1] at h
  rcases images_session dir hE h2 h with h | h | h
  · cases overwrite with
    | true => right; left; rw [h]; rfl
    | false =>
      cases file with
      | none => right; left; rw [h]; rfl
      | some img =>
        left
        rw [h, openArchive]
        cases directoryOf img <;> rfl
  · exact .inr (.inl h)
  · rw [h]
    exact .inr (.inr (finalOf_spec E T dir _ h3))

/-- A process can be killed just after it has begun to write. -/
theorem images_unreadable (overwrite : Bool) (file : Option Image) (hs : SoundFile file) (E : List (Str × Bytes)) (hE : E ≠ []) :
    ∃ x, Images (openArchive overwrite file).1 (actions (openArchive overwrite file).2.1 (openArchive overwrite file).2.2 E) x ∧ directoryOf x = none := by
  obtain ⟨T, dir, h1, h2, h3⟩ := openArchive_spec overwrite file hs
  rw [h1]
  cases E with
  | nil => exact absurd rfl hE
  | cons e E =>
    obtain ⟨n, b⟩ := e
    have hp : Puts (openArchive overwrite file).1 T.length .junk ((openArchive overwrite file).1.take T.length ++ [.junk]) :=
      ⟨[], List.nil_suffix, .inl rfl⟩
    refine ⟨_, .part hp (.now _ _), ?_⟩
    have hw := writing_puts h2 (Nat.le_refl _) (by simp) hp
    exact unreadable (hw.started (by simp) (by simp))

end ZipImage
end Vista
