import Verif.Spec.DirToStore
import Verif.Props.FromParams
import Verif.Props.JoinStores
import Verif.Props.DocMap
import Verif.Props.IterUtils

/-!
# C82: copying a directory into a store
-/
set_option linter.unusedSectionVars false
set_option linter.unusedSimpArgs false
namespace Vista
namespace DirToStore
open Params (PathIs Present)
open IterUtils (rfind rfind_append rfind_of_not_mem)
open FromParams (Typed Sane ownGlobals typed_mono)

/-! ## Keys -/

theorem last_dot (c : Char) (s : Str) : c ∉ s ∨ ∃ a e, s = a ++ c :: e ∧ c ∉ e := by
  induction s with
  | nil => exact .inl (by simp)
  | cons x s ih =>
    rcases ih with h | ⟨a, e, rfl, h⟩
    · by_cases hx : x = c
      · exact .inr ⟨[], s, by simp [hx], h⟩
      · exact .inl (by simp only [List.mem_cons, not_or]; exact ⟨fun h' => hx h'.symm, h⟩)
    · exact .inr ⟨x :: a, e, rfl, h⟩

theorem append_dot_unique {c : Char} {a a' e e' : Str} (h : a ++ c :: e = a' ++ c :: e') (he : c ∉ e) (he' : c ∉ e') : a = a' ∧ e = e' := by
  have h1 := rfind_append (stem := a) he
  have h2 := rfind_append (stem := a') he'
  rw [h, h2] at h1
  exact ⟨(List.append_inj h (by omega)).1, by have := (List.append_inj h (by omega)).2; simpa using this⟩

/-- The key function `strip_one_extension` removes the last extension, if the name has one. -/
theorem stem_iff (name s : Str) : stem name = s ↔ Stripped name s := by
  rcases last_dot '.' name with h | ⟨a, e, rfl, h⟩
  · rw [stem, rfind_of_not_mem h, if_neg (by simp)]
    constructor
    · rintro rfl
      exact .inr ⟨rfl, by rintro ⟨a, e, rfl, -⟩; simp at h⟩
    · rintro (⟨e, rfl, -⟩ | ⟨rfl, -⟩)
      · simp at h
      · rfl
  · rw [stem, rfind_append h]
    have hlen : ((a ++ '.' :: e).length : Int) - 1 = a.length + e.length := by simp; omega
    rw [hlen]
    by_cases hc : a ≠ [] ∧ e ≠ []
    · have h1 := List.length_pos_of_ne_nil hc.1
      have h2 := List.length_pos_of_ne_nil hc.2
      rw [if_pos ⟨by omega, by omega⟩, pySlice_nonneg _ (le_refl _) (by omega)]
      have : ((a ++ '.' :: e).take (Int.toNat a.length)).drop (Int.toNat 0) = a := by simp
      constructor
      · intro hs
        have hs' : a = s := by simpa using hs
        subst hs'
        exact .inl ⟨e, rfl, hc.1, hc.2, h⟩
      · rintro (⟨e', he, -, -, he'⟩ | ⟨-, hno⟩)
        · obtain ⟨rfl, rfl⟩ := append_dot_unique he h he'
          simp
        · exact absurd ⟨a, e, rfl, hc.1, hc.2, h⟩ hno
    · have h1 : ¬ ((0 : Int) < a.length ∧ (a.length : Int) < a.length + e.length) := by
        rintro ⟨h1, h2⟩
        exact hc ⟨by rintro rfl; simp at h1, by rintro rfl; simp at h2⟩
      rw [if_neg h1]
      constructor
      · rintro rfl
        refine .inr ⟨rfl, ?_⟩
        rintro ⟨a', e', he, h1, h2, h3⟩
        obtain ⟨rfl, rfl⟩ := append_dot_unique he h h3
        exact hc ⟨h1, h2⟩
      · rintro (⟨e', he, h1, h2, h3⟩ | ⟨rfl, -⟩)
        · obtain ⟨rfl, rfl⟩ := append_dot_unique he h h3
          exact absurd ⟨h1, h2⟩ hc
        · rfl

/-- Which of the two functions it is. -/
def ruleOf (strip : Bool) : KeyFunction := if strip then .stripOneExtension else .identity

theorem key_iff (strip : Bool) (q : Loc) (name k : Str) : (ruleOf strip).apply (q ++ [name]) = k ↔ KeyFor strip name k := by
  have : fileName (q ++ [name]) = name := by simp [fileName]
  cases strip with
  | false => simp [ruleOf, KeyFunction.apply, KeyFor, this, eq_comm]
  | true => simp only [ruleOf, KeyFunction.apply, KeyFor, this, if_true, stem_iff]

/-- The key of a file is its name, or its name without the last extension: everything before the last dot, unless that is the first or
the last character.  Every name has exactly one. -/
theorem C82_keys (strip : Bool) (q : Loc) (name k : Str) :
    ((if strip then KeyFunction.stripOneExtension else .identity).apply (q ++ [name]) = k ↔ KeyFor strip name k) ∧ ∃! k, KeyFor strip name k := by
  refine ⟨key_iff strip q name k, (ruleOf strip).apply (q ++ [name]), (key_iff _ _ _ _).1 rfl, fun k' hk' => ((key_iff strip q name k').2 hk').symm⟩

/-- The name of the function. -/
def ruleName (strip : Bool) : Str := if strip then "strip_one_extension".toList else "identity".toList

theorem ruleName_inj {a b : Bool} (h : ruleName a = ruleName b) : a = b := by
  cases a <;> cases b <;> first | rfl | (exact absurd h (by decide))

theorem asks_iff {p : Params} (h : p.WF) (strip : Bool) :
    Asks p strip ↔ (strip = false ∧ ¬ Present p "key_function".toList) ∨ p.toVal.Reaches (splitOn '.' "key_function".toList) (.str (ruleName strip)) := by
  rw [show splitOn '.' "key_function".toList = ["key_function".toList] by decide +kernel]
  unfold Asks ruleName
  cases strip
  · simp only [Bool.false_eq_true, if_false, true_and]
  · simp only [if_true, Bool.true_eq_false, false_and, false_or]

theorem keyFunction_spec {p : Params} (h : p.WF) :
    (∀ strip, Asks p strip → keyFunction p = .ok (ruleOf strip)) ∧
    ((¬ ∃ strip, Asks p strip) → ∃ e, Params.Refused p "key_function".toList .none e ∧ keyFunction p = .error e) := by
  obtain ⟨o1, o2⟩ := Params.C48_string_integer p h "key_function".toList (some [ruleName false, ruleName true]) .none
  obtain ⟨s1, s2⟩ := Params.C47_string p h "key_function".toList (some [ruleName false, ruleName true]) .none
  simp only [asks_iff h]
  by_cases hp : Present p "key_function".toList
  · have hopt := (o1 hp).1
    have hs : ∀ v, p.string "key_function".toList (some [ruleName false, ruleName true]) .none = .ok v ↔
        ∃ strip, p.toVal.Reaches (splitOn '.' "key_function".toList) (.str (ruleName strip)) ∧ v = .str (ruleName strip) := by
      intro v
      rw [s1, Params.present_found h hp]
      constructor
      · rintro ⟨hr, s, rfl, ho⟩
        have := ho _ rfl
        rw [List.mem_cons, List.mem_singleton] at this
        rcases this with rfl | rfl
        · exact ⟨false, hr, rfl⟩
        · exact ⟨true, hr, rfl⟩
      · rintro ⟨strip, hr, rfl⟩
        refine ⟨hr, _, rfl, fun opts ho => ?_⟩
        rw [← Option.some.inj ho, List.mem_cons, List.mem_singleton]
        cases strip
        · exact .inl rfl
        · exact .inr rfl
    simp only [hp, not_true, and_false, false_or]
    constructor
    · intro strip hr
      have := (hs _).2 ⟨strip, hr, rfl⟩
      rw [keyFunction, show (some ["identity".toList, "strip_one_extension".toList]) = some [ruleName false, ruleName true] from rfl, hopt, this]
      cases strip <;> rfl
    · intro hno
      rw [keyFunction, show (some ["identity".toList, "strip_one_extension".toList]) = some [ruleName false, ruleName true] from rfl, hopt]
      cases hc : p.string "key_function".toList (some [ruleName false, ruleName true]) .none with
      | error e => exact ⟨e, s2 e hc, rfl⟩
      | ok v =>
        obtain ⟨strip, hr, -⟩ := (hs v).1 hc
        exact absurd ⟨strip, hr⟩ hno
  · have hopt := (o2 hp).1
    have hk : keyFunction p = .ok .identity := by
      rw [keyFunction, show (some ["identity".toList, "strip_one_extension".toList]) = some [ruleName false, ruleName true] from rfl, hopt]
      rfl
    refine ⟨fun strip ha => ?_, fun hno => absurd ⟨false, .inl ⟨rfl, hp⟩⟩ hno⟩
    rcases ha with ⟨rfl, -⟩ | hr
    · exact hk
    · exact absurd ⟨_, by simp, hr⟩ hp

/-! ## Copying -/

variable {order : List Str → List Str}

theorem readData_data {fs : FS} {q : Loc} {b : Bytes} (h : fs.node q = some (.file (.data b))) : readData q fs = (.ok b, fs) := by
  simp only [readData, readFile, Prog.bind_apply, h, Prog.pure_apply]

/-- The files among the places have different keys, none of which is in `M`. -/
def Fresh (key : Loc → Str) (fs : FS) (M : Str → Option Bytes) (qs : List Loc) : Prop :=
  qs.Pairwise (fun q q' => fs.isFile q = true → fs.isFile q' = true → key q ≠ key q') ∧ ∀ q ∈ qs, fs.isFile q = true → M (key q) = none

theorem copyZip_spec (key : Loc → Str) (fs : FS) (qs : List Loc)
    (hqs : ∀ q ∈ qs, ∀ c, fs.node q = some (.file c) → (∃ b, c = .data b) ∧ PlainKey (key q)) (o : ZipOut) (M : Str → Option Bytes)
    (hr : Ready order o M) :
    (Fresh key fs M qs → ∃ o' M', copyZip key fs qs o = (o', none) ∧ o'.loc = o.loc ∧ Ready order o' M' ∧
      ∀ k b, M' k = some b ↔ M k = some b ∨ ∃ q ∈ qs, fs.node q = some (.file (.data b)) ∧ key q = k) ∧
    (¬ Fresh key fs M qs → ∃ o' W, copyZip key fs qs o = (o', some .valueError) ∧ o'.loc = o.loc ∧ Ready order o' W ∧
      ∀ k b, W k = some b → M k = some b ∨ ∃ q ∈ qs, fs.node q = some (.file (.data b)) ∧ key q = k) := by
  induction qs generalizing o M with
  | nil => exact ⟨fun _ => ⟨o, M, rfl, rfl, hr, by simp⟩, fun h => absurd ⟨.nil, by simp⟩ h⟩
  | cons q qs ih =>
    have hqs' : ∀ q ∈ qs, ∀ c, fs.node q = some (.file c) → (∃ b, c = .data b) ∧ PlainKey (key q) := fun q' h' => hqs q' (List.mem_cons_of_mem _ h')
    by_cases hf : fs.isFile q = true
    · obtain ⟨c, hc⟩ := (FS.isFile_iff fs q).1 hf
      obtain ⟨⟨b, rfl⟩, hk⟩ := hqs q (by simp) c hc
      obtain ⟨p1, p2, p3⟩ := hr.put hk b
      by_cases hfree : M (key q) = none
      · obtain ⟨p4, p5⟩ := p3 hfree
        have hstep : copyZip key fs (q :: qs) o = copyZip key fs qs (o.put (key q) b).1 := by
          simp only [copyZip, hf, if_true, readData_data hc, p4]
        obtain ⟨i1, i2⟩ := ih hqs' _ _ p5
        have hfresh : Fresh key fs M (q :: qs) ↔ Fresh key fs (fun k' => if k' = key q then some b else M k') qs := by
          unfold Fresh
          simp only [List.pairwise_cons, List.mem_cons, forall_eq_or_imp, hf, forall_const, hfree, true_and, ite_eq_right_iff]
          constructor
          · rintro ⟨⟨a1, a2⟩, a3⟩
            refine ⟨a2, fun q' hq' hf' => ?_⟩
            rw [if_neg fun h => a1 q' hq' hf' h.symm]
            exact a3 q' hq' hf'
          · rintro ⟨a1, a2⟩
            refine ⟨⟨fun q' hq' hf' h => ?_, a1⟩, fun q' hq' hf' => ?_⟩
            · have := a2 q' hq' hf'
              rw [if_pos h.symm] at this
              exact absurd this (by simp)
            · have := a2 q' hq' hf'
              split at this
              · exact absurd this (by simp)
              · exact this
        rw [hfresh, hstep]
        constructor
        · intro hF
          obtain ⟨o', M', a1, a2, a3, a4⟩ := i1 hF
          refine ⟨o', M', a1, a2.trans p1, a3, fun k b' => ?_⟩
          rw [a4]
          simp only [List.mem_cons, exists_eq_or_imp, hc, Option.some.injEq, Node.file.injEq, Content.data.injEq]
          by_cases hkk : k = key q
          · subst hkk
            simp only [if_true, Option.some.injEq, hfree, reduceCtorEq, false_or, and_true]
          · simp only [hkk, if_false, Ne.symm hkk, and_false, false_or]
        · intro hF
          obtain ⟨o', W, a1, a2, a3, a4⟩ := i2 hF
          refine ⟨o', W, a1, a2.trans p1, a3, fun k b' h => ?_⟩
          rcases a4 k b' h with h' | ⟨q', m1, m2, m3⟩
          · by_cases hkk : k = key q
            · rw [if_pos hkk] at h'
              exact .inr ⟨q, by simp, by rw [hc, Option.some.inj h'], hkk.symm⟩
            · rw [if_neg hkk] at h'
              exact .inl h'
          · exact .inr ⟨q', List.mem_cons_of_mem _ m1, m2, m3⟩
      · have hbad : ¬ Fresh key fs M (q :: qs) := fun h => hfree (h.2 q (by simp) hf)
        refine ⟨fun h => absurd h hbad, fun _ => ⟨o, M, ?_, rfl, hr, fun k b h => .inl h⟩⟩
        simp only [copyZip, hf, if_true, readData_data hc, p2 (Option.isSome_iff_ne_none.2 hfree)]
    · have hstep : copyZip key fs (q :: qs) o = copyZip key fs qs o := by simp only [copyZip, hf, if_false]; rfl
      have hfresh : Fresh key fs M (q :: qs) ↔ Fresh key fs M qs := by
        unfold Fresh
        simp only [List.pairwise_cons, List.mem_cons, forall_eq_or_imp, hf, false_implies, implies_true, true_and]
        simp
      obtain ⟨i1, i2⟩ := ih hqs' o M hr
      rw [hfresh, hstep]
      refine ⟨fun hF => ?_, fun hF => by
        obtain ⟨o', W, a1, a2, a3, a4⟩ := i2 hF
        exact ⟨o', W, a1, a2, a3, fun k b h => (a4 k b h).imp_right fun ⟨q', m1, m2⟩ => ⟨q', List.mem_cons_of_mem _ m1, m2⟩⟩⟩
      obtain ⟨o', M', a1, a2, a3, a4⟩ := i1 hF
      refine ⟨o', M', a1, a2, a3, fun k b => ?_⟩
      rw [a4]
      have : ¬ ∃ c, fs.node q = some (.file c) := fun h => hf ((FS.isFile_iff fs q).2 h)
      simp only [List.mem_cons, exists_eq_or_imp]
      constructor
      · rintro (h | h)
        · exact .inl h
        · exact .inr (.inr h)
      · rintro (h | ⟨h, -⟩ | h)
        · exact .inl h
        · exact absurd ⟨_, h⟩ this
        · exact .inr h

/-- Everything below `d` is the same in both. -/
def SameBelow (fs fs' : FS) (d : Loc) : Prop := ∀ q, d <+: q → fs'.node q = fs.node q

/-- The places scanned are the files, as `q ++ [name]`. -/
theorem scan_snoc {scan : FS → Loc → List Loc} (hscan : Scans scan) {fs : FS} {d q : Loc} (hq : q ∈ scan fs d) :
    ∃ r name, q = r ++ [name] ∧ d <+: q := by
  obtain ⟨h1, h2, -⟩ := ((hscan fs d).2 q).1 hq
  rcases nil_or_snoc q with rfl | ⟨r, n, rfl⟩
  · exact absurd (List.prefix_nil.1 h1).symm h2
  · exact ⟨r, n, rfl, h1⟩

theorem fresh_iff {scan : FS → Loc → List Loc} (hscan : Scans scan) {fs fs' : FS} {d : Loc} (hd : fs.node d = some .dir) (hs : SameBelow fs fs' d)
    (strip : Bool) : Fresh (ruleOf strip).apply fs' (fun _ => none) (scan fs' d) ↔ Distinct fs d strip := by
  have hmem : ∀ q name c, d <+: q ++ [name] → fs.node (q ++ [name]) = some (.file c) → q ++ [name] ∈ scan fs' d := by
    intro q name c hp hc
    refine ((hscan fs' d).2 _).2 ⟨hp, ?_, by rw [hs _ hp, hc]; simp⟩
    rintro rfl
    rw [hd] at hc; simp at hc
  unfold Fresh
  simp only [implies_true, and_true]
  constructor
  · intro h q q' name name' c c' k hp hp' hc hc' hk hk'
    by_contra hne
    have key : ∀ a b, a ∈ scan fs' d → b ∈ scan fs' d → a ≠ b → fs'.isFile a = true → fs'.isFile b = true →
        (ruleOf strip).apply a ≠ (ruleOf strip).apply b := by
      intro a b ha hb hab hfa hfb
      rcases List.mem_iff_getElem.1 ha with ⟨i, hi, rfl⟩
      rcases List.mem_iff_getElem.1 hb with ⟨j, hj, rfl⟩
      rw [List.pairwise_iff_getElem] at h
      rcases Nat.lt_trichotomy i j with hij | rfl | hij
      · exact h i j hi hj hij hfa hfb
      · exact absurd rfl hab
      · exact fun he => h j i hj hi hij hfb hfa he.symm
    refine key _ _ (hmem q name c hp hc) (hmem q' name' c' hp' hc') hne ((FS.isFile_iff _ _).2 ⟨c, by rw [hs _ hp, hc]⟩)
      ((FS.isFile_iff _ _).2 ⟨c', by rw [hs _ hp', hc']⟩) ?_
    rw [(key_iff _ _ _ _).2 hk, (key_iff _ _ _ _).2 hk']
  · intro h
    refine List.Pairwise.imp_of_mem (fun {a b} ha hb hab hfa hfb he => ?_) (hscan fs' d).1
    obtain ⟨r, n, rfl, hp⟩ := scan_snoc hscan ha
    obtain ⟨r', n', rfl, hp'⟩ := scan_snoc hscan hb
    obtain ⟨c, hc⟩ := (FS.isFile_iff _ _).1 hfa
    obtain ⟨c', hc'⟩ := (FS.isFile_iff _ _).1 hfb
    rw [hs _ hp] at hc
    rw [hs _ hp'] at hc'
    exact hab (h r r' n n' c c' _ hp hp' hc hc' ((key_iff strip r n _).1 rfl) ((key_iff strip r' n' _).1 he.symm))

theorem sane_of_output {E : FromParams.Env} (hpy : FromParams.Understands E.py) (hg : ((ownGlobals ++ E.rest).map (·.1)).Nodup) (p : Params) (d : Loc)
    (f : KeyFunction) : Sane E (some (locals p d f)) where
  py := hpy
  globals := hg
  context c hc := by
    rw [← Option.some.inj hc]
    show ["params".toList, "input_directory".toList, "key_function".toList].Nodup
    decide
  unshadowed c hc := by
    rw [← Option.some.inj hc]
    show ∀ n ∈ ownGlobals.map (·.1), n ∉ ["params".toList, "input_directory".toList, "key_function".toList]
    decide

/-- A zip store as output, which is not itself below the input: if no two files have the same key, the store has exactly one entry for
each file at any depth below the input directory, with its content; otherwise the script raises `ValueError`, and the store has entries only for files.  Nothing else changes,
except for the directories made for the output. -/
theorem C82_zip (E : FromParams.Env) (horder : ∀ l, (order l).Perm l) (scan : FS → Loc → List Loc) (hscan : Scans scan) (p : Params)
    (d l : Loc) (strip : Bool) (hin : PathIs E.cwd p "input_directory".toList d) (hkey : Asks p strip) (hout : Output E p "zip".toList l)
    (fs : FS) (ht : fs.Tree) (hd : fs.node d = some .dir) (hall : AllFiles fs d strip PlainKey)
    (hfree : ¬ fs.Blocked l.dropLast) (hdir : fs.node l ≠ some .dir) (hapart : ¬ d <+: l) :
    (Distinct fs d strip → ∃ fs' M, main E order scan p fs = (.ok (), fs') ∧ OneAfter fs l M fs' ∧ ∀ k b, M k = some b ↔ HasFile fs d strip k b) ∧
    (¬ Distinct fs d strip → ∃ fs' W, main E order scan p fs = (.error .valueError, fs') ∧ OneAfter fs l W fs' ∧
      ∀ k b, W k = some b → HasFile fs d strip k b) := by
  obtain ⟨ns, mods, hT, hl⟩ := hout.typed
  have hwf : p.WF := hT.wf
  obtain ⟨fs1, a1, a2, -, a3⟩ := (FromParams.C74_zip_sink E _ (sane_of_output hout.py hout.globals p d (ruleOf strip)) p _ ns mods (typed_mono hT _) fs ht).1
    l hl hfree
  obtain ⟨o, fs2, b1, b2, b3, b4, -, b5⟩ := open_spec order a1 a2 hdir
  have hsame : SameBelow fs fs2 d := fun q hq => b4 q fun h => hapart (hq.trans h)
  have hrun : main E order scan p fs = (copyZip (ruleOf strip).apply fs2 (scan fs2 d) o).1.leave
      (copyZip (ruleOf strip).apply fs2 (scan fs2 d) o).2 fs2 := by
    simp only [main, Prog.bind_apply, (Params.C73_existing_directory E.cwd p hwf _ fs).1 d hin hd, Prog.ofRes_apply,
      (keyFunction_spec hwf).1 strip hkey, a3, copyInto, b1, Prog.get_apply]
  obtain ⟨c1, c2⟩ := copyZip_spec (order := order) (ruleOf strip).apply fs2 (scan fs2 d) (by
    intro q hq c hc
    obtain ⟨r, n, rfl, hp⟩ := scan_snoc hscan hq
    rw [hsame _ hp] at hc
    obtain ⟨e1, e2⟩ := hall r n c hp hc
    exact ⟨e1, e2 _ ((key_iff strip r n _).1 rfl)⟩) o _ b3
  rw [fresh_iff hscan hd hsame] at c1 c2
  constructor
  · intro h
    obtain ⟨o', M, e1, e2, e3, e4⟩ := c1 h
    obtain ⟨fs', f1, f2⟩ := b5 horder o' M none (e2.trans b2) e3
    refine ⟨fs', M, by rw [hrun, e1]; exact f1, f2, fun k b => ?_⟩
    rw [e4]
    simp only [reduceCtorEq, false_or]
    constructor
    · rintro ⟨q, hq, hc, hk⟩
      obtain ⟨r, n, rfl, hp⟩ := scan_snoc hscan hq
      exact ⟨r, n, hp, by rw [← hsame _ hp]; exact hc, (key_iff strip r n k).1 hk⟩
    · rintro ⟨r, n, hp, hc, hk⟩
      refine ⟨r ++ [n], ((hscan fs2 d).2 _).2 ⟨hp, ?_, by rw [hsame _ hp, hc]; simp⟩, by rw [hsame _ hp]; exact hc, (key_iff strip r n k).2 hk⟩
      rintro rfl
      rw [hd] at hc; simp at hc
  · intro h
    obtain ⟨o', W, e1, e2, e3, e4⟩ := c2 h
    obtain ⟨fs', f1, f2⟩ := b5 horder o' W (some .valueError) (e2.trans b2) e3
    refine ⟨fs', W, by rw [hrun, e1]; exact f1, f2, fun k b h => ?_⟩
    obtain ⟨q, hq, hc, hk⟩ := (e4 k b h).resolve_left (by simp)
    obtain ⟨r, n, rfl, hp⟩ := scan_snoc hscan hq
    exact ⟨r, n, hp, by rw [← hsame _ hp]; exact hc, (key_iff strip r n k).1 hk⟩

/-- The calls of `put` made for the places. -/
def calls (key : Loc → Str) (fs : FS) (qs : List Loc) : List (Str × Bytes) :=
  qs.filterMap fun q => match fs.node q with | some (.file (.data b)) => some (key q, b) | _ => none

theorem mem_calls {key : Loc → Str} {fs : FS} {qs : List Loc} {k : Str} {b : Bytes} :
    (k, b) ∈ calls key fs qs ↔ ∃ q ∈ qs, fs.node q = some (.file (.data b)) ∧ key q = k := by
  simp only [calls, List.mem_filterMap]
  constructor
  · rintro ⟨q, hq, h⟩
    refine ⟨q, hq, ?_⟩
    split at h
    · rename_i b' hb
      simp only [Option.some.injEq, Prod.mk.injEq] at h
      obtain ⟨rfl, rfl⟩ := h
      exact ⟨hb, rfl⟩
    · exact absurd h (by simp)
  · rintro ⟨q, hq, h, rfl⟩
    exact ⟨q, hq, by simp only [h]⟩

theorem copyDir_eq {cwd P : PyPath} (key : Loc → Str) (fs : FS) (hempty : fs.EmptyDir (PyPath.resolve cwd P)) (qs : List Loc)
    (hqs : ∀ q ∈ qs, ¬ PyPath.resolve cwd P <+: q ∧ ∀ c, fs.node q = some (.file c) → (∃ b, c = .data b) ∧ FileKey (key q)) (done : List (Str × Bytes))
    (s : DirSink) (fs' : FS) (hst : DirState cwd P fs done s fs') :
    copyDirAt cwd key qs s fs' = DirSink.puts cwd s (calls key fs qs) fs' := by
  induction qs generalizing done s fs' with
  | nil => rfl
  | cons q qs ih =>
    obtain ⟨hap, hfile⟩ := hqs q (by simp)
    have hqs' : ∀ q ∈ qs, ¬ PyPath.resolve cwd P <+: q ∧ ∀ c, fs.node q = some (.file c) → (∃ b, c = .data b) ∧ FileKey (key q) :=
      fun q' h' => hqs q' (List.mem_cons_of_mem _ h')
    have hsame : fs'.node q = fs.node q := hst.others q fun k _ h => hap (h ▸ List.prefix_append _ _)
    by_cases hf : ∃ c, fs.node q = some (.file c)
    · obtain ⟨c, hc⟩ := hf
      obtain ⟨⟨b, rfl⟩, hk⟩ := hfile c hc
      have hf' : fs'.isFile q = true := (FS.isFile_iff _ _).2 ⟨_, hsame.trans hc⟩
      obtain ⟨s', fs'', a1, a2⟩ := dirSink_puts fs hempty [(key q, b)] (by simpa using hk) done s fs' hst
      have hput : s.put cwd (key q) b fs' = (.ok s', fs'') := by
        unfold DirSink.puts DirSink.putsAt at a1
        rcases hp : s.put cwd (key q) b fs' with ⟨r, g⟩
        rw [hp] at a1
        cases r with
        | ok s1 =>
          simp only [DirSink.putsAt, Prod.mk.injEq, Except.ok.injEq, and_true] at a1
          rw [a1.1, a1.2]
        | error e => simp at a1
      have hcalls : calls key fs (q :: qs) = (key q, b) :: calls key fs qs := by
        simp only [calls, List.filterMap_cons, hc]
      rw [hcalls]
      unfold DirSink.puts
      rw [DirSink.putsAt, hput]
      simp only [copyDirAt, hf', if_true, readData_data (hsame.trans hc), hput]
      exact ih hqs' _ _ _ a2
    · have hf' : fs'.isFile q = false := by
        rw [← Bool.not_eq_true, FS.isFile_iff, hsame]; exact hf
      have hcalls : calls key fs (q :: qs) = calls key fs qs := by
        simp only [calls, List.filterMap_cons]
        split
        · rename_i h
          split at h
          · rfl
          · rfl
        · rename_i h
          split at h
          · rename_i hb; exact absurd ⟨_, hb⟩ hf
          · exact absurd h (by simp)
      rw [hcalls]
      simp only [copyDirAt, hf', Bool.false_eq_true, if_false]
      exact ih hqs' _ _ _ hst

theorem lastPut_mem {V : Type} {puts : List (Str × V)} {k : Str} {b : V} (h : lastPut puts k = some b) : (k, b) ∈ puts := by
  simp only [lastPut, Option.map_eq_some_iff] at h
  obtain ⟨e, he, rfl⟩ := h
  have h1 := List.mem_of_find?_eq_some he
  have h2 := List.find?_some he
  simp only [decide_eq_true_eq] at h2
  rw [List.mem_reverse] at h1
  rw [← h2]; exact h1

theorem resolve_parts (cwd P : PyPath) : (∀ w ∈ PyPath.resolve cwd P, w ∈ (PyPath.absolute cwd P).parts) ∧ ['.', '.'] ∉ PyPath.resolve cwd P := by
  unfold PyPath.resolve
  have : ∀ (ws : List Str) (acc : Loc), (∀ w ∈ ws.foldl resolveStep acc, w ∈ acc ∨ w ∈ ws) ∧ (['.', '.'] ∉ acc → ['.', '.'] ∉ ws.foldl resolveStep acc) := by
    intro ws
    induction ws with
    | nil => intro acc; simp
    | cons x ws ih =>
      intro acc
      rw [List.foldl_cons]
      obtain ⟨h1, h2⟩ := ih (resolveStep acc x)
      refine ⟨fun w hw => ?_, fun hacc => h2 ?_⟩
      · rcases h1 w hw with h | h
        · unfold resolveStep at h
          split at h
          · exact .inl (List.mem_of_mem_dropLast h)
          · rcases List.mem_append.1 h with h | h
            · exact .inl h
            · exact .inr (by rw [List.mem_singleton.1 h]; simp)
        · exact .inr (List.mem_cons_of_mem _ h)
      · unfold resolveStep
        split
        · exact fun h => hacc (List.mem_of_mem_dropLast h)
        · rename_i hx
          rw [List.mem_append, List.mem_singleton]
          rintro (h | h)
          · exact hacc h
          · exact hx h.symm
  obtain ⟨h1, h2⟩ := this (PyPath.absolute cwd P).parts []
  exact ⟨fun w hw => (h1 w hw).resolve_left (by simp), h2 (by simp)⟩

/-- An empty directory as output, apart from the input: afterwards a source for its index serves, for every file at any depth below the
input directory, its key with the content of a file that has this key.  No error is raised if two files have the same key: one of them is
lost.  Nothing changes outside the output. -/
theorem C82_directory (E : FromParams.Env) (hcwd : E.cwd.Normal) (hroot : E.cwd.root ≠ []) (scan : FS → Loc → List Loc) (hscan : Scans scan) (p : Params)
    (d l : Loc) (strip : Bool) (hin : PathIs E.cwd p "input_directory".toList d) (hkey : Asks p strip) (hout : Output E p "file-map".toList l)
    (hsafe : ∀ w ∈ l, TextSafe w) (fs : FS) (ht : fs.Tree) (hd : fs.node d = some .dir)
    (hall : AllFiles fs d strip fun k => FileKey k ∧ k ≠ "_index".toList) (hempty : fs.EmptyDir l) (hapart : ¬ d <+: l) (hapart' : ¬ l <+: d) :
    ∃ fs', main E order scan p fs = (.ok (), fs') ∧ fs'.Tree ∧ (∀ q, ¬ l <+: q → fs'.node q = fs.node q) ∧
      ∃ m M, docMapEntries E.cwd (Loc.toPath (l ++ ["_index".toList])) fs' = (.ok m, fs') ∧
        Zip.Serves (docMapSource readBytesFile E.cwd m fs') (fun _ => True) M ∧
        (∀ k b, M k = some b → HasFile fs d strip k b) ∧ ∀ k b, HasFile fs d strip k b → M k ≠ none := by
  obtain ⟨ns, mods, hT, hl⟩ := hout.typed
  have hwf : p.WF := hT.wf
  obtain ⟨s0, -, hl0⟩ := id hl
  obtain ⟨r1, r2⟩ := resolve_parts E.cwd (PyPath.parse s0)
  rw [← hl0] at r1 r2
  have hnormal : l.toPath.Normal := by
    refine ⟨.inr (.inl rfl), fun w hw => ?_⟩
    have hparse : (PyPath.parse s0).Normal := PyPath.parse_normal s0
    exact (absolute_normal hcwd hparse).parts w (r1 w hw)
  have hres : PyPath.resolve E.cwd l.toPath = l := resolve_toPath E.cwd r2
  have hnil : l ≠ [] := by rintro rfl; exact hapart' (List.nil_prefix)
  have hindex : (l.toPath.div (PyPath.parse "_index".toList)) = Loc.toPath (l ++ ["_index".toList]) := by
    rw [div_fileKey index_key]; rfl
  have hbelow : ∀ q, d <+: q → ¬ l <+: q := by
    intro q h1 h2
    rcases List.prefix_or_prefix_of_prefix h1 h2 with h | h
    · exact hapart h
    · exact hapart' h
  obtain ⟨fs2, e1, e2⟩ := dirSink_enter (cwd := E.cwd) (P := l.toPath) fs ht (by
    rcases nil_or_snoc l with h | ⟨r, n, rfl⟩
    · exact absurd h hnil
    · exact ⟨n, by simp [Loc.toPath], fun h => r2 (by rw [h]; simp)⟩) (by rw [hres]; exact hempty)
  have hsame : SameBelow fs fs2 d := fun q _ => e2.others q (by simp)
  have hfile : ∀ q ∈ scan fs2 d, ¬ l <+: q ∧ ∀ c, fs.node q = some (.file c) → (∃ b, c = .data b) ∧
      FileKey ((ruleOf strip).apply q) ∧ (ruleOf strip).apply q ≠ "_index".toList := by
    intro q hq
    obtain ⟨r, n, rfl, hp⟩ := scan_snoc hscan hq
    refine ⟨hbelow _ hp, fun c hc => ?_⟩
    obtain ⟨f1, f2⟩ := hall r n c hp hc
    exact ⟨f1, f2 _ ((key_iff strip r n _).1 rfl)⟩
  have hcopy := copyDir_eq (cwd := E.cwd) (P := l.toPath) (ruleOf strip).apply fs (by rw [hres]; exact hempty) (scan fs2 d)
    (fun q hq => ⟨by rw [hres]; exact (hfile q hq).1, fun c hc => ⟨((hfile q hq).2 c hc).1, ((hfile q hq).2 c hc).2.1⟩⟩) [] _ fs2 e2
  have hrun : main E order scan p fs = (DirSink.new l.toPath).session E.cwd (calls (ruleOf strip).apply fs (scan fs2 d)) fs := by
    simp only [main, Prog.bind_apply, (Params.C73_existing_directory E.cwd p hwf _ fs).1 d hin hd, Prog.ofRes_apply,
      (keyFunction_spec hwf).1 strip hkey,
      ((FromParams.C74_directory_sink E _ (sane_of_output hout.py hout.globals p d (ruleOf strip)) p _ ns mods (typed_mono hT _) fs).1 l hl hempty.1).2,
      copyInto, e1, Prog.get_apply, copyDir, hcopy, DirSink.session]
    rfl
  obtain ⟨fs', g1, g2, g3, m, g4, g5⟩ := C62_bytes hcwd hroot hnormal (by
      intro w hw
      exact hsafe w (by simpa [PyPath.absolute, Loc.toPath] using hw)) fs ht (by
    rcases nil_or_snoc l with h | ⟨r, n, rfl⟩
    · exact absurd h hnil
    · exact ⟨n, by simp [Loc.toPath], fun h => r2 (by rw [h]; simp)⟩) (by rw [hres]; exact hempty) (calls (ruleOf strip).apply fs (scan fs2 d)) (by
      rintro ⟨k, b⟩ he
      obtain ⟨q, hq, hc, rfl⟩ := mem_calls.1 he
      exact ((hfile q hq).2 _ hc).2)
  rw [hres] at g3
  rw [hindex] at g4
  refine ⟨fs', hrun.trans g1, g2, g3, m, _, g4, g5, fun k b hM => ?_, fun k b hF => ?_⟩
  · obtain ⟨q, hq, hc, hk⟩ := mem_calls.1 (lastPut_mem hM)
    obtain ⟨r, n, rfl, hp⟩ := scan_snoc hscan hq
    exact ⟨r, n, hp, hc, (key_iff strip r n k).1 hk⟩
  · obtain ⟨r, n, hp, hc, hk⟩ := hF
    rw [← Option.isSome_iff_ne_none, lastPut_isSome]
    refine List.mem_map.2 ⟨(k, b), mem_calls.2 ⟨r ++ [n], ?_, hc, (key_iff strip r n k).2 hk⟩, rfl⟩
    refine ((hscan fs2 d).2 _).2 ⟨hp, ?_, by rw [hsame _ hp, hc]; simp⟩
    rintro rfl
    rw [hd] at hc; simp at hc

/-- An `input_directory` that is not a directory, or an unknown `key_function`, is a `ParameterError` (see `Refused`); nothing is changed. -/
theorem C82_errors (E : FromParams.Env) (scan : FS → Loc → List Loc) (p : Params) (h : p.WF) (fs : FS)
    (hbad : (¬ ∃ d, PathIs E.cwd p "input_directory".toList d ∧ fs.node d = some .dir) ∨ ¬ ∃ strip, Asks p strip) :
    ∃ e, (Params.Refused p "input_directory".toList .none e ∨ Params.Refused p "key_function".toList .none e) ∧
      main E order scan p fs = (.error e, fs) := by
  obtain ⟨i1, i2⟩ := Params.C73_existing_directory E.cwd p h "input_directory".toList fs
  by_cases hd : ∃ d, PathIs E.cwd p "input_directory".toList d ∧ fs.node d = some .dir
  · obtain ⟨d, hd1, hd2⟩ := hd
    obtain ⟨e, he, hk⟩ := (keyFunction_spec h).2 (hbad.resolve_left fun hno => hno ⟨d, hd1, hd2⟩)
    exact ⟨e, .inr he, by simp only [main, Prog.bind_apply, i1 d hd1 hd2, Prog.ofRes_apply, hk]⟩
  · obtain ⟨e, he, hx⟩ := i2 hd
    exact ⟨e, .inl he, by simp only [main, Prog.bind_apply, hx]⟩


end DirToStore

/-! ## Examples -/

namespace DirToStoreExample
open DirToStore
open FromParamsExample (env understands)

/-- The places below, in the order of the file system. -/
def scan (fs : FS) (d : Loc) : List Loc := ((fs.map (·.1)).filter fun q => d.isPrefixOf q && decide (q ≠ d) && decide (q ≠ [])).dedup

theorem scans : Scans scan := by
  intro fs d
  refine ⟨List.nodup_dedup _, fun q => ?_⟩
  simp only [scan, List.mem_dedup, List.mem_filter, Bool.and_eq_true, List.isPrefixOf_iff_prefix, decide_eq_true_eq, FS.node_ne_none_iff]
  constructor
  · rintro ⟨h1, ⟨h2, h3⟩, h4⟩; exact ⟨h2, h3, .inr h1⟩
  · rintro ⟨h1, h2, h3⟩
    have h0 : q ≠ [] := by rintro rfl; exact h2 (List.prefix_nil.1 h1).symm
    exact ⟨h3.resolve_left h0, ⟨h1, h2⟩, h0⟩

def ns (t o : String) : Params := ⟨["output".toList], [("type".toList, .str t.toList), ("path".toList, .str o.toList)]⟩
def par (t o : String) (rest : Entries) : Params :=
  ⟨[], [("input_directory".toList, .str "in".toList), ("output".toList, (ns t o).toVal)] ++ rest⟩

theorem ns_wf (t o : String) : (ns t o).WF := flat_wf _ _ (by simp only [List.map_cons, List.map_nil]; decide) (by simp [PVal.isParams, PVal.isMapping])

theorem par_wf (t o : String) : (par t o [("key_function".toList, .str "strip_one_extension".toList)]).WF := by
  refine .params ?_ ?_ ?_
  · show ["input_directory".toList, "output".toList, "key_function".toList].Nodup
    decide
  · intro e he
    have : e.1 ∈ ["input_directory".toList, "output".toList, "key_function".toList] := List.mem_map_of_mem (f := (·.1)) he
    revert this
    generalize e.1 = k
    intro hk
    simp only [List.mem_cons, List.not_mem_nil, or_false] at hk
    rcases hk with rfl | rfl | rfl <;> decide
  · intro e he
    simp only [par, List.cons_append, List.nil_append, List.mem_cons, List.not_mem_nil, or_false] at he
    rcases he with rfl | rfl | rfl
    · exact .leaf ⟨rfl, rfl⟩
    · exact ns_wf t o
    · exact .leaf ⟨rfl, rfl⟩

theorem output (t o : String) : Output env (par t o [("key_function".toList, .str "strip_one_extension".toList)]) t.toList
    (PyPath.resolve env.cwd (PyPath.parse o.toList)) where
  py := understands
  globals := by decide
  typed := ⟨ns t o, [], {
    wf := par_wf t o
    found := by
      rw [show splitOn '.' "output".toList = ["output".toList] by decide +kernel]
      exact .step (List.mem_cons_of_mem _ (List.mem_cons_self ..)) (.here _)
    type := .step (List.mem_cons_self ..) (.here _)
    noValue := by
      rw [← Params.contains_present (ns_wf t o)]
      have : (ns t o).contains "value".toList = false := rfl
      rw [this]; simp
    imports := by
      refine .inr ⟨rfl, ?_⟩
      have h := Params.contains_present (ns_wf t o) "import".toList
      rw [show (ns t o).contains "import".toList = false from rfl, Params.Present,
        show splitOn '.' "import".toList = ["import".toList] by decide +kernel] at h
      exact fun hx => absurd (h.2 hx) (by simp)
    importable := by simp }, ((Params.pathParam_spec env.cwd (ns_wf t o) _).1 _).1 rfl⟩

theorem input (t o : String) : Params.PathIs env.cwd (par t o [("key_function".toList, .str "strip_one_extension".toList)]) "input_directory".toList
    ["home".toList, "in".toList] := ((Params.pathParam_spec env.cwd (par_wf t o) _).1 _).1 rfl

theorem asks (t o : String) : Asks (par t o [("key_function".toList, .str "strip_one_extension".toList)]) true :=
  .step (List.mem_cons_of_mem _ (List.mem_cons_of_mem _ (List.mem_cons_self ..))) (.here _)

/-- Files in the input directory and in a directory below it. -/
def fs (a b : String) : FS :=
  [(["home".toList], .dir), (["home".toList, "in".toList], .dir), (["home".toList, "in".toList, a.toList], .file (.data ⟨#[1]⟩)),
   (["home".toList, "in".toList, "sub".toList], .dir), (["home".toList, "in".toList, "sub".toList, b.toList], .file (.data ⟨#[2]⟩)),
   (["home".toList, "out".toList], .dir)]

theorem file_mem {fs : FS} {q : Loc} {c : Content} (h : fs.node q = some (.file c)) : (q, .file c) ∈ fs := by
  unfold FS.node at h
  split at h
  · simp at h
  · revert h
    induction fs with
    | nil => simp
    | cons e fs ih =>
      obtain ⟨a, b⟩ := e
      rw [dictGet_cons]
      split
      · rename_i h
        subst h
        intro h
        rw [← Option.some.inj h]; simp
      · intro h; exact List.mem_cons_of_mem _ (ih h)

theorem files {a b : String} {q : Loc} {name : Str} {c : Content} (h : (fs a b).node (q ++ [name]) = some (.file c)) :
    (q = ["home".toList, "in".toList] ∧ name = a.toList ∧ c = .data ⟨#[1]⟩) ∨
    (q = ["home".toList, "in".toList, "sub".toList] ∧ name = b.toList ∧ c = .data ⟨#[2]⟩) := by
  have hm := file_mem h
  simp only [fs, List.mem_cons, Prod.mk.injEq, reduceCtorEq, and_false, false_or, Node.file.injEq, List.not_mem_nil, or_false] at hm
  rcases hm with ⟨h1, h2⟩ | ⟨h1, h2⟩
  · left
    obtain ⟨h3, h4⟩ := List.append_inj' (t₂ := [a.toList]) (s₂ := ["home".toList, "in".toList]) h1 rfl
    exact ⟨h3, by simpa using h4, h2⟩
  · right
    obtain ⟨h3, h4⟩ := List.append_inj' (t₂ := [b.toList]) (s₂ := ["home".toList, "in".toList, "sub".toList]) h1 rfl
    exact ⟨h3, by simpa using h4, h2⟩

theorem all {a b : String} {Good : Str → Prop} (h : Good (stem a.toList) ∧ Good (stem b.toList)) :
    AllFiles (fs a b) ["home".toList, "in".toList] true Good := by
  intro q name c _ hc
  rcases files hc with ⟨-, rfl, rfl⟩ | ⟨-, rfl, rfl⟩
  · exact ⟨⟨_, rfl⟩, fun k hk => (stem_iff _ _).2 hk ▸ h.1⟩
  · exact ⟨⟨_, rfl⟩, fun k hk => (stem_iff _ _).2 hk ▸ h.2⟩

theorem plain_of {k : Str} (h : decide (k ≠ "__keys".toList ∧ '\n' ∉ k ∧ '\x00' ∉ k ∧ k ≠ []) = true) : PlainKey k := by
  simp only [decide_eq_true_eq] at h
  exact ⟨h.1, h.2.1, h.2.2.1, h.2.2.2⟩

/-- Two files with different stems. -/
example := (C82_zip (order := id) env (fun _ => .refl _) scan scans _ _ _ true (input "zip" "o/x.zip") (asks _ _) (output "zip" "o/x.zip") (fs "a.txt" "b.tar.gz")
  (tree_of_check (by decide +kernel)) rfl (all ⟨plain_of (by decide +kernel), plain_of (by decide +kernel)⟩) (not_blocked_of_check (by decide +kernel))
  (not_dir_of_check (by decide +kernel)) (by decide +kernel)).1 (by
    intro q q' name name' c c' k _ _ hc hc' hk hk'
    rw [KeyFor, if_pos rfl, ← stem_iff] at hk hk'
    rcases files hc with ⟨rfl, rfl, rfl⟩ | ⟨rfl, rfl, rfl⟩ <;> rcases files hc' with ⟨rfl, rfl, rfl⟩ | ⟨rfl, rfl, rfl⟩
    · rfl
    · exact absurd (hk.trans hk'.symm) (by decide +kernel)
    · exact absurd (hk.trans hk'.symm) (by decide +kernel)
    · rfl)

theorem not_distinct : ¬ Distinct (fs "a.txt" "a.gz") ["home".toList, "in".toList] true := by
  intro h
  have := h ["home".toList, "in".toList] ["home".toList, "in".toList, "sub".toList] "a.txt".toList "a.gz".toList _ _ "a".toList
    (by decide) (by decide) (show (fs "a.txt" "a.gz").node _ = _ from rfl) (show (fs "a.txt" "a.gz").node _ = _ from rfl)
    (by rw [KeyFor, if_pos rfl, ← stem_iff]; decide +kernel) (by rw [KeyFor, if_pos rfl, ← stem_iff]; decide +kernel)
  revert this; decide

/-- Two files with the same stem. -/
example := (C82_zip (order := id) env (fun _ => .refl _) scan scans _ _ _ true (input "zip" "o/x.zip") (asks _ _) (output "zip" "o/x.zip") (fs "a.txt" "a.gz")
  (tree_of_check (by decide +kernel)) rfl (all ⟨plain_of (by decide +kernel), plain_of (by decide +kernel)⟩) (not_blocked_of_check (by decide +kernel))
  (not_dir_of_check (by decide +kernel)) (by decide +kernel)).2 not_distinct

theorem key_a : FileKey "a".toList ∧ "a".toList ≠ "_index".toList := by
  refine ⟨⟨by decide, by decide, by decide, by decide, by unfold TextSafe; decide, ?_, ?_⟩, by decide⟩ <;>
  · intro c hc
    have : c = 'a' := by simpa using hc.symm
    subst this; decide

/-- The same, with a directory as output: no error, and one of the two files is lost. -/
theorem _root_.Vista.DirToStore.C82_lost_file_counterexample :
    ∃ fs', main env id scan (par "file-map" "out" [("key_function".toList, .str "strip_one_extension".toList)]) (fs "a.txt" "a.gz") = (.ok (), fs') ∧
      ∃ m M, docMapEntries env.cwd (Loc.toPath ["home".toList, "out".toList, "_index".toList]) fs' = (.ok m, fs') ∧
        Zip.Serves (docMapSource readBytesFile env.cwd m fs') (fun _ => True) M ∧ (∀ k, M k ≠ none ↔ k = "a".toList) := by
  have hstem : stem "a.txt".toList = "a".toList ∧ stem "a.gz".toList = "a".toList := by decide +kernel
  obtain ⟨fs', h1, -, -, m, M, h2, h3, h4, h5⟩ := C82_directory (order := id) env ⟨.inr (.inl rfl), by decide⟩ (by decide) scan scans _ _ _ true
    (input "file-map" "out") (asks _ _) (output "file-map" "out") (by
      have : PyPath.resolve env.cwd (PyPath.parse "out".toList) = ["home".toList, "out".toList] := by decide +kernel
      rw [this]; unfold TextSafe; decide) (fs "a.txt" "a.gz") (tree_of_check (by decide +kernel)) rfl
    (all (by rw [hstem.1, hstem.2]; exact ⟨key_a, key_a⟩)) (by rw [← FS.isEmptyDirectory_iff]; decide +kernel) (by decide +kernel) (by decide +kernel)
  refine ⟨fs', h1, m, M, h2, h3, fun k => ⟨fun hk => ?_, ?_⟩⟩
  · obtain ⟨b, hb⟩ := Option.ne_none_iff_exists'.1 hk
    obtain ⟨q, name, -, hc, hkey⟩ := h4 k b hb
    rw [KeyFor, if_pos rfl, ← stem_iff] at hkey
    rcases files hc with ⟨-, rfl, -⟩ | ⟨-, rfl, -⟩
    · exact hkey.symm.trans hstem.1
    · exact hkey.symm.trans hstem.2
  · rintro rfl
    exact h5 _ ⟨#[1]⟩ ⟨["home".toList, "in".toList], "a.txt".toList, by decide, rfl, by rw [KeyFor, if_pos rfl, ← stem_iff]; exact hstem.1⟩

/-- Documented: a sub-directory of the input directory is an error.  In fact the files in it are copied too. -/
theorem _root_.Vista.DirToStore.C82_subdirectory_counterexample :
    ∃ fs' M, main env id scan (par "zip" "o/x.zip" [("key_function".toList, .str "strip_one_extension".toList)]) (fs "a.txt" "b.tar.gz") = (.ok (), fs') ∧
      Stores fs' ["home".toList, "o".toList, "x.zip".toList] M ∧ M "b.tar".toList = some ⟨#[2]⟩ := by
  obtain ⟨fs', M, h1, h2, h3⟩ := (C82_zip (order := id) env (fun _ => .refl _) scan scans _ _ _ true (input "zip" "o/x.zip") (asks _ _) (output "zip" "o/x.zip")
    (fs "a.txt" "b.tar.gz") (tree_of_check (by decide +kernel)) rfl (all ⟨plain_of (by decide +kernel), plain_of (by decide +kernel)⟩)
    (not_blocked_of_check (by decide +kernel)) (not_dir_of_check (by decide +kernel)) (by decide +kernel)).1 (by
    intro q q' name name' c c' k _ _ hc hc' hk hk'
    rw [KeyFor, if_pos rfl, ← stem_iff] at hk hk'
    rcases files hc with ⟨rfl, rfl, rfl⟩ | ⟨rfl, rfl, rfl⟩ <;> rcases files hc' with ⟨rfl, rfl, rfl⟩ | ⟨rfl, rfl, rfl⟩
    · rfl
    · exact absurd (hk.trans hk'.symm) (by decide +kernel)
    · exact absurd (hk.trans hk'.symm) (by decide +kernel)
    · rfl)
  refine ⟨fs', M, h1, h2.stored, (h3 _ _).2 ⟨["home".toList, "in".toList, "sub".toList], "b.tar.gz".toList, by decide, rfl, ?_⟩⟩
  rw [KeyFor, if_pos rfl, ← stem_iff]; decide +kernel

example := C82_errors (order := id) env scan (par "zip" "o/x.zip" [("key_function".toList, .str "strip_one_extension".toList)]) (par_wf _ _) [] (.inl (by
  rintro ⟨d, hd, hn⟩
  rw [Params.pathIs_unique (par_wf _ _) hd (input _ _)] at hn
  exact absurd hn (by simp [FS.node, dictGet])))
example := C82_keys true [] "a.tar.gz".toList "a.tar".toList
example : stem ".bashrc".toList = ".bashrc".toList ∧ stem "a.".toList = "a.".toList ∧ stem "a.b.c".toList = "a.b".toList := by decide +kernel

end DirToStoreExample
end Vista
