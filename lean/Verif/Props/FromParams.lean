import Verif.Spec.FromParams
import Verif.Props.Objects
import Verif.Props.Files
import Verif.Props.DocMap
import Verif.Props.ExplicitSplit
import Verif.Proofs.ZipOut
import Verif.Proofs.Examples

/-!
# C74: sources and sinks from parameters
-/
set_option linter.unusedSectionVars false
set_option linter.unusedSimpArgs false
namespace Vista
open Params (PathIs Present Imports PackageOf Evaluates)

/-! ## The plan -/

/-- `object_from_parameters` is its plan, carried out. -/
theorem Params.objectFromParameters_plan (py : Py) (p : Params) (name : Str) (expected : PVal → Bool) (a : Params.ObjectArgs) :
    p.objectFromParameters py name expected a = (do
      match ← p.planObject py name expected a with
      | .value v => Params.validate expected v
      | .call f args => do
        let v ← py.call f args
        Params.validate expected v) := by
  have hf : ∀ f q, (Params.applyFactory py f q >>= fun v => Params.validate expected v) = (do
      match ← Params.planFactory py f q with
      | .value v => Params.validate expected v
      | .call f args => do
        let v ← py.call f args
        Params.validate expected v) := by
    intro f q
    unfold Params.applyFactory Params.planFactory
    split
    · cases py.fromParameters f <;> rfl
    · split <;> rfl
  unfold Params.objectFromParameters Params.planObject
  split
  · split
    · unfold Params.objectFromNamespace Params.planNamespace
      simp only [bind, Except.bind] at hf ⊢
      cases p.namespace name with
      | error e => rfl
      | ok ns =>
        simp only
        cases ns.assertExactlyOnePresent [a.valueName, a.factoryName] with
        | error e => rfl
        | ok _ =>
          simp only
          split
          · cases p.evaluate py name (fun _ => true) a.context a.valueName a.specialValues <;> rfl
          · split
            · cases p.evaluate py name (fun _ => true) a.context a.factoryName a.specialFactories with
              | error e => rfl
              | ok f => exact hf f ns
            · rfl
    · unfold Params.objectFromString Params.planString
      simp only [bind, Except.bind] at hf ⊢
      cases p.string name with
      | error e => rfl
      | ok s0 =>
        simp only
        cases Params.text s0 with
        | error e => rfl
        | ok s =>
          simp only
          cases dictGet a.specialValues s with
          | some v => rfl
          | none =>
            simp only
            split
            · exact hf _ _
            · cases Params.evalInContext py (.str s) (Params.contextOr a.context py.globals) ((Params.contextModulesFromPrefix s).map .str) expected <;> rfl
  · split
    · rfl
    · split
      · exact hf _ _
      · rfl

namespace FromParams

/-! ## The context -/

/-- The context of the evaluation: what the caller gives, and otherwise the globals of the module. -/
theorem C74_context (E : Env) (evalContext : Option Entries) (h : Sane E evalContext) (k : Str) (v : PVal) :
    (k, v) ∈ effectiveContext E.rest evalContext ↔
      (∃ c, evalContext = some c ∧ (k, v) ∈ c) ∨ ((∀ c, evalContext = some c → k ∉ c.map (·.1)) ∧ (k, v) ∈ ownGlobals ++ E.rest) := by
  unfold effectiveContext
  rw [mem_dictOf]
  set G := ownGlobals ++ E.rest with hG
  have hGn := h.globals
  rw [← hG] at hGn
  have hcn : ((evalContext.getD []).map (·.1)).Nodup := by
    cases hc : evalContext with
    | none => simp
    | some c => exact h.context c hc
  have hrw : (∃ c, evalContext = some c ∧ (k, v) ∈ c) ↔ (k, v) ∈ evalContext.getD [] := by cases evalContext <;> simp
  have hrw' : (∀ c, evalContext = some c → k ∉ c.map (·.1)) ↔ k ∉ (evalContext.getD []).map (·.1) := by cases evalContext <;> simp
  rw [hrw, hrw']
  generalize evalContext.getD [] = c at hcn
  have hsplit : ∀ {l : Entries}, (l.map (·.1)).Nodup → (k, v) ∈ l → ∃ pre post, l = pre ++ (k, v) :: post ∧ ∀ e ∈ post, e.1 ≠ k := by
    intro l hl hm
    obtain ⟨pre, post, rfl⟩ := List.append_of_mem hm
    refine ⟨pre, post, rfl, fun e he hk => ?_⟩
    simp only [List.map_append, List.map_cons, List.nodup_append, List.nodup_cons] at hl
    exact hl.2.1.1 (List.mem_map.2 ⟨e, he, hk⟩)
  constructor
  · rintro ⟨pre, post, he, hno⟩
    rw [List.append_eq_append_iff] at he
    rcases he with ⟨pre', -, he⟩ | ⟨post', he, he'⟩
    · exact .inl (by rw [he]; simp)
    · cases post' with
      | nil => simp only [List.nil_append] at he'; exact .inl (by rw [← he']; simp)
      | cons x post' =>
        simp only [List.cons_append, List.cons.injEq] at he'
        obtain ⟨rfl, rfl⟩ := he'
        refine .inr ⟨fun hk => ?_, by rw [he]; simp⟩
        obtain ⟨e, he1, he2⟩ := List.mem_map.1 hk
        exact hno e (by simp [he1]) he2
  · rintro (hm | ⟨hk, hm⟩)
    · obtain ⟨pre, post, rfl, hno⟩ := hsplit hcn hm
      exact ⟨G ++ pre, post, by simp, hno⟩
    · obtain ⟨pre, post, he, hno⟩ := hsplit hGn hm
      refine ⟨pre, post ++ c, by rw [he]; simp, fun e he' => ?_⟩
      rcases List.mem_append.1 he' with he' | he'
      · exact hno e he'
      · rintro rfl; exact hk (List.mem_map.2 ⟨e, he', rfl⟩)

theorem context_nodup (E : Env) (ec : Option Entries) : ((effectiveContext E.rest ec).map (·.1)).Nodup := nodup_dictOf _

theorem mem_context_keys (E : Env) (ec : Option Entries) (k : Str) :
    k ∈ (effectiveContext E.rest ec).map (·.1) ↔ k ∈ (ownGlobals ++ E.rest ++ ec.getD []).map (·.1) := keys_dictOf _ _

theorem context_is (E : Env) (ec : Option Entries) (other : Entries) :
    Params.ContextIs (some (effectiveContext E.rest ec)) other (effectiveContext E.rest ec) := by
  refine .inl ⟨rfl, fun h => ?_⟩
  have : "_ZipCharFileKeyValuesSource".toList ∈ (effectiveContext E.rest ec).map (·.1) := by
    rw [mem_context_keys]; simp [ownGlobals]
  rw [h] at this; simp at this

/-- A name of the module evaluates to what it is bound to there. -/
theorem evaluates_own {E : Env} {ec : Option Entries} (h : Sane E ec) {n : Str} {v : PVal} (hn : (n, v) ∈ ownGlobals) (need : Str → Prop)
    (himp : ∀ k, need k → k ∉ (ownGlobals ++ E.rest ++ ec.getD []).map (·.1) → ∃ m, E.py.importModule k = .ok m) :
    Evaluates E.py (effectiveContext E.rest ec) need (.str n) v := by
  classical
  set ctx := effectiveContext E.rest ec with hctx
  have hnk : n ∈ ownGlobals.map (·.1) := List.mem_map.2 ⟨_, hn, rfl⟩
  have hin : (n, v) ∈ ctx := (C74_context E ec h n v).2 (.inr ⟨fun c hc => h.unshadowed c hc n hnk, by simp [hn]⟩)
  have hnd := context_nodup E ec
  rw [← hctx] at hnd
  refine ⟨fun k => match dictGet ctx k with
      | some w => some w
      | none => if need k then (match E.py.importModule k with | .ok m => some m | .error _ => none) else none, ?_, ?_, ?_, ?_⟩
  · intro k w hk; simp only [(dictGet_iff hnd k w).2 hk]
  · intro k hk hneed
    obtain ⟨m, hm⟩ := himp k hneed (by rw [← mem_context_keys]; exact hk)
    exact ⟨m, hm, by simp only [(dictGet_none_iff ctx k).2 hk, hneed, if_true, hm]⟩
  · intro k hk hneed
    simp only [(dictGet_none_iff ctx k).2 hk, hneed, if_false]
  · exact h.py.names n hnk _ v (by simp only [(dictGet_iff hnd n v).2 hin])

/-! ## Building -/

/-- The settings with which the six functions call `object_from_parameters`. -/
def args (E : Env) (table : Entries) (default : PVal) (ec : Option Entries) : Params.ObjectArgs :=
  { context := some (effectiveContext E.rest ec), factoryName := "type".toList, specialFactories := table, defaultFactory := default }

/-- Carrying out a plan. -/
def perform (E : Env) (isA : (PVal → Bool) → KVObj → Bool) (f : PVal) (xs : List PVal) : Prog KVObj := do
  let o ← call E.cwd E.others f xs
  if isA E.isOther o then Prog.pure o else Prog.raise o.refusal

theorem type_split : splitOn '.' "type".toList = ["type".toList] := by decide +kernel

/-- The type is evaluated, and the result is used as a factory on the namespace. -/
theorem plan_typed {E : Env} {ec : Option Entries} {p : Params} {name : Str} {ns : Params} {s : Str} {mods : List Str}
    (hT : Typed E ec p name ns s mods) (table : Entries) (hnd : (table.map (·.1)).Nodup) (default : PVal) (expected : PVal → Bool) (code f : PVal)
    (hcode : Params.CodeIs table s code)
    (hev : Evaluates E.py (effectiveContext E.rest ec) (fun k => ∃ t, .str t ∈ mods.map PVal.str ∧ PackageOf k t) code f) :
    p.planObject E.py name expected (args E table default ec) = Params.planFactory E.py f ns := by
  have hnwf : ns.WF := PVal.WF.reaches hT.wf hT.found
  have hin : p.contains name = true := (Params.contains_present hT.wf name).2 ⟨ns.toVal, by simp [Params.toVal], hT.found⟩
  have hhas : p.hasNamespace name = true := (Params.C47_namespace p hT.wf name).2.2.2 ⟨ns, hT.found⟩
  have hget : p.namespace name = .ok ns := ((Params.C47_namespace p hT.wf name).1 ns).2 hT.found
  have htype : Present ns "type".toList := ⟨.str s, by simp, by rw [type_split]; exact hT.type⟩
  have hone : ns.assertExactlyOnePresent ["value".toList, "type".toList] = .ok () :=
    (Params.C49_exactly_one ns hnwf _).1.2 ⟨["value".toList], _, [], rfl, htype, by simpa using hT.noValue, by simp⟩
  have hc : ns.contains "value".toList = false := by
    rw [Bool.eq_false_iff, ne_eq, Params.contains_present hnwf]; exact hT.noValue
  have hc' := (Params.contains_present hnwf _).2 htype
  have hf := (Params.C77_namespace E.py p hT.wf name (fun _ => true) (some (effectiveContext E.rest ec)) "type".toList table hnd .none ns hT.found _
    (context_is E ec _) (context_nodup E ec) f).2 ⟨s, code, mods.map .str, by rw [type_split]; exact hT.type, hcode, hT.imports, by simp, hev, rfl⟩
  unfold Params.planObject
  simp only [hin, hhas, if_true, Params.planNamespace, hget, args, bind, Except.bind, hone, hc, hc', Bool.false_eq_true, if_false, hf]

theorem build_plan (E : Env) (isA : (PVal → Bool) → KVObj → Bool) (table : Entries) (default : PVal) (p : Params) (name : Str)
    (ec : Option Entries) (fs : FS) :
    (∀ f xs, p.planObject E.py name (fun v => isA E.isOther (.value v)) (args E table default ec) = .ok (.call f xs) →
      build E isA table default p name ec fs = perform E isA f xs fs) ∧
    (∀ e, p.planObject E.py name (fun v => isA E.isOther (.value v)) (args E table default ec) = .error e →
      build E isA table default p name ec fs = (.error e, fs)) := by
  constructor
  · intro f xs h
    simp only [args] at h
    simp only [build, Prog.bind_apply, Prog.ofRes_apply, h, perform]
  · intro e h
    simp only [args] at h
    simp only [build, Prog.bind_apply, Prog.ofRes_apply, h]

/-- A type that is one of the shortcuts. -/
theorem build_own {E : Env} {ec : Option Entries} (hE : Sane E ec) {p : Params} {name : Str} {ns : Params} {s : Str} {mods : List Str}
    (hT : Typed E ec p name ns s mods) {table : Entries} (hnd : (table.map (·.1)).Nodup) (isA : (PVal → Bool) → KVObj → Bool) (default : PVal) {n : Str}
    (hs : (s, .str n) ∈ table) {k : Nat} (hk : k < 8) (hn : (n, .obj k) ∈ ownGlobals) (fs : FS) :
    (∀ g, ownFromParameters k = some g → build E isA table default p name ec fs = perform E isA g [ns.toVal] fs) ∧
    (ownFromParameters k = none → build E isA table default p name ec fs = perform E isA (.obj k) [] fs) := by
  have hplan := plan_typed hT table hnd default (fun v => isA E.isOther (.value v)) (.str n) (.obj k) (.inl hs) (evaluates_own hE hn _ (by
    rintro k ⟨t, ht, hp⟩ hk
    exact hT.importable k t (by simpa using ht) hp hk))
  simp only [Params.planFactory, hE.py.classes k hk, if_true, hE.py.fromParameters k hk] at hplan
  constructor
  · intro g hg
    rw [hg] at hplan
    exact (build_plan E isA table default p name ec fs).1 _ _ hplan
  · intro hg
    rw [hg] at hplan
    exact (build_plan E isA table default p name ec fs).1 _ _ hplan

theorem tables_nodup (chars : Bool) : ((sourceTable chars).map (·.1)).Nodup ∧ ((sinkTable chars).map (·.1)).Nodup := by
  cases chars <;> decide

theorem ns_wf {E : Env} {ec : Option Entries} {p : Params} {name : Str} {ns : Params} {s : Str} {mods : List Str} (hT : Typed E ec p name ns s mods) :
    ns.WF := PVal.WF.reaches hT.wf hT.found

/-- Carrying out a call that takes a location and makes an object of the right kind with it. -/
theorem perform_via {E : Env} {isA : (PVal → Bool) → KVObj → Bool} {f : PVal} {xs : List PVal} {act : Prog Loc} {make : Loc → KVObj}
    (hcall : call E.cwd E.others f xs = (do let l ← act; Prog.pure (make l))) (hA : ∀ l, isA E.isOther (make l) = true) (fs : FS) :
    (∀ l fs', act fs = (.ok l, fs') → perform E isA f xs fs = (.ok (make l), fs')) ∧
    (∀ e fs', act fs = (.error e, fs') → perform E isA f xs fs = (.error e, fs')) := by
  constructor
  · intro l fs' h
    simp only [perform, hcall, Prog.bind_apply, h, Prog.pure_apply, hA, if_true]
  · intro e fs' h
    simp only [perform, hcall, Prog.bind_apply, h]

/-! ## The sources -/

/-- The type `zip`: a zip source for the file named by `path`, which must exist; otherwise `ParameterError` (see `Refused`).  Nothing is changed.  This is
so for the plain and for the linear functions. -/
theorem C74_zip_source (E : Env) (ec : Option Entries) (hE : Sane E ec) (p : Params) (name : Str) (ns : Params) (mods : List Str)
    (hT : Typed E ec p name ns "zip".toList mods) (fs : FS) :
    (∀ l, PathIs E.cwd ns "path".toList l → (∃ c, fs.node l = some (.file c)) →
      charSource E p name ec fs = (.ok (.zipSource true l), fs) ∧ charLinearSource E p name ec fs = (.ok (.zipSource true l), fs) ∧
      byteSource E p name ec fs = (.ok (.zipSource false l), fs) ∧ byteLinearSource E p name ec fs = (.ok (.zipSource false l), fs)) ∧
    ((¬ ∃ l, PathIs E.cwd ns "path".toList l ∧ ∃ c, fs.node l = some (.file c)) →
      ∃ e, Params.Refused ns "path".toList .none e ∧
        charSource E p name ec fs = (.error e, fs) ∧ charLinearSource E p name ec fs = (.error e, fs) ∧
        byteSource E p name ec fs = (.error e, fs) ∧ byteLinearSource E p name ec fs = (.error e, fs)) := by
  obtain ⟨f1, f2⟩ := Params.C73_existing_file E.cwd ns (ns_wf hT) "path".toList fs
  have hc : ∀ d, build E KVObj.isSource (sourceTable true) d p name ec fs = perform E KVObj.isSource (.obj 10) [ns.toVal] fs := fun d =>
    (build_own hE hT (tables_nodup true).1 KVObj.isSource d (n := "_ZipCharFileKeyValuesSource".toList) (by simp [sourceTable]) (k := 0) (by omega)
      (by simp [ownGlobals]) fs).1 _ rfl
  have hb : ∀ d, build E KVObj.isSource (sourceTable false) d p name ec fs = perform E KVObj.isSource (.obj 11) [ns.toVal] fs := fun d =>
    (build_own hE hT (tables_nodup false).1 KVObj.isSource d (n := "_ZipBytesFileKeyValuesSource".toList) (by simp [sourceTable]) (k := 1) (by omega)
      (by simp [ownGlobals]) fs).1 _ rfl
  unfold charSource charLinearSource byteSource byteLinearSource
  simp only [hc, hb]
  have kc := perform_via (E := E) (isA := KVObj.isSource) (f := .obj 10) (xs := [ns.toVal]) (act := ns.existingFile E.cwd "path".toList)
    (make := .zipSource true) rfl (fun _ => rfl) fs
  have kb := perform_via (E := E) (isA := KVObj.isSource) (f := .obj 11) (xs := [ns.toVal]) (act := ns.existingFile E.cwd "path".toList)
    (make := .zipSource false) rfl (fun _ => rfl) fs
  refine ⟨fun l hl hf => ?_, fun hno => ?_⟩
  · simp only [kc.1 _ _ (f1 l hl hf), kb.1 _ _ (f1 l hl hf), and_self]
  · obtain ⟨e, he, hx⟩ := f2 hno
    exact ⟨e, he, by simp only [kc.2 _ _ hx, kb.2 _ _ hx, and_self]⟩

/-- If the file is a store of bytes, the source gives what is stored. -/
theorem C74_zip_bytes (E : Env) (ec : Option Entries) (hE : Sane E ec) (p : Params) (name : Str) (ns : Params) (mods : List Str)
    (hT : Typed E ec p name ns "zip".toList mods) (fs : FS) (l : Loc) (hl : PathIs E.cwd ns "path".toList l) (M : Str → Option Bytes) (hM : Stores fs l M) :
    byteSource E p name ec fs = (.ok (.zipSource false l), fs) ∧ byteLinearSource E p name ec fs = (.ok (.zipSource false l), fs) ∧
    ∃ src, zipBytesSource l fs = (.ok src, fs) ∧ Zip.Serves src.asSource PlainKey M := by
  obtain ⟨a, ha, -⟩ := id hM
  obtain ⟨-, -, h1, h2⟩ := (C74_zip_source E ec hE p name ns mods hT fs).1 l hl ⟨_, ha⟩
  exact ⟨h1, h2, zipBytesSource_spec hM⟩

/-- If the file is a store of texts, the source gives what is stored. -/
theorem C74_zip_chars (E : Env) (ec : Option Entries) (hE : Sane E ec) (p : Params) (name : Str) (ns : Params) (mods : List Str)
    (hT : Typed E ec p name ns "zip".toList mods) (fs : FS) (l : Loc) (hl : PathIs E.cwd ns "path".toList l) (M : Str → Option Str)
    (hM : StoresText fs l M) :
    charSource E p name ec fs = (.ok (.zipSource true l), fs) ∧ charLinearSource E p name ec fs = (.ok (.zipSource true l), fs) ∧
    ∃ src, zipCharSource l fs = (.ok src, fs) ∧ Zip.Serves src.asSource PlainKey M := by
  obtain ⟨a, ha, src, hs, hserve⟩ := hM
  obtain ⟨h1, h2, -⟩ := (C74_zip_source E ec hE p name ns mods hT fs).1 l hl ⟨_, ha⟩
  refine ⟨h1, h2, src, ?_, hserve⟩
  simp only [zipCharSource, Prog.bind_apply, readFile, ha, Prog.ofRes_apply, hs]

/-- Documented: the type `file-map` makes a source of a document map.  In fact the source is empty, whatever else the namespace says and
whatever the files hold. -/
theorem C74_file_map_counterexample (E : Env) (ec : Option Entries) (hE : Sane E ec) (p : Params) (name : Str) (ns : Params) (mods : List Str)
    (hT : Typed E ec p name ns "file-map".toList mods) (fs : FS) :
    charSource E p name ec fs = (.ok (.mapSource true []), fs) ∧ charLinearSource E p name ec fs = (.ok (.mapSource true []), fs) ∧
    byteSource E p name ec fs = (.ok (.mapSource false []), fs) ∧ byteLinearSource E p name ec fs = (.ok (.mapSource false []), fs) ∧
    (∀ fs', Zip.Serves (docMapSource readTextFile E.cwd [] fs') (fun _ => True) fun _ => none) ∧
    (∀ fs', Zip.Serves (docMapSource readBytesFile E.cwd [] fs') (fun _ => True) fun _ => none) := by
  have hc : ∀ d, build E KVObj.isSource (sourceTable true) d p name ec fs = perform E KVObj.isSource (.obj 2) [] fs := fun d =>
    (build_own hE hT (tables_nodup true).1 KVObj.isSource d (n := "_PathMappingCharKeyValueSource".toList) (by simp [sourceTable]) (k := 2) (by omega)
      (by simp [ownGlobals]) fs).2 rfl
  have hb : ∀ d, build E KVObj.isSource (sourceTable false) d p name ec fs = perform E KVObj.isSource (.obj 3) [] fs := fun d =>
    (build_own hE hT (tables_nodup false).1 KVObj.isSource d (n := "_PathMappingBytesKeyValueSource".toList) (by simp [sourceTable]) (k := 3) (by omega)
      (by simp [ownGlobals]) fs).2 rfl
  unfold charSource charLinearSource byteSource byteLinearSource
  simp only [hc, hb]
  refine ⟨by simp [perform, call, KVObj.isSource], by simp [perform, call, KVObj.isSource], by simp [perform, call, KVObj.isSource],
    by simp [perform, call, KVObj.isSource], fun fs' => ?_, fun fs' => ?_⟩
  all_goals exact ⟨⟨[], rfl, by simp, by simp⟩, by simp, fun k _ _ => ⟨rfl, fun _ _ => rfl⟩⟩

/-! ## The sinks -/

/-- The type `zip`: a zip sink for the file named by `path`; the directories above it are made.  Without a path `ParameterError` (see `Refused`), if a
file is in the way `OSError`, and then nothing changes. -/
theorem C74_zip_sink (E : Env) (ec : Option Entries) (hE : Sane E ec) (p : Params) (name : Str) (ns : Params) (mods : List Str)
    (hT : Typed E ec p name ns "zip".toList mods) (fs : FS) (ht : fs.Tree) :
    (∀ l, PathIs E.cwd ns "path".toList l → ¬ fs.Blocked l.dropLast → ∃ fs', fs.WithDirs l.dropLast fs' ∧ fs'.Tree ∧
      charSink E p name ec fs = (.ok (.zipSink true l), fs') ∧ byteSink E p name ec fs = (.ok (.zipSink false l), fs')) ∧
    (∀ l, PathIs E.cwd ns "path".toList l → fs.Blocked l.dropLast →
      charSink E p name ec fs = (.error .ioError, fs) ∧ byteSink E p name ec fs = (.error .ioError, fs)) ∧
    ((¬ ∃ l, PathIs E.cwd ns "path".toList l) →
      ∃ e, Params.Refused ns "path".toList .none e ∧ charSink E p name ec fs = (.error e, fs) ∧ byteSink E p name ec fs = (.error e, fs)) := by
  obtain ⟨f1, f2, f3⟩ := Params.C73_creatable_file E.cwd ns (ns_wf hT) "path".toList fs ht
  have hc : build E KVObj.isSink (sinkTable true) (.obj 6) p name ec fs = perform E KVObj.isSink (.obj 14) [ns.toVal] fs :=
    (build_own hE hT (tables_nodup true).2 KVObj.isSink _ (n := "_ZipCharFileKeyValueSink".toList) (by simp [sinkTable]) (k := 4) (by omega)
      (by simp [ownGlobals]) fs).1 _ rfl
  have hb : build E KVObj.isSink (sinkTable false) (.obj 7) p name ec fs = perform E KVObj.isSink (.obj 15) [ns.toVal] fs :=
    (build_own hE hT (tables_nodup false).2 KVObj.isSink _ (n := "_ZipBytesFileKeyValueSink".toList) (by simp [sinkTable]) (k := 5) (by omega)
      (by simp [ownGlobals]) fs).1 _ rfl
  unfold charSink byteSink
  simp only [hc, hb]
  have kc := perform_via (E := E) (isA := KVObj.isSink) (f := .obj 14) (xs := [ns.toVal]) (act := ns.creatableFile E.cwd "path".toList)
    (make := .zipSink true) rfl (fun _ => rfl) fs
  have kb := perform_via (E := E) (isA := KVObj.isSink) (f := .obj 15) (xs := [ns.toVal]) (act := ns.creatableFile E.cwd "path".toList)
    (make := .zipSink false) rfl (fun _ => rfl) fs
  refine ⟨fun l hl hf => ?_, fun l hl hf => ?_, fun hno => ?_⟩
  · obtain ⟨fs', h1, h2, h3⟩ := f1 l hl hf
    exact ⟨fs', h2, h3, kc.1 _ _ h1, kb.1 _ _ h1⟩
  · exact ⟨kc.2 _ _ (f2 l hl hf), kb.2 _ _ (f2 l hl hf)⟩
  · obtain ⟨e, he, hx⟩ := f3 hno
    exact ⟨e, he, kc.2 _ _ hx, kb.2 _ _ hx⟩

/-- The type `file-map` of a sink: a sink for the directory named by `path`, which must exist (and be empty, see `C62_not_empty`);
otherwise `ParameterError`.  Nothing is changed. -/
theorem C74_directory_sink (E : Env) (ec : Option Entries) (hE : Sane E ec) (p : Params) (name : Str) (ns : Params) (mods : List Str)
    (hT : Typed E ec p name ns "file-map".toList mods) (fs : FS) :
    (∀ l, PathIs E.cwd ns "path".toList l → fs.node l = some .dir →
      charSink E p name ec fs = (.ok (.dirSink true l), fs) ∧ byteSink E p name ec fs = (.ok (.dirSink false l), fs)) ∧
    ((¬ ∃ l, PathIs E.cwd ns "path".toList l ∧ fs.node l = some .dir) →
      ∃ e, Params.Refused ns "path".toList .none e ∧ charSink E p name ec fs = (.error e, fs) ∧ byteSink E p name ec fs = (.error e, fs)) := by
  obtain ⟨f1, f2⟩ := Params.C73_existing_directory E.cwd ns (ns_wf hT) "path".toList fs
  have hc : build E KVObj.isSink (sinkTable true) (.obj 6) p name ec fs = perform E KVObj.isSink (.obj 16) [ns.toVal] fs :=
    (build_own hE hT (tables_nodup true).2 KVObj.isSink _ (n := "_DirectoryCharKeyValueSink".toList) (by simp [sinkTable]) (k := 6) (by omega)
      (by simp [ownGlobals]) fs).1 _ rfl
  have hb : build E KVObj.isSink (sinkTable false) (.obj 7) p name ec fs = perform E KVObj.isSink (.obj 17) [ns.toVal] fs :=
    (build_own hE hT (tables_nodup false).2 KVObj.isSink _ (n := "_DirectoryBytesKeyValueSink".toList) (by simp [sinkTable]) (k := 7) (by omega)
      (by simp [ownGlobals]) fs).1 _ rfl
  unfold charSink byteSink
  simp only [hc, hb]
  have kc := perform_via (E := E) (isA := KVObj.isSink) (f := .obj 16) (xs := [ns.toVal]) (act := ns.existingDirectory E.cwd "path".toList)
    (make := .dirSink true) rfl (fun _ => rfl) fs
  have kb := perform_via (E := E) (isA := KVObj.isSink) (f := .obj 17) (xs := [ns.toVal]) (act := ns.existingDirectory E.cwd "path".toList)
    (make := .dirSink false) rfl (fun _ => rfl) fs
  refine ⟨fun l hl hf => ?_, fun hno => ?_⟩
  · exact ⟨kc.1 _ _ (f1 l hl hf), kb.1 _ _ (f1 l hl hf)⟩
  · obtain ⟨e, he, hx⟩ := f2 hno
    exact ⟨e, he, kc.2 _ _ hx, kb.2 _ _ hx⟩

/-! ## A sink and a source for the same file -/

theorem puts_ready {order : List Str → List Str} : ∀ (puts : List (Str × Bytes)) {o : ZipOut} {M : Str → Option Bytes}, Ready order o M →
    (puts.map (·.1)).Nodup → (∀ e ∈ puts, PlainKey e.1) → (∀ e ∈ puts, M e.1 = none) →
    (puts.foldl (fun o e => (o.put e.1 e.2).1) o).loc = o.loc ∧
    Ready order (puts.foldl (fun o e => (o.put e.1 e.2).1) o) (fun k => (dictGet puts k).or (M k))
  | [], o, M, h, _, _, _ => ⟨rfl, by simpa [dictGet] using h⟩
  | e :: puts, o, M, h, hnd, hk, hM => by
    simp only [List.map_cons, List.nodup_cons] at hnd
    obtain ⟨h1, -, h3⟩ := h.put (hk e (by simp)) e.2
    obtain ⟨-, h4⟩ := h3 (hM e (by simp))
    have hne : ∀ e' ∈ puts, e'.1 ≠ e.1 := fun e' he' h => hnd.1 (List.mem_map.2 ⟨e', he', h⟩)
    obtain ⟨h5, h6⟩ := puts_ready puts h4 hnd.2 (fun e' he' => hk e' (by simp [he'])) (fun e' he' => by
      rw [if_neg (hne e' he')]; exact hM e' (by simp [he']))
    refine ⟨h5.trans h1, ?_⟩
    rw [show (fun k => (dictGet (e :: puts) k).or (M k)) = fun k => (dictGet puts k).or (if k = e.1 then some e.2 else M k) from ?_]
    · exact h6
    funext k
    by_cases hke : k = e.1
    · subst hke
      rw [(dictGet_iff (by simpa using hnd) e.1 e.2).2 (by simp), (dictGet_none_iff puts e.1).2 hnd.1]
      simp
    · rw [if_neg hke]
      have : dictGet (e :: puts) k = dictGet puts k := by
        rw [Option.ext_iff]
        intro v
        rw [dictGet_iff (by simpa using hnd), dictGet_iff hnd.2]
        simp only [List.mem_cons]
        constructor
        · rintro (h | h)
          · exact absurd (by rw [← h]) hke
          · exact h
        · exact .inr
      rw [this]

/-- What is put into a zip sink made from parameters is what a zip source made from parameters, for the same path, then offers. -/
theorem C74_roundtrip (E : Env) (ec ec' : Option Entries) (hE : Sane E ec) (hE' : Sane E ec') (p p' : Params) (name name' : Str) (ns ns' : Params)
    (mods mods' : List Str) (hT : Typed E ec p name ns "zip".toList mods) (hT' : Typed E ec' p' name' ns' "zip".toList mods') (l : Loc)
    (hl : PathIs E.cwd ns "path".toList l) (hl' : PathIs E.cwd ns' "path".toList l) (fs : FS) (ht : fs.Tree) (hb : ¬ fs.Blocked l.dropLast)
    (hne : l ≠ []) (hd : fs.node l ≠ some .dir) (order : List Str → List Str) (horder : ∀ x, (order x).Perm x) (puts : List (Str × Bytes))
    (hnd : (puts.map (·.1)).Nodup) (hk : ∀ e ∈ puts, PlainKey e.1) (M : Str → Option Bytes) (hM : ∀ k v, M k = some v ↔ (k, v) ∈ puts) :
    ∃ fs1 o fs2 fs3 src, byteSink E p name ec fs = (.ok (.zipSink false l), fs1) ∧ ZipOut.enter order l fs1 = (.ok o, fs2) ∧
      (puts.foldl (fun o e => (o.put e.1 e.2).1) o).close fs2 = (.ok (), fs3) ∧
      byteSource E p' name' ec' fs3 = (.ok (.zipSource false l), fs3) ∧ byteLinearSource E p' name' ec' fs3 = (.ok (.zipSource false l), fs3) ∧
      zipBytesSource l fs3 = (.ok src, fs3) ∧ Zip.Serves src.asSource PlainKey M := by
  obtain ⟨fs1, a1, a2, -, a3⟩ := (C74_zip_sink E ec hE p name ns mods hT fs ht).1 l hl hb
  have hpre : ¬ l <+: l.dropLast := by
    intro h
    have := h.length_le
    have := List.length_pos_iff.2 hne
    simp only [List.length_dropLast] at *
    omega
  obtain ⟨o, fs2, b1, b2, b3, b4, b5⟩ := (enter_spec order a2 l).1 hne (a1.1 _ List.prefix_rfl) (by rw [a1.2 _ hpre]; exact hd)
  obtain ⟨c1, c2⟩ := puts_ready puts b3 hnd hk (fun _ _ => rfl)
  obtain ⟨fs3, d1, d2, -, -⟩ := close_spec horder c2 b5 (by rw [c1, b2]; exact ⟨_, b4.1⟩)
  rw [c1, b2] at d2
  obtain ⟨e1, e2, src, e3, e4⟩ := C74_zip_bytes E ec' hE' p' name' ns' mods' hT' fs3 l hl' _ d2
  refine ⟨fs1, o, fs2, fs3, src, a3, b1, d1, e1, e2, e3, ?_⟩
  have : M = fun k => (dictGet puts k).or none := by
    funext k
    rw [Option.or_none, Option.ext_iff]
    intro v
    rw [dictGet_iff hnd, hM]
  rw [this]
  exact e4

/-! ## Other types -/

/-- The test of the type made by the function. -/
def Which.isA : Which → (PVal → Bool) → KVObj → Bool
  | .charSink | .byteSink => KVObj.isSink
  | _ => KVObj.isSource

def Which.table : Which → Entries
  | .charSource | .charLinearSource => sourceTable true
  | .byteSource | .byteLinearSource => sourceTable false
  | .charSink => sinkTable true
  | .byteSink => sinkTable false

def Which.default : Which → PVal
  | .charSource | .charLinearSource | .byteSource => .obj 8
  | .byteLinearSource => .obj 9
  | .charSink => .obj 6
  | .byteSink => .obj 7

theorem Which.run_eq (w : Which) (E : Env) (p : Params) (name : Str) (ec : Option Entries) :
    w.run E p name ec = build E w.isA w.table w.default p name ec := by cases w <;> rfl

theorem Which.isA_iff (w : Which) (E : Env) (o : KVObj) : w.isA E.isOther o = true ↔ w.Fits E o := by
  cases w <;> cases o <;> simp [Which.isA, Which.Fits, KVObj.isSource, KVObj.isSink]

theorem Which.table_keys (w : Which) : w.table.map (·.1) = ["zip".toList, "file-map".toList] := by
  cases w <;> rfl

theorem Which.table_nodup (w : Which) : (w.table.map (·.1)).Nodup := by
  rw [w.table_keys]; decide

/-- What is raised for an object of the wrong kind: `ParameterError`, except for a `Parameters` object that cannot be written as text. -/
def KindRefused (o : KVObj) (e : Exc) : Prop :=
  (∀ v, o = .value v → Params.RaisedWith .parameterError v e) ∧ ((∀ v, o ≠ .value v) → e = .parameterError)

theorem refusal_spec (o : KVObj) : KindRefused o o.refusal := by
  cases o with
  | value v => exact ⟨fun v' h => by cases h; exact Params.raising_spec _ _, fun h => absurd rfl (h v)⟩
  | _ => exact ⟨fun v' h => (by cases h), fun _ => rfl⟩

theorem perform_iff (w : Which) (E : Env) (g : PVal) (xs : List PVal) (fs : FS) :
    (∀ o fs', call E.cwd E.others g xs fs = (.ok o, fs') → w.Fits E o → perform E w.isA g xs fs = (.ok o, fs')) ∧
    (∀ o fs', call E.cwd E.others g xs fs = (.ok o, fs') → ¬ w.Fits E o → perform E w.isA g xs fs = (.error o.refusal, fs')) ∧
    (∀ e fs', call E.cwd E.others g xs fs = (.error e, fs') → perform E w.isA g xs fs = (.error e, fs')) := by
  refine ⟨fun o fs' h hf => ?_, fun o fs' h hf => ?_, fun e fs' h => ?_⟩
  · rw [← w.isA_iff] at hf
    simp only [perform, Prog.bind_apply, h, hf, if_true, Prog.pure_apply]
  · rw [← w.isA_iff, Bool.not_eq_true] at hf
    simp only [perform, Prog.bind_apply, h, hf, Bool.false_eq_true, if_false, Prog.raise_apply]
  · simp only [perform, Prog.bind_apply, h]

/-- A type that is not a shortcut is evaluated as an expression (in the context, after the imports) and used as a factory on the
namespace; the object it makes is returned if it is of the right kind, otherwise there is `ParameterError` (see `KindRefused`).  If it is no factory,
`ParameterError`. -/
theorem C74_custom (w : Which) (E : Env) (ec : Option Entries) (p : Params) (name : Str) (ns : Params) (s : Str) (mods : List Str)
    (hT : Typed E ec p name ns s mods) (hs : s ≠ "zip".toList ∧ s ≠ "file-map".toList) (f : PVal)
    (hev : Evaluates E.py (effectiveContext E.rest ec) (fun k => ∃ t ∈ mods, PackageOf k t) (.str s) f) (fs : FS) :
    (∀ g xs, Calls E.py f ns g xs →
      (∀ o fs', call E.cwd E.others g xs fs = (.ok o, fs') → w.Fits E o → w.run E p name ec fs = (.ok o, fs')) ∧
      (∀ o fs', call E.cwd E.others g xs fs = (.ok o, fs') → ¬ w.Fits E o → ∃ e, KindRefused o e ∧ w.run E p name ec fs = (.error e, fs')) ∧
      (∀ e fs', call E.cwd E.others g xs fs = (.error e, fs') → w.run E p name ec fs = (.error e, fs'))) ∧
    ((¬ ∃ g xs, Calls E.py f ns g xs) → w.run E p name ec fs = (.error .parameterError, fs)) := by
  have hev' : Evaluates E.py (effectiveContext E.rest ec) (fun k => ∃ t, .str t ∈ mods.map PVal.str ∧ PackageOf k t) (.str s) f := by
    simpa using hev
  have hcode : Params.CodeIs w.table s (.str s) := .inr ⟨by rw [w.table_keys]; simpa using hs, rfl⟩
  have hplan := plan_typed hT w.table w.table_nodup w.default (fun v => w.isA E.isOther (.value v)) _ f hcode hev'
  obtain ⟨b1, b2⟩ := build_plan E w.isA w.table w.default p name ec fs
  rw [w.run_eq]
  constructor
  · intro g xs hg
    have : Params.planFactory E.py f ns = .ok (.call g xs) := by
      cases hg with
      | fromParameters h1 h2 => simp only [Params.planFactory, h1, h2, if_true]
      | «class» h1 h2 => simp only [Params.planFactory, h1, h2, if_true]
      | function h1 h2 => simp only [Params.planFactory, h1, h2, if_true, Bool.false_eq_true, if_false]
    rw [this] at hplan
    rw [b1 _ _ hplan]
    obtain ⟨q1, q2, q3⟩ := perform_iff w E g xs fs
    exact ⟨q1, fun o fs' ho hf => ⟨_, refusal_spec o, q2 o fs' ho hf⟩, q3⟩
  · intro hno
    refine b2 _ (hplan.trans ?_)
    unfold Params.planFactory
    by_cases hc : E.py.isClass f = true
    · exfalso
      cases hg : E.py.fromParameters f with
      | some g => exact hno ⟨_, _, .fromParameters hc hg⟩
      | none => exact hno ⟨_, _, .class hc hg⟩
    · by_cases hc' : E.py.callable f = true
      · exact absurd ⟨_, _, .function (by simpa using hc) hc'⟩ hno
      · simp only [hc, hc', Bool.false_eq_true, if_false]

/-- A type that is not a shortcut and cannot be evaluated: `ParameterError`, and nothing changes. -/
theorem C74_unknown_type (w : Which) (E : Env) (ec : Option Entries) (p : Params) (name : Str) (ns : Params) (s : Str) (mods : List Str)
    (hT : Typed E ec p name ns s mods) (hs : s ≠ "zip".toList ∧ s ≠ "file-map".toList)
    (hev : ¬ ∃ f, Evaluates E.py (effectiveContext E.rest ec) (fun k => ∃ t ∈ mods, PackageOf k t) (.str s) f) (fs : FS) :
    w.run E p name ec fs = (.error .parameterError, fs) := by
  have hnwf : ns.WF := ns_wf hT
  have hin : p.contains name = true := (Params.contains_present hT.wf name).2 ⟨ns.toVal, by simp [Params.toVal], hT.found⟩
  have hhas : p.hasNamespace name = true := (Params.C47_namespace p hT.wf name).2.2.2 ⟨ns, hT.found⟩
  have hget : p.namespace name = .ok ns := ((Params.C47_namespace p hT.wf name).1 ns).2 hT.found
  have htype : Present ns "type".toList := ⟨.str s, by simp, by rw [type_split]; exact hT.type⟩
  have hone : ns.assertExactlyOnePresent ["value".toList, "type".toList] = .ok () :=
    (Params.C49_exactly_one ns hnwf _).1.2 ⟨["value".toList], _, [], rfl, htype, by simpa using hT.noValue, by simp⟩
  have hc : ns.contains "value".toList = false := by
    rw [Bool.eq_false_iff, ne_eq, Params.contains_present hnwf]; exact hT.noValue
  have hc' := (Params.contains_present hnwf _).2 htype
  have hf : ∀ f, p.evaluate E.py name (fun _ => true) (some (effectiveContext E.rest ec)) "type".toList w.table ≠ .ok f := by
    intro f hf
    obtain ⟨s', code, mods', h1, h2, h3, h4, h5, -⟩ := (Params.C77_namespace E.py p hT.wf name (fun _ => true)
      (some (effectiveContext E.rest ec)) "type".toList w.table w.table_nodup .none ns hT.found _ (context_is E ec _) (context_nodup E ec) f).1 hf
    rw [type_split] at h1
    have h1' := PVal.reaches_unique hnwf h1 hT.type
    simp only [PVal.str.injEq] at h1'
    subst h1'
    have hmods : mods' = mods.map .str := by
      obtain ⟨w1, e1, e2⟩ := (Params.imports_iff hnwf _).1 h3
      obtain ⟨w2, e3, e4⟩ := (Params.imports_iff hnwf _).1 hT.imports
      rw [e1, Except.ok.injEq] at e3
      rw [← e2, ← e4, e3]
    subst hmods
    rcases h2 with h2 | ⟨-, rfl⟩
    · have := List.mem_map_of_mem (f := (·.1)) h2
      rw [w.table_keys] at this
      simp only [List.mem_cons, List.not_mem_nil, or_false] at this
      rcases this with h | h
      · exact hs.1 h
      · exact hs.2 h
    · exact hev ⟨f, by simpa using h5⟩
  have herr : p.evaluate E.py name (fun _ => true) (some (effectiveContext E.rest ec)) "type".toList w.table = .error .parameterError := by
    cases hb : p.evaluate E.py name (fun _ => true) (some (effectiveContext E.rest ec)) "type".toList w.table with
    | ok v => exact absurd hb (hf v)
    | error e => rw [Params.C77_errors E.py p hT.wf name _ _ _ _ _ e hb]
  rw [w.run_eq]
  refine (build_plan E w.isA w.table w.default p name ec fs).2 _ ?_
  unfold Params.planObject
  simp only [hin, hhas, if_true, Params.planNamespace, hget, args, bind, Except.bind, hone, hc, hc', Bool.false_eq_true, if_false, herr]

/-- The namespace must have exactly one of `type` and `value`: otherwise `ParameterError`, and nothing changes. -/
theorem C74_no_type (w : Which) (E : Env) (ec : Option Entries) (p : Params) (h : p.WF) (name : Str) (ns : Params)
    (hns : p.toVal.Reaches (splitOn '.' name) ns.toVal) (hno : Present ns "value".toList ↔ Present ns "type".toList) (fs : FS) :
    w.run E p name ec fs = (.error .parameterError, fs) := by
  have hnwf : ns.WF := PVal.WF.reaches h hns
  have hin : p.contains name = true := (Params.contains_present h name).2 ⟨ns.toVal, by simp [Params.toVal], hns⟩
  have hhas : p.hasNamespace name = true := (Params.C47_namespace p h name).2.2.2 ⟨ns, hns⟩
  have hget : p.namespace name = .ok ns := ((Params.C47_namespace p h name).1 ns).2 hns
  have hone := (one_of_two hnwf _ _).2 hno
  rw [w.run_eq]
  refine (build_plan E w.isA w.table w.default p name ec fs).2 _ ?_
  unfold Params.planObject
  simp only [hin, hhas, if_true, Params.planNamespace, hget, args, bind, Except.bind, hone]

/-! ## Values -/

/-- Whatever the parameters say: what is returned is of the right kind. -/
theorem C74_kind (w : Which) (E : Env) (ec : Option Entries) (p : Params) (name : Str) (fs fs' : FS) (o : KVObj)
    (h : w.run E p name ec fs = (.ok o, fs')) : w.Fits E o := by
  rw [w.run_eq] at h
  rw [← w.isA_iff]
  simp only [build, Prog.bind_apply, Prog.ofRes_apply] at h
  split at h
  · rename_i plan fs1 hplan
    cases plan with
    | value v =>
      simp only at h
      split at h
      · simp only [Prog.pure_apply, Prod.mk.injEq, Except.ok.injEq] at h
        rw [← h.1]; assumption
      · simp [Prog.raise_apply] at h
    | call f xs =>
      simp only [Prog.bind_apply] at h
      split at h
      · split at h
        · simp only [Prog.pure_apply, Prod.mk.injEq, Except.ok.injEq] at h
          rw [← h.1]; assumption
        · simp [Prog.raise_apply] at h
      · simp at h
  · simp at h

theorem value_split : splitOn '.' "value".toList = ["value".toList] := by decide +kernel

/-- A namespace with a `value` instead of a `type`: the value is evaluated, and is the source or sink itself; `ParameterError` (see
`RaisedWith`) if it is not of the right kind. -/
theorem C74_value (w : Which) (E : Env) (ec : Option Entries) (p : Params) (h : p.WF) (name : Str) (ns : Params)
    (hns : p.toVal.Reaches (splitOn '.' name) ns.toVal) (s : Str) (hv : ns.toVal.Reaches ["value".toList] (.str s))
    (hno : ¬ Present ns "type".toList) (mods : List Str) (hm : ImportsStrings ns mods) (v : PVal)
    (hev : Evaluates E.py (effectiveContext E.rest ec) (fun k => ∃ t ∈ mods, PackageOf k t) (.str s) v) (fs : FS) :
    (w.Fits E (.value v) → w.run E p name ec fs = (.ok (.value v), fs)) ∧
    (¬ w.Fits E (.value v) → ∃ e, Params.RaisedWith .parameterError v e ∧ w.run E p name ec fs = (.error e, fs)) := by
  have hnwf : ns.WF := PVal.WF.reaches h hns
  have hin : p.contains name = true := (Params.contains_present h name).2 ⟨ns.toVal, by simp [Params.toVal], hns⟩
  have hhas : p.hasNamespace name = true := (Params.C47_namespace p h name).2.2.2 ⟨ns, hns⟩
  have hget : p.namespace name = .ok ns := ((Params.C47_namespace p h name).1 ns).2 hns
  have hval : Present ns "value".toList := ⟨.str s, by simp, by rw [value_split]; exact hv⟩
  have hone : ns.assertExactlyOnePresent ["value".toList, "type".toList] = .ok () :=
    (one_of_two hnwf _ _).1 (fun h => hno (h.1 hval))
  have hc := (Params.contains_present hnwf _).2 hval
  have hf := (Params.C77_namespace E.py p h name (fun _ => true) (some (effectiveContext E.rest ec)) "value".toList [] (by simp) .none ns hns _
    (context_is E ec _) (context_nodup E ec) v).2 ⟨s, .str s, mods.map .str, by rw [value_split]; exact hv, .inr ⟨by simp, rfl⟩, hm, by simp,
      by simpa using hev, rfl⟩
  have hplan : p.planObject E.py name (fun v => w.isA E.isOther (.value v)) (args E w.table w.default ec) = .ok (.value v) := by
    unfold Params.planObject
    simp only [hin, hhas, if_true, Params.planNamespace, hget, args, bind, Except.bind, hone, hc, hf]
  simp only [args] at hplan
  rw [w.run_eq, ← w.isA_iff]
  refine ⟨fun hfit => ?_, fun hfit => ?_⟩
  · simp only [build, Prog.bind_apply, Prog.ofRes_apply, hplan, hfit, if_true, Prog.pure_apply]
  · rw [Bool.not_eq_true] at hfit
    exact ⟨_, Params.raising_spec _ v, by
      simp only [build, Prog.bind_apply, Prog.ofRes_apply, hplan, hfit, Bool.false_eq_true, if_false, Prog.raise_apply, KVObj.refusal]⟩

/-- A plain string that is not a shortcut is evaluated, with its proper dotted prefixes as modules, to the source or sink itself; it is a
`TypeError` (see `RaisedWith`) if it is not of the right kind. -/
theorem C74_string (w : Which) (E : Env) (ec : Option Entries) (p : Params) (h : p.WF) (name s : Str)
    (hr : p.toVal.Reaches (splitOn '.' name) (.str s)) (hs : s ≠ "zip".toList ∧ s ≠ "file-map".toList) (v : PVal)
    (hev : Evaluates E.py (effectiveContext E.rest ec) (fun k => ∃ rest, s = k ++ '.' :: rest) (.str s) v) (fs : FS) :
    (w.Fits E (.value v) → w.run E p name ec fs = (.ok (.value v), fs)) ∧
    (¬ w.Fits E (.value v) → ∃ e, Params.RaisedWith .typeError v e ∧ w.run E p name ec fs = (.error e, fs)) := by
  have hin : p.contains name = true := (Params.contains_present h name).2 ⟨_, by simp, hr⟩
  have hhas : p.hasNamespace name = false := by
    rw [← Bool.not_eq_true, (Params.C47_namespace p h name).2.2]
    rintro ⟨q, hq⟩
    have := PVal.reaches_unique h hr hq
    simp [Params.toVal] at this
  have hstr : p.string name = .ok (.str s) := ((Params.string_iff h name).1 _).2 ⟨s, rfl, hr⟩
  have hmem : dictGet w.table s = none := by
    rw [dictGet_none_iff, w.table_keys]
    simp only [List.mem_cons, List.not_mem_nil, or_false, not_or]
    exact hs
  have hctx : Params.contextOr (some (effectiveContext E.rest ec)) E.py.globals = effectiveContext E.rest ec :=
    ((Params.contextOr_iff _ _ _).1 (context_is E ec _)).symm
  have hok : ∀ expected : PVal → Bool, expected v = true → Params.evalInContext E.py (.str s) (effectiveContext E.rest ec)
      ((Params.contextModulesFromPrefix s).map .str) expected = .ok v := by
    intro expected hx
    refine (Params.evalInContext_iff E.py _ _ (context_nodup E ec) _ expected v).2 ⟨by simp, ?_, hx⟩
    rw [show (fun k => ∃ m, PVal.str m ∈ (Params.contextModulesFromPrefix s).map PVal.str ∧ PackageOf k m) =
      fun k => ∃ rest, s = k ++ '.' :: rest from by funext k; rw [Params.need_of_text]]
    exact hev
  have hplan : p.planObject E.py name (fun v => w.isA E.isOther (.value v)) (args E w.table w.default ec) =
      (do let v ← Params.evalInContext E.py (.str s) (effectiveContext E.rest ec) ((Params.contextModulesFromPrefix s).map .str)
            (fun v => w.isA E.isOther (.value v))
          .ok (.value v)) := by
    unfold Params.planObject
    simp only [hin, hhas, if_true, Bool.false_eq_true, if_false, args, Params.planString, hstr, Params.text, bind, Except.bind,
      show dictGet ([] : Entries) s = none from rfl, hmem, hctx, Option.isSome_none]
  refine ⟨fun hfit => ?_, fun hfit => ?_⟩
  · rw [← w.isA_iff] at hfit
    rw [hok _ hfit] at hplan
    simp only [args, bind, Except.bind] at hplan
    rw [w.run_eq]
    simp only [build, Prog.bind_apply, Prog.ofRes_apply, hplan, hfit, if_true, Prog.pure_apply]
  · rw [← w.isA_iff, Bool.not_eq_true] at hfit
    have hall := hok (fun _ => true) rfl
    have : Params.evalInContext E.py (.str s) (effectiveContext E.rest ec) ((Params.contextModulesFromPrefix s).map .str)
        (fun v => w.isA E.isOther (.value v)) = .error (Params.raising .typeError v) := by
      unfold Params.evalInContext at hall ⊢
      simp only [bind, Except.bind] at hall ⊢
      cases hfold : ((Params.contextModulesFromPrefix s).map PVal.str).foldlM (Params.importOne E.py) (effectiveContext E.rest ec) with
      | error e => rw [hfold] at hall; simp at hall
      | ok e =>
        rw [hfold] at hall
        simp only at hall ⊢
        cases hr' : E.py.eval (.str s) (dictGet e) with
        | error e' => rw [hr'] at hall; simp at hall
        | ok r =>
          rw [hr'] at hall
          simp only [if_true, Except.ok.injEq] at hall
          subst hall
          simp only [hfit, Bool.false_eq_true, if_false]
    rw [this] at hplan
    rw [w.run_eq]
    exact ⟨_, Params.raising_spec _ v, (build_plan E w.isA w.table w.default p name ec fs).2 _ hplan⟩

/-! ## The defaults -/

theorem path_split : splitOn '.' "path".toList = ["path".toList] := by decide +kernel

theorem empty_not_found (pfx : List Str) (v : PVal) : ¬ Params.Found (Params.empty pfx) "path".toList .none v := by
  intro hs
  simp only [Params.Found, path_split] at hs
  rcases hs with hs | hs
  rotate_left
  · simp at hs
  cases hs with
  | step hm _ => simp [Params.empty] at hm

theorem empty_no_path (cwd : PyPath) (pfx : List Str) : ¬ ∃ l, PathIs cwd (Params.empty pfx) "path".toList l := by
  rintro ⟨l, s, hs, -⟩
  exact empty_not_found pfx _ hs

/-- The default factory, on the empty parameters it is always given, fails. -/
theorem default_fails (w : Which) (E : Env) (hpy : Understands E.py) (pfx : List Str) (fs : FS) :
    ∃ g, Params.planFactory E.py w.default (Params.empty pfx) = .ok (.call g [(Params.empty pfx).toVal]) ∧
      perform E w.isA g [(Params.empty pfx).toVal] fs = (.error .parameterError, fs) := by
  have hwf : (Params.empty pfx).WF := .params (by simp [Params.empty]) (by simp [Params.empty]) (by simp [Params.empty])
  have hno := empty_no_path E.cwd pfx
  obtain ⟨e, he, f2⟩ := (Params.C73_existing_file E.cwd _ hwf "path".toList fs).2 (fun ⟨l, hl, _⟩ => hno ⟨l, hl⟩)
  obtain rfl : e = .parameterError := he.2 fun ⟨v, hv, _⟩ => empty_not_found pfx v hv
  obtain ⟨e, he, d2⟩ := (Params.C73_existing_directory E.cwd _ hwf "path".toList fs).2 (fun ⟨l, hl, _⟩ => hno ⟨l, hl⟩)
  obtain rfl : e = .parameterError := he.2 fun ⟨v, hv, _⟩ => empty_not_found pfx v hv
  have h8 := hpy.functions 8 (.inl rfl)
  have h9 := hpy.functions 9 (.inr rfl)
  have h6 := hpy.classes 6 (by omega)
  have h7 := hpy.classes 7 (by omega)
  have h6' := hpy.fromParameters 6 (by omega)
  have h7' := hpy.fromParameters 7 (by omega)
  have c8 : ∀ isA, perform E isA (.obj 8) [(Params.empty pfx).toVal] fs = (.error .parameterError, fs) := by
    intro isA
    simp only [perform, Prog.bind_apply]
    rw [show call E.cwd E.others (.obj 8) [(Params.empty pfx).toVal] = (do
      let l ← (Params.empty pfx).existingFile E.cwd "path".toList
      Prog.pure (.mapSource true (← docMapEntries E.cwd (Loc.toPath l)))) from rfl]
    simp only [Prog.bind_apply, f2]
  have c9 : ∀ isA, perform E isA (.obj 9) [(Params.empty pfx).toVal] fs = (.error .parameterError, fs) := by
    intro isA
    simp only [perform, Prog.bind_apply]
    rw [show call E.cwd E.others (.obj 9) [(Params.empty pfx).toVal] = (do
      let l ← (Params.empty pfx).existingFile E.cwd "path".toList
      Prog.pure (.mapSource false (← docMapEntries E.cwd (Loc.toPath l)))) from rfl]
    simp only [Prog.bind_apply, f2]
  have c16 := (perform_via (E := E) (isA := KVObj.isSink) (f := .obj 16) (xs := [(Params.empty pfx).toVal])
    (act := (Params.empty pfx).existingDirectory E.cwd "path".toList) (make := .dirSink true) rfl (fun _ => rfl) fs).2 _ _ d2
  have c17 := (perform_via (E := E) (isA := KVObj.isSink) (f := .obj 17) (xs := [(Params.empty pfx).toVal])
    (act := (Params.empty pfx).existingDirectory E.cwd "path".toList) (make := .dirSink false) rfl (fun _ => rfl) fs).2 _ _ d2
  cases w with
  | charSource => exact ⟨.obj 8, by simp only [Params.planFactory, Which.default, h8, Bool.false_eq_true, if_false, if_true], c8 _⟩
  | charLinearSource => exact ⟨.obj 8, by simp only [Params.planFactory, Which.default, h8, Bool.false_eq_true, if_false, if_true], c8 _⟩
  | byteSource => exact ⟨.obj 8, by simp only [Params.planFactory, Which.default, h8, Bool.false_eq_true, if_false, if_true], c8 _⟩
  | byteLinearSource => exact ⟨.obj 9, by simp only [Params.planFactory, Which.default, h9, Bool.false_eq_true, if_false, if_true], c9 _⟩
  | charSink => exact ⟨.obj 16, by simp only [Params.planFactory, Which.default, h6, h6', if_true]; rfl, c16⟩
  | byteSink => exact ⟨.obj 17, by simp only [Params.planFactory, Which.default, h7, h7', if_true]; rfl, c17⟩

/-- Documented: if no type is given, a source for a document map (a sink for a directory) is made.  In fact, if the namespace is absent,
all six functions raise `ParameterError`, whatever else the parameters and the files hold. -/
theorem C74_default_counterexample (w : Which) (E : Env) (ec : Option Entries) (hpy : Understands E.py) (p : Params) (h : p.WF) (name : Str)
    (hno : ¬ Present p name) (fs : FS) : w.run E p name ec fs = (.error .parameterError, fs) := by
  have hin : p.contains name = false := by rw [← Bool.not_eq_true, Params.contains_present h name]; exact hno
  obtain ⟨g, h1, h2⟩ := default_fails w E hpy (Params.extendPrefix p.pfx name) fs
  rw [w.run_eq, (build_plan E w.isA w.table w.default p name ec fs).1 g _ ?_, h2]
  have hd : w.default.isNone = false := by cases w <;> rfl
  unfold Params.planObject
  simp only [hin, Bool.false_eq_true, if_false, args, show PVal.none.isNone = true from rfl, Bool.not_true, hd, Bool.not_false, if_true, h1]

/-- Given a shortcut as a plain string where the namespace is expected, all six functions raise `ParameterError`: the factory asked for is
not used, but the default one. -/
theorem C74_string_counterexample (w : Which) (E : Env) (ec : Option Entries) (hpy : Understands E.py) (p : Params) (h : p.WF) (name s : Str)
    (hs : s = "zip".toList ∨ s = "file-map".toList) (hr : p.toVal.Reaches (splitOn '.' name) (.str s)) (fs : FS) :
    w.run E p name ec fs = (.error .parameterError, fs) := by
  have hin : p.contains name = true := (Params.contains_present h name).2 ⟨_, by simp, hr⟩
  have hhas : p.hasNamespace name = false := by
    rw [← Bool.not_eq_true, (Params.C47_namespace p h name).2.2]
    rintro ⟨q, hq⟩
    have := PVal.reaches_unique h hr hq
    simp [Params.toVal] at this
  have hstr : p.string name = .ok (.str s) := ((Params.string_iff h name).1 _).2 ⟨s, rfl, hr⟩
  obtain ⟨g, h1, h2⟩ := default_fails w E hpy (Params.extendPrefix p.pfx name) fs
  rw [w.run_eq, (build_plan E w.isA w.table w.default p name ec fs).1 g _ ?_, h2]
  have hmem : (dictGet w.table s).isSome = true := by
    rw [Option.isSome_iff_ne_none, ne_eq, dictGet_none_iff, w.table_keys]
    simp only [List.mem_cons, List.not_mem_nil, or_false, not_not]
    exact hs
  unfold Params.planObject
  simp only [hin, hhas, if_true, Bool.false_eq_true, if_false, args, Params.planString, hstr, Params.text, bind, Except.bind,
    show dictGet ([] : Entries) s = none from rfl, hmem, h1]

end FromParams

/-! ## Examples -/

namespace FromParamsExample
open FromParams

/-- An interpreter that knows names, and the objects of the module. -/
def py : Py where
  eval code env := match code with
    | .str s => match env s with | some v => .ok v | none => .error .other
    | _ => .error .typeError
  importModule s := if s = "pkg".toList then .ok (.obj 50) else .error .other
  isClass v := match v with | .obj k => decide (k < 8) | _ => false
  fromParameters v := match v with | .obj k => ownFromParameters k | _ => none
  callable v := match v with | .obj _ => true | _ => false
  call _ _ := .error .typeError
  globals := []
  locals _ _ := []

def env : Env where
  py := py
  others f _ := match f with | .obj 100 => Prog.pure (.value (.obj 101)) | _ => Prog.raise .typeError
  isOther v := match v with | .obj 101 => true | _ => false
  cwd := ⟨"/".toList, ["home".toList]⟩
  rest := [("KeyValueSink".toList, .obj 60)]

theorem understands : Understands py where
  names n _ env v h := by simp only [py, h]
  classes k h := by simp [py, h]
  fromParameters _ _ := rfl
  functions k h := by rcases h with rfl | rfl <;> decide

theorem sane : Sane env (some [("mine".toList, .obj 100)]) where
  py := understands
  globals := by decide
  context c hc := by simp only [Option.some.injEq] at hc; subst hc; decide
  unshadowed c hc := by simp only [Option.some.injEq] at hc; subst hc; decide

def ns (t : String) : Params := ⟨["input".toList], [("type".toList, .str t.toList), ("path".toList, .str "d/x.zip".toList), ("import".toList, .list [.str "pkg".toList])]⟩
def par (t : String) : Params := ⟨[], [("input".toList, (ns t).toVal)]⟩

theorem ns_wf (t : String) : (ns t).WF := flat_wf _ _ (by simp only [List.map_cons, List.map_nil]; decide) (by simp [PVal.isParams, PVal.isMapping])
theorem par_wf (t : String) : (par t).WF := by
  refine .params (List.nodup_singleton _) ?_ ?_
  · intro e he
    have := List.mem_singleton.1 he
    subst this
    show '.' ∉ "input".toList
    decide
  · intro e he
    have := List.mem_singleton.1 he
    subst this
    exact ns_wf t

theorem typed (t : String) : Typed env (some [("mine".toList, .obj 100)]) (par t) "input".toList (ns t) t.toList ["pkg".toList] where
  wf := par_wf t
  found := by rw [show splitOn '.' "input".toList = ["input".toList] by decide +kernel]; exact .step (List.mem_singleton.2 rfl) (.here _)
  type := .step (by simp only [ns, List.mem_cons, true_or]) (.here _)
  noValue := by
    rw [← Params.contains_present (ns_wf t)]
    have : (ns t).contains "value".toList = false := rfl
    rw [this]; simp
  imports := .inl (.step (by simp only [ns, List.mem_cons, true_or, or_true]; exact .inr (.inr (.inl rfl))) (.here _))
  importable k s hs hk _ := by
    simp only [List.mem_singleton] at hs
    subst hs
    rcases hk with rfl | ⟨r, hr⟩
    · exact ⟨_, rfl⟩
    · exfalso
      have : '.' ∈ "pkg".toList := by rw [hr]; simp
      revert this; decide

theorem path (t : String) : PathIs env.cwd (ns t) "path".toList ["home".toList, "d".toList, "x.zip".toList] :=
  ((Params.pathParam_spec env.cwd (ns_wf t) _).1 _).1 rfl

def fs : FS := [(["home".toList], .dir)]
theorem tree : fs.Tree := tree_of_check (by decide +kernel)

example := C74_context env _ sane
example := (C74_zip_sink env _ sane _ _ _ _ (typed "zip") fs tree).1 _ (path "zip") (not_blocked_of_check (by decide +kernel))
example := (C74_zip_source env _ sane _ _ _ _ (typed "zip") [(["home".toList], .dir), (["home".toList, "d".toList], .dir),
  (["home".toList, "d".toList, "x.zip".toList], .file (.zip []))]).1 _ (path "zip") ⟨_, rfl⟩
example := (C74_directory_sink env _ sane _ _ _ _ (typed "file-map") [(["home".toList], .dir), (["home".toList, "d".toList], .dir),
  (["home".toList, "d".toList, "x.zip".toList], .dir)]).1 _ (path "file-map") rfl
example := C74_file_map_counterexample env _ sane _ _ _ _ (typed "file-map") fs
/-- The roundtrip of two entries. -/
example := C74_roundtrip env _ _ sane sane _ _ _ _ _ _ _ _ (typed "zip") (typed "zip") _ (path "zip") (path "zip") fs tree
  (not_blocked_of_check (by decide +kernel)) (by decide) (not_dir_of_check (by decide +kernel)) id (fun _ => .refl _)
  [("a".toList, ⟨#[1]⟩), ("b".toList, ⟨#[2]⟩)] (by decide)
  (by
    intro e he
    simp only [List.mem_cons, List.not_mem_nil, or_false] at he
    rcases he with rfl | rfl <;> exact ⟨by decide, by decide, by decide, by decide⟩)
  (dictGet [("a".toList, ⟨#[1]⟩), ("b".toList, ⟨#[2]⟩)]) (fun k v => dictGet_iff (by decide) k v)

theorem mine_in : ("mine".toList, PVal.obj 100) ∈ effectiveContext env.rest (some [("mine".toList, .obj 100)]) :=
  (C74_context env _ sane _ _).2 (.inl ⟨_, rfl, by simp⟩)

/-- A function of the caller as the type. -/
theorem mine_evaluates : Evaluates env.py (effectiveContext env.rest (some [("mine".toList, .obj 100)]))
    (fun k => ∃ t ∈ ["pkg".toList], PackageOf k t) (.str "mine".toList) (.obj 100) := by
  refine ⟨fun k => (dictGet (effectiveContext env.rest (some [("mine".toList, .obj 100)])) k).or (if k = "pkg".toList then some (.obj 50) else none), ?_, ?_, ?_, ?_⟩
  · intro k w hk; simp only [(dictGet_iff (context_nodup _ _) k w).2 hk, Option.some_or]
  · rintro k hk ⟨t, ht, hp⟩
    simp only [List.mem_singleton] at ht
    subst ht
    rcases hp with rfl | ⟨r, hr⟩
    · exact ⟨.obj 50, rfl, by simp only [(dictGet_none_iff _ _).2 hk, if_true, Option.none_or]⟩
    · exfalso
      have : '.' ∈ "pkg".toList := by rw [hr]; simp
      revert this; decide
  · intro k hk hno
    simp only [(dictGet_none_iff _ _).2 hk, Option.none_or]
    rw [if_neg]
    · rintro rfl; exact hno ⟨_, by simp, .inl rfl⟩
  · simp only [(dictGet_iff (context_nodup _ _) _ _).2 mine_in, Option.some_or, show ∀ e, env.py.eval (.str "mine".toList) e =
      (match e "mine".toList with | some v => .ok v | none => .error .other) from fun _ => rfl]

example : Which.run .charSink env (par "mine") "input".toList (some [("mine".toList, .obj 100)]) fs = (.ok (.value (.obj 101)), fs) :=
  ((C74_custom .charSink env _ _ _ _ _ _ (typed "mine") ⟨by decide, by decide⟩ _ mine_evaluates fs).1 _ _ (.function rfl rfl)).1 _ _ rfl
    (.inl ⟨_, rfl, rfl⟩)

def valueNs : Params := ⟨["input".toList], [("value".toList, .str "mine".toList), ("import".toList, .list [.str "pkg".toList])]⟩
theorem valueNs_wf : valueNs.WF := flat_wf _ _ (by decide) (by decide)
def valuePar : Params := ⟨[], [("input".toList, valueNs.toVal)]⟩
theorem valuePar_wf : valuePar.WF := by
  refine .params (List.nodup_singleton _) ?_ ?_
  · intro e he
    have := List.mem_singleton.1 he
    subst this
    show '.' ∉ "input".toList
    decide
  · intro e he
    have := List.mem_singleton.1 he
    subst this
    exact valueNs_wf

/-- An object that is no sink as the value. -/
example : Which.run .charSink env valuePar "input".toList (some [("mine".toList, .obj 100)]) fs = (.error .parameterError, fs) := by
  obtain ⟨e, he, hx⟩ := (C74_value .charSink env _ _ valuePar_wf _ valueNs
    (by rw [show splitOn '.' "input".toList = ["input".toList] by decide +kernel]; exact .step (List.mem_singleton.2 rfl) (.here _)) "mine".toList
    (.step (List.mem_cons_self ..) (.here _))
    (by
      rw [← Params.contains_present valueNs_wf]
      have : valueNs.contains "type".toList = false := rfl
      rw [this]; simp)
    ["pkg".toList] (.inl (.step (List.mem_cons_of_mem _ (List.mem_singleton.2 rfl)) (.here _))) _ mine_evaluates fs).2 (by
      rintro (⟨v, h1, h2⟩ | h)
      · simp only [KVObj.value.injEq] at h1
        subst h1
        revert h2; decide
      · rcases h with ⟨_, _, h⟩ | ⟨_, _, h⟩ <;> exact KVObj.noConfusion h)
  exact he.2 (Params.not_unprintable rfl) ▸ hx

/-- A plain string naming an object of the caller that is a source. -/
example : Which.run .charSource env ⟨[], [("input".toList, .str "src".toList)]⟩ "input".toList (some [("src".toList, .obj 101)]) fs =
    (.ok (.value (.obj 101)), fs) := by
  have hin : ("src".toList, PVal.obj 101) ∈ effectiveContext env.rest (some [("src".toList, .obj 101)]) := by
    unfold effectiveContext
    rw [mem_dictOf]
    exact ⟨ownGlobals ++ env.rest, [], by simp, by simp⟩
  refine (C74_string .charSource env _ _ (flat_wf _ _ (by decide) (by decide)) _ "src".toList
    (by rw [show splitOn '.' "input".toList = ["input".toList] by decide +kernel]; exact .step (List.mem_singleton.2 rfl) (.here _))
    ⟨by decide, by decide⟩ (.obj 101) ⟨dictGet (effectiveContext env.rest (some [("src".toList, .obj 101)])), ?_, ?_, ?_, ?_⟩ fs).1 (.inl ⟨_, rfl, rfl⟩)
  · intro k w hk; exact (dictGet_iff (context_nodup _ _) k w).2 hk
  · rintro k - ⟨r, hr⟩
    have : '.' ∈ "src".toList := by rw [hr]; simp
    exact absurd this (by decide)
  · intro k hk _; exact (dictGet_none_iff _ _).2 hk
  · simp only [(dictGet_iff (context_nodup _ _) _ _).2 hin, show ∀ e, env.py.eval (.str "src".toList) e =
      (match e "src".toList with | some v => .ok v | none => .error .other) from fun _ => rfl]

/-- The documentation of the sinks lists the type `directory`; it is not known. -/
theorem _root_.Vista.FromParams.C74_directory_counterexample :
    Which.run .charSink env (par "directory") "input".toList (some [("mine".toList, .obj 100)]) fs = (.error .parameterError, fs) := by
  refine C74_unknown_type .charSink env _ _ _ _ _ _ (typed "directory") ⟨by decide, by decide⟩ ?_ fs
  rintro ⟨f, e, -, -, h3, h4⟩
  have hnone : e "directory".toList = none := by
    refine h3 _ (by rw [mem_context_keys]; decide) ?_
    rintro ⟨t, ht, hp⟩
    simp only [List.mem_singleton] at ht
    subst ht
    rcases hp with h | ⟨r, hr⟩
    · revert h; decide
    · have : '.' ∈ "pkg".toList := by rw [hr]; simp
      revert this; decide
  simp only [env, py, hnone] at h4
  simp at h4

example := C74_default_counterexample .byteSource env none understands ⟨[], []⟩ (flat_wf _ _ (by decide) (by decide)) "input".toList
  (by rw [← Params.contains_present (flat_wf _ _ (by decide) (by decide))]; decide) fs
example := C74_string_counterexample .byteSource env none understands ⟨[], [("input".toList, .str "zip".toList)]⟩ (flat_wf _ _ (by decide) (by decide))
  "input".toList "zip".toList (.inl rfl)
  (by rw [show splitOn '.' "input".toList = ["input".toList] by decide +kernel]; exact .step (List.mem_singleton.2 rfl) (.here _)) fs
example := C74_no_type .byteSink env none ⟨[], [("output".toList, .params [] [])]⟩
  (.params (by simp) (by simp) (by intro e he; simp only [List.mem_singleton] at he; subst he; exact flat_wf _ _ (by decide) (by decide)))
  "output".toList ⟨[], []⟩
  (by rw [show splitOn '.' "output".toList = ["output".toList] by decide +kernel]; exact .step (List.mem_singleton.2 rfl) (.here _))
  (by
    rw [← Params.contains_present (flat_wf _ _ (by decide) (by decide)), ← Params.contains_present (flat_wf _ _ (by decide) (by decide))]
    decide) fs

end FromParamsExample
end Vista
