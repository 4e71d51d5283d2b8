import Verif.Props.FromParams
import Verif.Props.SplitStores

/-!
# C74, continued: document maps from parameters, and the default names of the namespaces
-/
set_option linter.unusedSectionVars false
set_option linter.unusedSimpArgs false
namespace Vista
namespace FromParams
open Params (PathIs PackageOf Evaluates)

/-- The two functions of the module that make a source of a document map, by name. -/
def docMapType (chars : Bool) : Str :=
  if chars then "_doc_id_source_from_params".toList else "_doc_id_binary_source_from_params".toList

theorem docMap_evaluates (E : Env) (ec : Option Entries) (hE : Sane E ec) (chars : Bool) (p : Params) (name : Str) (ns : Params) (mods : List Str)
    (hT : Typed E ec p name ns (docMapType chars) mods) :
    Evaluates E.py (effectiveContext E.rest ec) (fun k => ∃ t ∈ mods, PackageOf k t) (.str (docMapType chars)) (.obj (if chars then 8 else 9)) := by
  refine evaluates_own hE ?_ _ (by rintro k ⟨t, ht, hp⟩ hk; exact hT.importable k t ht hp hk)
  cases chars <;> simp [ownGlobals, docMapType]

theorem docMap_call (E : Env) (chars : Bool) (ns : Params) :
    call E.cwd E.others (.obj (if chars then 8 else 9)) [ns.toVal] = (do
      let l ← ns.existingFile E.cwd "path".toList
      Prog.pure (.mapSource chars (← docMapEntries E.cwd (Loc.toPath l)))) := by
  cases chars <;> rfl

/-- The type `_doc_id_source_from_params` or `_doc_id_binary_source_from_params` gives a source of the document map in the existing file
under `path`: each line has two fields, the id and the path; the last line of an id counts.  `ParameterError` (see `Refused`) if there is no such file,
`IOError` if a line has not two fields.  Asked for a sink, `ParameterError`.  Nothing is changed. -/
theorem C74_document_map (w : Which) (E : Env) (ec : Option Entries) (hE : Sane E ec) (chars : Bool) (p : Params) (name : Str) (ns : Params)
    (mods : List Str) (hT : Typed E ec p name ns (docMapType chars) mods) (fs : FS) :
    (∀ l t ls, PathIs E.cwd ns "path".toList l → fs.node l = some (.file (.data (encodeUtf8 t))) → IsLines (universalNewlines t) ls →
      (∀ items, List.Forall₂ (fun l e => ∃ a b, TwoFields l a b ∧ e = (a, PyPath.parse b)) ls items →
        (w ≠ .charSink ∧ w ≠ .byteSink → ∃ m, w.run E p name ec fs = (.ok (.mapSource chars m), fs) ∧ (m.map (·.1)).Nodup ∧
          ∀ k s, (k, s) ∈ m ↔ ∃ before q after, items = before ++ (k, q) :: after ∧ k ∉ after.map (·.1) ∧ s = q.render) ∧
        (w = .charSink ∨ w = .byteSink → w.run E p name ec fs = (.error .parameterError, fs))) ∧
      ((∃ l ∈ ls, ¬ ∃ a b, TwoFields l a b) → w.run E p name ec fs = (.error .ioError, fs))) ∧
    ((¬ ∃ l, PathIs E.cwd ns "path".toList l ∧ ∃ c, fs.node l = some (.file c)) →
      ∃ e, Params.Refused ns "path".toList .none e ∧ w.run E p name ec fs = (.error e, fs)) := by
  have hs : docMapType chars ≠ "zip".toList ∧ docMapType chars ≠ "file-map".toList := by cases chars <;> decide
  have hcalls : Calls E.py (.obj (if chars then 8 else 9)) ns (.obj (if chars then 8 else 9)) [ns.toVal] := by
    have := hE.py.functions (if chars then 8 else 9) (by cases chars <;> simp)
    exact .function this.1 this.2
  obtain ⟨c1, c2, c3⟩ := (C74_custom w E ec p name ns _ mods hT hs _ (docMap_evaluates E ec hE chars p name ns mods hT) fs).1 _ _ hcalls
  simp only [docMap_call, Prog.bind_apply] at c1 c2 c3
  obtain ⟨f1, f2⟩ := Params.C73_existing_file E.cwd ns (ns_wf hT) "path".toList fs
  constructor
  · intro l t ls hl hf hls
    have hsrc : fileSource l fs = (.ok (universalNewlines t), fs) := by
      have ht : translatedText (encodeUtf8 t) = .ok (universalNewlines t) := by
        simp only [translatedText, decodeUtf8_encode, bind, Except.bind]
      simp only [fileSource, readData, readFile, Prog.bind_apply, hf, Prog.pure_apply, Prog.ofRes_apply, ht]
    obtain ⟨r1, r2⟩ := C61_read (fileSource l) _ fs hsrc ls hls
    simp only [f1 l hl ⟨_, hf⟩, docMapEntries, Prog.bind_apply, resolve_toPath E.cwd (pathIs_dotdot hl)] at c1 c2 c3
    constructor
    · intro items hitems
      obtain ⟨m, m1, m2, m3⟩ := r1 items hitems
      simp only [m1, Prog.pure_apply] at c1 c2
      constructor
      · intro hw
        refine ⟨_, c1 _ _ rfl (.inr ?_), by simpa [List.map_map, Function.comp_def] using m2, fun k s => ?_⟩
        · cases w <;> first | exact .inr ⟨_, _, rfl⟩ | simp at hw
        · simp only [List.mem_map, Prod.mk.injEq]
          constructor
          · rintro ⟨⟨k', q⟩, hq, rfl, rfl⟩
            obtain ⟨b, a, h1, h2⟩ := (m3 _ _).1 hq
            exact ⟨b, q, a, h1, by simpa using h2, rfl⟩
          · rintro ⟨b, q, a, h1, h2, rfl⟩
            exact ⟨(k, q), (m3 _ _).2 ⟨b, a, h1, by simpa using h2⟩, rfl, rfl⟩
      · intro hw
        obtain ⟨e, he, hx⟩ := c2 _ _ rfl (by
          rcases hw with rfl | rfl <;> rintro (⟨v, hv, -⟩ | ⟨c, l, hv⟩ | ⟨c, l, hv⟩) <;> cases hv)
        rw [hx, he.2 (by simp)]
    · intro hbad
      simp only [r2 hbad] at c3
      exact c3 _ _ rfl
  · intro hno
    obtain ⟨e, he, hx⟩ := f2 hno
    simp only [hx] at c3
    exact ⟨e, he, c3 _ _ rfl⟩

/-- Without a name, the sources look in the namespace `input`, the sinks in the namespace `output`, and without a context only the
globals of the module are used. -/
theorem C74_names (E : Env) (p : Params) :
    charSource E p = Which.charSource.run E p "input".toList none ∧ charLinearSource E p = Which.charLinearSource.run E p "input".toList none ∧
    byteSource E p = Which.byteSource.run E p "input".toList none ∧ byteLinearSource E p = Which.byteLinearSource.run E p "input".toList none ∧
    charSink E p = Which.charSink.run E p "output".toList none ∧ byteSink E p = Which.byteSink.run E p "output".toList none :=
  ⟨rfl, rfl, rfl, rfl, rfl, rfl⟩

end FromParams

namespace FromParamsExample
open FromParams

def mapFs : FS := [(["home".toList], .dir), (["home".toList, "d".toList], .dir),
  (["home".toList, "d".toList, "x.zip".toList], .file (.data (encodeUtf8 "a\t/x\n".toList)))]

/-- A map of one document. -/
example : ∃ m, Which.run .byteSource env (par "_doc_id_source_from_params") "input".toList (some [("mine".toList, .obj 100)]) mapFs =
      (.ok (.mapSource true m), mapFs) ∧ (m.map (·.1)).Nodup ∧
      ∀ k s, (k, s) ∈ m ↔ ∃ before q after, [("a".toList, PyPath.parse "/x".toList)] = before ++ (k, q) :: after ∧ k ∉ after.map (·.1) ∧ s = q.render :=
  ((((C74_document_map .byteSource env _ sane true _ _ _ _ (typed "_doc_id_source_from_params") mapFs).1 _ _ ["a\t/x\n".toList] (path _) rfl
    (by rw [isLines_iff]; decide +kernel)).1 _ (.cons ⟨"a".toList, "/x".toList, by
      refine ⟨"a".toList, "/x\n".toList, ?_⟩
      rw [stripped_iff, stripped_iff]
      decide +kernel, rfl⟩ .nil)).1 ⟨by simp, by simp⟩)
end FromParamsExample
end Vista
