import Verif.Model.Writer
import Verif.Proofs.ParamsText
import Verif.Props.Loader

/-!
# C78: writing parameters
-/
set_option linter.unusedSectionVars false
set_option linter.unusedSimpArgs false
namespace Vista
namespace Params
open PVal

/-! `Occurs`, `Writable` and `pathsAsText` are in `Verif/Spec/ParamsText.lean`. -/

/-! ## Proof steps -/

theorem pathsAsTextEntries_eq (es : Entries) : pathsAsTextEntries es = es.map fun e => (e.1, pathsAsText e.2) := by
  induction es with
  | nil => rfl
  | cons e es ih => obtain ⟨k, v⟩ := e; rw [pathsAsTextEntries, pathsAsTextEntry, ih]; rfl

theorem pathsAsTextList_eq (xs : List PVal) : pathsAsTextList xs = xs.map pathsAsText := by
  induction xs with
  | nil => rfl
  | cons e es ih => rw [pathsAsTextList, ih]; rfl

theorem pathsAsText_leaf {v : PVal} (h : Leaf v) : Leaf (pathsAsText v) := by
  cases v <;> first | exact ⟨rfl, rfl⟩ | (obtain ⟨h1, h2⟩ := h; simp [isParams, isMapping] at h1 h2)

theorem pathsAsText_plain {v : PVal} (h : v.Plain) : (pathsAsText v).Plain := by
  induction h with
  | leaf h => exact .leaf (pathsAsText_leaf h)
  | @dict es h1 _ ih =>
    rw [pathsAsText, pathsAsTextEntries_eq]
    refine .dict (by rw [List.map_map]; exact h1) ?_
    intro e he
    obtain ⟨e', he', rfl⟩ := List.mem_map.1 he
    exact ih e' he'

theorem pathsAsText_dotfree {v : PVal} (h : v.DotFree) : (pathsAsText v).DotFree := by
  induction h with
  | @leaf v h =>
    refine .leaf ?_
    cases v <;> first | rfl | (simp [isMapping] at h)
  | @dict es h1 _ ih =>
    rw [pathsAsText, pathsAsTextEntries_eq]
    refine .dict ?_ ?_
    · intro e he
      obtain ⟨e', he', rfl⟩ := List.mem_map.1 he
      exact h1 e' he'
    · intro e he
      obtain ⟨e', he', rfl⟩ := List.mem_map.1 he
      exact ih e' he'

/-- Without paths inside nothing changes. -/
theorem pathsAsText_id (v : PVal) (h : ∀ s, ¬ Occurs (.path s) v) : pathsAsText v = v := by
  induction v using PVal.indList with
  | scalar v hl hd =>
    cases v <;> first | rfl | exact absurd rfl (hl _) | exact absurd rfl (hd _) | skip
    exact absurd (.here _) (h _)
  | list xs ih =>
    rw [pathsAsText, pathsAsTextList_eq]
    congr 1
    exact (List.map_congr_left fun x hx => ih x hx fun s hs => h s (.list hx hs)).trans (List.map_id _)
  | dict es ih =>
    rw [pathsAsText, pathsAsTextEntries_eq]
    congr 1
    exact (List.map_congr_left (g := id) fun x hx => by rw [ih x hx fun s hs => h s (.dict hx hs)]; rfl).trans (List.map_id _)

/-! ## C78 -/

/-- What is handed to the YAML library: the nested dicts with every path as text; if anything that cannot be written occurs in them
(`None` included), `RuntimeError`. -/
theorem C78_written (dump : PVal → Res Str) (p : Params) :
    ((∀ u, Occurs u (.dict p.asNestedDicts) → Writable u) → p.write dump = dump (pathsAsText (.dict p.asNestedDicts))) ∧
    ((∃ u, Occurs u (.dict p.asNestedDicts) ∧ ¬ Writable u) → p.write dump = .error .runtimeError) := by
  unfold write
  rcases preprocess_spec (.dict p.asNestedDicts) with ⟨h1, h2⟩ | ⟨⟨u, h1, h1'⟩, h2⟩
  · refine ⟨fun _ => by simp only [h2, bind, Except.bind], ?_⟩
    rintro ⟨u, hu, hu'⟩
    exact absurd (h1 u hu) hu'
  · refine ⟨fun h => absurd (h u h1) h1', fun _ => by simp only [h2, bind, Except.bind]⟩

/-- Parameters without paths are written as their nested dicts. -/
theorem C78_same (dump : PVal → Res Str) (p : Params) (h : ∀ u, Occurs u (.dict p.asNestedDicts) → Writable u)
    (hno : ∀ s, ¬ Occurs (.path s) (.dict p.asNestedDicts)) : p.write dump = dump (.dict p.asNestedDicts) := by
  rw [(C78_written dump p).1 h, pathsAsText_id _ hno]

/-! ### Reading it back -/

theorem dictReaches_pathsAsText {path : List Str} {s : Str} : ∀ {v : PVal}, DictReaches (pathsAsText v) path (.str s) →
    DictReaches v path (.str s) ∨ DictReaches v path (.path s) := by
  induction path with
  | nil =>
    intro v h
    have h' := dictReaches_nil.1 h
    rw [dictReaches_nil, dictReaches_nil]
    cases v <;> simp_all [pathsAsText]
  | cons k ks ih =>
    intro v h
    cases v with
    | dict es =>
      rw [pathsAsText, pathsAsTextEntries_eq] at h
      cases h with
      | step hm h =>
        obtain ⟨e, he, heq⟩ := List.mem_map.1 hm
        obtain ⟨k', u⟩ := e
        simp only [Prod.mk.injEq] at heq
        obtain ⟨rfl, rfl⟩ := heq
        rcases ih h with h | h
        · exact .inl (.step he h)
        · exact .inr (.step he h)
    | _ => simp only [pathsAsText] at h; nomatch h

theorem expands_self {word : Char → Bool} {f : Str → Str → Prop} : ∀ (s : Str), (∀ m, ¬ Interp.Mentions word s m) → Interp.Expands word f s s := by
  intro s
  induction s with
  | nil => intro _; exact .done
  | cons c s ih =>
    intro h
    have hno : ¬ ∃ n rest, Interp.Starts word (c :: s) n rest := fun ⟨n, rest, hs⟩ => h n (.here hs)
    exact .char hno (ih fun m hm => h m (.char hno hm))

/-- A file without placeholders is its own interpolation. -/
theorem interpolated_self {word : Char → Bool} (f c : Params) (hf : f.Loaded)
    (hm : ∀ path s m, f.toVal.Reaches path (.str s) → ¬ Interp.Mentions word s m) : Interp.Interpolated word f c f where
  tree := loaded_tree hf
  pfx := ((loaded_iff f).1 hf).inv.1
  namespaces _ pfx es h := ⟨pfx, es, h, rfl⟩
  others _ _ h _ _ := h
  strings path s h := ⟨.str s, h, .inr ⟨fun ⟨m, hs⟩ => hm path s m h (.here hs), s, rfl, expands_self s fun m => hm path s m h⟩⟩

/-- Parameters that have been written can be loaded from the text again, provided the YAML library reads back what it wrote: the
same parameters and namespaces in the same order, with paths as strings.  There must be no parameter `_includes` at the top, no
string or path with a placeholder in it, and no environment variable with a dot in its name in use. -/
theorem C78_roundtrip {W : Loader.World} {useEnv : Bool} (hW : W.OK) (depth : Nat) (dump : PVal → Res Str) (p : Params) (hp : p.Tree)
    (text : Str) (hwrite : p.write dump = .ok text)
    (hdump : ∀ es, dump (.dict es) = .ok text → ∃ ys, W.parse text = .ok (.map ys) ∧ Loader.DenotesAll ys es)
    (hinc : ¬ ∃ v, p.toVal.Reaches ["_includes".toList] v)
    (hplain : ∀ path s m, p.toVal.Reaches path (.str s) ∨ p.toVal.Reaches path (.path s) → ¬ Interp.Mentions W.word s m)
    (henv : ¬ (useEnv = true ∧ ∃ k s, (k, s) ∈ W.env ∧ '.' ∈ k)) (pfx : List Str) :
    ∃ r, Loader.loadString W useEnv depth text empty pfx = .ok r ∧ r.Tree ∧ r.pfx = pfx ∧
      PVal.dict r.asNestedDicts = pathsAsText (.dict p.asNestedDicts) := by
  -- what was written
  obtain ⟨w1, w2⟩ := C78_written dump p
  have hw : ∀ u, Occurs u (.dict p.asNestedDicts) → Writable u := by
    intro u hu
    by_contra hn
    rw [w2 ⟨u, hu, hn⟩] at hwrite
    simp at hwrite
  rw [w1 hw, pathsAsText] at hwrite
  obtain ⟨ys, hparse, hden⟩ := hdump _ hwrite
  obtain ⟨hpl, hdf⟩ := tree_dictify hp
  change (PVal.dict p.asNestedDicts).Plain at hpl
  change (PVal.dict p.asNestedDicts).DotFree at hdf
  have hpl' := pathsAsText_plain hpl
  have hdf' := pathsAsText_dotfree hdf
  rw [pathsAsText] at hpl' hdf'
  obtain ⟨f, hf, hfp, hfc, hfd⟩ := fromMapping_ok (pfx := []) hpl' hdf'
  have hfl : f.Loaded := (loaded_iff f).2 hfc
  have hft : f.Tree := hfc.tree
  have hstr : ∀ path s m, f.toVal.Reaches path (.str s) → ¬ Interp.Mentions W.word s m := by
    intro path s m h
    rw [← dictReaches_dictify hft path _ ⟨rfl, rfl⟩] at h
    have hd : dictify f.toVal = pathsAsText (.dict p.asNestedDicts) := by
      rw [pathsAsText, ← hfd]; rfl
    rw [hd] at h
    refine hplain path s m ?_
    rw [← dictReaches_dictify hp path _ ⟨rfl, rfl⟩, ← dictReaches_dictify hp path _ ⟨rfl, rfl⟩]
    exact dictReaches_pathsAsText h
  -- the context
  have het : (Params.empty []).Tree := .params (by simp [empty]) (by simp [empty]) (by simp [empty])
  obtain ⟨c, hc⟩ := (Loader.C52_dotted_variable hW (empty []) het).2 henv
  have hctx := Loader.context_of hW het hc
  -- the interpolation
  have hnl : Interp.NoneThroughLeaf W.word f := fun path s m h hm => absurd hm (hstr path s m h)
  have hself := interpolated_self (word := W.word) f c hfl hstr
  have hnc : ¬ Interp.Cyclic W.word f := by
    rintro ⟨n, hn⟩
    have : ∀ a b, Relation.TransGen (Interp.DependsOn W.word f) a b → False := by
      intro a b h
      induction h with
      | single h => obtain ⟨s, v, h1, h2, -⟩ := h; exact hstr _ s _ h1 h2
      | tail _ _ ih => exact ih
    exact this n n hn
  obtain ⟨q, hq⟩ := (Interp.C51_success hW.word f c hfl hctx.tree hctx.pfx hnl).2 ⟨hnc, f, hself⟩
  have hqf := Interp.C50_unique hW.word f c q f hfl hctx.tree hctx.pfx hnl hq hself
  have hqt : q.Tree := Loader.layer_tree het hft hc hq
  obtain ⟨r, hr, hrs⟩ := unify_congr pfx het het hft hqt (Same.refl _) (Same.symm hqf) (C45_empty_left f hfl)
  obtain ⟨hrt, hrp, -⟩ := C45_values (empty []) q r het hqt pfx hr
  refine ⟨r, ?_, hrt, hrp, ?_⟩
  · rw [Loader.C52_string, Loader.innerLoad_ok hW]
    have hni : "_includes".toList ∉ (pathsAsTextEntries p.asNestedDicts).map (·.1) := by
      rw [pathsAsTextEntries_eq, List.map_map]
      intro hm
      obtain ⟨⟨k, v⟩, he, hk⟩ := List.mem_map.1 hm
      simp only [Function.comp] at hk
      subst hk
      rw [asNestedDicts, dictifyEntries_eq] at he
      obtain ⟨⟨k', u⟩, he', hk⟩ := List.mem_map.1 he
      simp only [Prod.mk.injEq] at hk
      obtain ⟨rfl, rfl⟩ := hk
      exact hinc ⟨u, .step he' (.here _)⟩
    refine ⟨pathsAsTextEntries p.asNestedDicts, [], empty [], f, c, q, ⟨ys, _, hparse, hden, ?_, .inl ⟨rfl, hni⟩⟩, rfl, hf, hc, hq, hr⟩
    symm
    rw [List.filter_eq_self]
    intro e he
    simp only [ne_eq, decide_not, Bool.not_eq_true', decide_eq_false_iff_not]
    rintro hk
    exact hni (hk ▸ List.mem_map.2 ⟨e, he, rfl⟩)
  · rw [pathsAsText, ← hfd]
    exact congrArg _ hrs

/-! ### Concrete cases -/

namespace WriterExample

/-- Parameters with a path inside a namespace and inside a list. -/
def sample : Params := ⟨["x".toList], [("a".toList, .params ["a".toList] [("p".toList, .path "/tmp".toList), ("n".toList, .int 1)]),
  ("l".toList, .list [.path "q".toList, .bool true])]⟩

/-- A library that writes just these parameters, as the text `T`. -/
def dump (v : PVal) : Res Str :=
  if v.same (.dict [("a".toList, .dict [("p".toList, .str "/tmp".toList), ("n".toList, .int 1)]),
      ("l".toList, .list [.str "q".toList, .bool true])]) then .ok "T".toList else .error .ioError

/-- They are written with the paths as strings. -/
example : sample.write dump = .ok "T".toList := by decide +kernel

/-- A world in which the text `T` is read back. -/
def world : Loader.World where
  word c := c.isAlphanum
  parse s := if s = "T".toList then .ok (.map [(.str "a".toList, .map [(.str "p".toList, .value (.str "/tmp".toList)),
      (.str "n".toList, .value (.int 1))]), (.str "l".toList, .value (.list [.str "q".toList, .bool true]))]) else .error .ioError
  read _ := .error .ioError
  isAbs _ := false
  resolve _ _ := .error .ioError
  parent s := s
  env := [("HOME".toList, "/h".toList)]

example : (match Loader.loadString world true 0 "T".toList empty ["x".toList] with
    | .ok r => (PVal.dict r.asNestedDicts).same (pathsAsText (.dict sample.asNestedDicts))
    | .error _ => false) = true := by decide +kernel

/-- Its hypotheses hold. -/
example : world.OK ∧ sample.Tree ∧ (¬ ∃ v, sample.toVal.Reaches ["_includes".toList] v) ∧
    (∀ path s m, sample.toVal.Reaches path (.str s) ∨ sample.toVal.Reaches path (.path s) → ¬ Interp.Mentions world.word s m) ∧
    ¬ (true = true ∧ ∃ k s, (k, s) ∈ world.env ∧ '.' ∈ k) := by
  refine ⟨⟨by decide +kernel, ?_, by decide +kernel⟩, ?_, ?_, ?_, ?_⟩
  · intro s y h
    simp only [world] at h
    split at h
    · simp only [Except.ok.injEq] at h
      subst h
      refine .map (by decide +kernel) ?_
      intro e he
      simp only [List.mem_cons, List.not_mem_nil, or_false] at he
      rcases he with rfl | rfl
      · refine .map (by decide +kernel) ?_
        intro e he
        simp only [List.mem_cons, List.not_mem_nil, or_false] at he
        rcases he with rfl | rfl <;> exact .value ⟨rfl, rfl⟩
      · exact .value ⟨rfl, rfl⟩
    · simp at h
  · refine .params (by decide +kernel) (by decide +kernel) ?_
    intro e he
    simp only [sample, List.mem_cons, List.not_mem_nil, or_false] at he
    rcases he with rfl | rfl
    · refine .params (by decide +kernel) (by decide +kernel) ?_
      intro e he
      simp only [List.mem_cons, List.not_mem_nil, or_false] at he
      rcases he with rfl | rfl <;> exact .leaf ⟨rfl, rfl⟩
    · exact .leaf ⟨rfl, rfl⟩
  · rintro ⟨v, h⟩
    cases h with
    | step h _ => simp [sample] at h
  · have key : ∀ path v, sample.toVal.Reaches path v → ∀ s, v = .str s ∨ v = .path s → s = "/tmp".toList := by
      intro path v h s hv
      cases h with
      | here => simp [toVal] at hv
      | step h h' =>
        simp only [sample, List.mem_cons, Prod.mk.injEq, List.not_mem_nil, or_false] at h
        rcases h with ⟨rfl, rfl⟩ | ⟨rfl, rfl⟩
        · cases h' with
          | here => simp at hv
          | step h h' =>
            simp only [List.mem_cons, Prod.mk.injEq, List.not_mem_nil, or_false] at h
            rcases h with ⟨rfl, rfl⟩ | ⟨rfl, rfl⟩
            · cases h' with
              | here => simp only [PVal.path.injEq, reduceCtorEq, false_or] at hv; exact hv.symm
            · cases h' with
              | here => simp at hv
        · cases h' with
          | here => simp at hv
    have nope : ∀ (t : Str) m, '%' ∉ t → ¬ Interp.Mentions world.word t m := by
      intro t m ht h
      induction h with
      | here h => obtain ⟨-, rfl⟩ := h; simp at ht
      | later h => obtain ⟨-, rfl⟩ := h; simp at ht
      | char _ _ ih => exact ih fun h => ht (by simp [h])
    rintro path s m (h | h)
    · exact nope s m (key path _ h s (.inl rfl) ▸ by decide)
    · exact nope s m (key path _ h s (.inr rfl) ▸ by decide)
  · rintro ⟨-, k, s, h, hd⟩
    simp only [world, List.mem_cons, Prod.mk.injEq, List.not_mem_nil, or_false] at h
    obtain ⟨rfl, rfl⟩ := h
    exact absurd hd (by decide)

/-- `None`, which a parameter file can contain, cannot be written. -/
theorem _root_.Vista.Params.C78_none_counterexample (dump : PVal → Res Str) :
    ∃ p : Params, p.Loaded ∧ p.write dump = .error .runtimeError :=
  ⟨⟨[], [("a".toList, .none)]⟩, ⟨[("a".toList, .none)], .dict (by simp) (by simpa using .leaf ⟨rfl, rfl⟩), rfl⟩, rfl⟩

end WriterExample

end Params
end Vista
