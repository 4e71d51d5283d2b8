import Verif.Model.CrashScripts
import Verif.Props.CrashFile
import Verif.Props.StoreScripts
import Verif.Spec.CrashScripts

/-!
# What killed programs touch
-/
set_option linter.unusedSectionVars false
set_option linter.unusedSimpArgs false
namespace Vista

/-! ## Not killed, the programs are those modelled before -/

theorem closeAllAtK_run (os : List ZipOut) (e : Option Exc) : (ZipOut.closeAllAtK os e).run = ZipOut.closeAllAt os e := by
  funext fs
  induction os generalizing e fs with
  | nil => cases e <;> rfl
  | cons o os ih =>
    show Prog.bind (Prog.pure ()) (fun _ => Prog.bind (Killable.attempt o.closeK).run fun r => Killable.run (match r with
      | .ok _ => ZipOut.closeAllAtK os e
      | .error e' => ZipOut.closeAllAtK os (some e'))) fs = ZipOut.closeAllAt (o :: os) e fs
    unfold ZipOut.closeAllAt
    have hput : o.closeK.run fs = o.close fs := rfl
    simp only [Prog.bind, Prog.pure, Killable.attempt, hput]
    cases hp : o.close fs with
    | mk r fs' =>
      cases r with
      | ok s' => exact ih e fs'
      | error e' => exact ih (some e') fs'

theorem enterAllAtK_run (order : List Str → List Str) (ls : List Loc) (os : List ZipOut) : (ZipOut.enterAllAtK order ls os).run = ZipOut.enterAllAt order ls os := by
  funext fs
  induction ls generalizing os fs with
  | nil => rfl
  | cons l ls ih =>
    show Prog.bind (Killable.attempt (ZipOut.enterK order l)).run (fun r => Killable.run (match r with
      | .ok o => ZipOut.enterAllAtK order ls (os ++ [o])
      | .error e => do
        match ← Killable.attempt (ZipOut.closeAllAtK os.reverse (some e)) with
        | .ok _ => Killable.raise e
        | .error e' => Killable.raise e')) fs = ZipOut.enterAllAt order (l :: ls) os fs
    unfold ZipOut.enterAllAt
    have hput : (ZipOut.enterK order l).run fs = ZipOut.enter order l fs := rfl
    simp only [Prog.bind, Killable.attempt, hput]
    cases hp : ZipOut.enter order l fs with
    | mk r fs' =>
      cases r with
      | ok o => exact ih _ fs'
      | error e =>
        show Prog.bind (Killable.attempt (ZipOut.closeAllAtK os.reverse (some e))).run (fun r => Killable.run (match r with
          | .ok _ => Killable.raise e
          | .error e' => Killable.raise e')) fs' = _
        simp only [Prog.bind, Killable.attempt, closeAllAtK_run]
        cases hc : ZipOut.closeAllAt os.reverse (some e) fs' with
        | mk r' fs'' => cases r' <;> rfl

theorem evenSplitK_run (order : List Str → List Str) (shuffle : PVal → List Str → List Str) (cwd : PyPath) (src : FS → KVSource Bytes) (p : Params) :
    (evenSplitK order shuffle cwd src p).run = evenSplit order shuffle cwd src p := by
  have h1 : ∀ ls, (ZipOut.enterAllAtK order ls []).run = ZipOut.enterAll order ls := fun ls => by rw [enterAllAtK_run]; rfl
  have h2 : ∀ os e, (ZipOut.closeAllK os e).run = ZipOut.closeAll os e := fun os e => by rw [ZipOut.closeAllK, closeAllAtK_run]; rfl
  show Prog.bind (p.creatableDirectory cwd "output_dir".toList) (fun dir => Prog.bind (Prog.ofRes (p.positiveInteger "num_slices".toList)) fun slices =>
    Prog.bind (Prog.ofRes (p.optionalPositiveInteger "random_seed".toList)) fun seed =>
    Prog.bind (writeTextTo cwd ((Loc.toPath dir).div (PyPath.parse "_slices.txt".toList)) (joinWith '\n' (((List.range ((Params.asInt slices).getD 0).toNat).map (slicePath dir)).map
      fun l => (Loc.toPath l).render))) fun _ => Prog.bind (ZipOut.enterAllAtK order ((List.range ((Params.asInt slices).getD 0).toNat).map (slicePath dir)) []).run fun outs =>
    Prog.bind Prog.get fun fs => (ZipOut.closeAllK (evenBody shuffle (src fs) ((Params.asInt slices).getD 0).toNat seed outs).1
      (evenBody shuffle (src fs) ((Params.asInt slices).getD 0).toNat seed outs).2).run) = _
  simp only [h1, h2]
  rfl

theorem splitOneK_run (order : List Str → List Str) (cwd : PyPath) (src : FS → KVSource Bytes) (ns : Params) :
    (splitOneK order cwd src ns).run = splitOne order cwd src ns := by
  show Prog.bind (ns.existingFile cwd "keys_file".toList) (fun f => Prog.bind (fileLinesToSet f) fun keys => Prog.bind (ns.creatableFile cwd "output_file".toList) fun out =>
    Prog.bind (ZipOut.enter order out) fun o => Prog.bind Prog.get fun fs =>
      Prog.bind (ZipOut.closeAllAtK [(copyKeys (src fs) keys o []).1] (copyKeys (src fs) keys o []).2.2).run fun _ =>
        Prog.pure (copyKeys (src fs) keys o []).2.1) = _
  simp only [closeAllAtK_run]
  rfl

theorem splitEachK_run (order : List Str → List Str) (cwd : PyPath) (src : FS → KVSource Bytes) (nss : List Params) :
    (splitEachK order cwd src nss).run = splitEach order cwd src nss := by
  induction nss with
  | nil => rfl
  | cons ns nss ih =>
    show Prog.bind (splitOneK order cwd src ns).run (fun copied => Prog.bind (splitEachK order cwd src nss).run fun more => Prog.pure (copied ++ more)) = _
    rw [splitOneK_run, ih]
    rfl

theorem explicitSplitK_run (order : List Str → List Str) (cwd : PyPath) (src : FS → KVSource Bytes) (p : Params) :
    (explicitSplitK order cwd src p).run = explicitSplit order cwd src p := by
  show Prog.bind (Prog.ofRes (p.namespace "explicit_split".toList)) (fun ns => Prog.bind (Prog.ofRes ns.subNamespaces) fun nss =>
    Prog.bind (splitEachK order cwd src nss).run fun copied => Prog.bind Prog.get fun fs => Prog.ofRes (checkExhaustive (src fs) p copied)) = _
  simp only [splitEachK_run]
  rfl

theorem splitMainK_run (order : List Str → List Str) (shuffle : PVal → List Str → List Str) (cwd : PyPath) {σ : Type} (source : Prog σ)
    (ask : σ → FS → KVSource Bytes) (p : Params) : (splitMainK order shuffle cwd source ask p).run = splitMain order shuffle cwd source ask p := by
  show Prog.bind (Prog.ofRes (p.assertExactlyOnePresent ["num_slices".toList, "explicit_split".toList])) (fun _ => Prog.bind source fun src =>
    Killable.run (if p.contains "num_slices".toList then evenSplitK order shuffle cwd (ask src) p
      else if p.contains "explicit_split".toList then explicitSplitK order cwd (ask src) p
      else Killable.raise .runtimeError)) = _
  have : ∀ src, Killable.run (if p.contains "num_slices".toList then evenSplitK order shuffle cwd (ask src) p
      else if p.contains "explicit_split".toList then explicitSplitK order cwd (ask src) p
      else Killable.raise .runtimeError) = if p.contains "num_slices".toList then evenSplit order shuffle cwd (ask src) p
      else if p.contains "explicit_split".toList then explicitSplit order cwd (ask src) p
      else Prog.raise .runtimeError := by
    intro src
    rw [apply_ite Killable.run, apply_ite Killable.run, evenSplitK_run, explicitSplitK_run]
    rfl
  simp only [this]
  rfl

theorem downsampleK_run (order : List Str → List Str) (shuffle : Int → List Str → Res (List Str)) (cwd : PyPath) {σ : Type} (source : Prog σ)
    (ask : σ → FS → KVSource Bytes) (p : Params) : (downsampleK order shuffle cwd source ask p).run = downsample order shuffle cwd source ask p := by
  have h : ∀ src keys, (sampleIntoK order cwd src keys p).run = Prog.bind (p.creatableFile cwd "output_zip_path".toList) fun out =>
      Prog.bind (ZipOut.enter order out) fun o => Prog.bind Prog.get fun fs => (sampleKeys (src fs) keys o).1.leave (sampleKeys (src fs) keys o).2 := by
    intro src keys
    show Prog.bind (p.creatableFile cwd "output_zip_path".toList) (fun out =>
      Prog.bind (ZipOut.enter order out) fun o => Prog.bind Prog.get fun fs => (ZipOut.closeAllAtK [(sampleKeys (src fs) keys o).1] (sampleKeys (src fs) keys o).2).run) = _
    simp only [closeAllAtK_run]
    rfl
  funext fs
  unfold downsampleK downsample
  show Prog.bind source (fun src => Prog.bind Prog.get fun fs => Prog.bind (Prog.ofRes (ask src fs).keys) fun r => Killable.run (match r with
    | none => Killable.raise .typeError
    | some keys => do
      let num ← Killable.ofRes (p.positiveInteger "num_to_sample".toList)
      let seed ← Killable.ofRes (p.integer "random_seed".toList none (.int 0))
      let shuffled ← Killable.ofRes (shuffle ((Params.asInt seed).getD 0) keys)
      sampleIntoK order cwd (ask src) (shuffled.take (min ((Params.asInt num).getD 0).toNat keys.length)) p)) fs = _
  congr 2
  funext src
  congr 1
  funext fs
  congr 1
  funext r
  cases r with
  | none => rfl
  | some keys =>
    show Prog.bind (Prog.ofRes (p.positiveInteger "num_to_sample".toList)) (fun num => Prog.bind (Prog.ofRes (p.integer "random_seed".toList none (.int 0))) fun seed =>
      Prog.bind (Prog.ofRes (shuffle ((Params.asInt seed).getD 0) keys)) fun shuffled =>
        (sampleIntoK order cwd (ask src) (shuffled.take (min ((Params.asInt num).getD 0).toNat keys.length)) p).run) = _
    simp only [h]
    rfl

theorem joinDirKeysK_run (cwd : PyPath) (src : FS → KVSource Bytes) (ks : List Str) (s : DirSink) (written : List Str) (fs : FS) :
    (joinDirKeysK cwd src ks s written).run fs = (.ok (joinDirKeys cwd src ks s written fs).1, (joinDirKeys cwd src ks s written fs).2) := by
  induction ks generalizing s written fs with
  | nil => rfl
  | cons k ks ih =>
    show Killable.run (if k ∈ written then Killable.pure (s, written, some .runtimeError)
      else
        match (src fs).getItem k with
        | .error e => Killable.pure (s, written ++ [k], some e)
        | .ok v => do
          match ← Killable.attempt (s.putK cwd k v) with
          | .ok s' => joinDirKeysK cwd src ks s' (written ++ [k])
          | .error e => Killable.pure (s, written ++ [k], some e)) fs = _
    unfold joinDirKeys
    by_cases hw : k ∈ written
    · rw [if_pos hw, if_pos hw]; rfl
    · rw [if_neg hw, if_neg hw]
      cases hr : (src fs).getItem k with
      | error e => rfl
      | ok v =>
        show Prog.bind (Killable.attempt (s.putK cwd k v)).run (fun r => Killable.run (match r with
          | .ok s' => joinDirKeysK cwd src ks s' (written ++ [k])
          | .error e => Killable.pure (s, written ++ [k], some e))) fs = _
        have hp : (Killable.attempt (s.putK cwd k v)).run fs = (.ok (s.put cwd k v fs).1, (s.put cwd k v fs).2) := rfl
        simp only [Prog.bind, hp]
        rcases s.put cwd k v fs with ⟨r, fs'⟩
        cases r with
        | ok s' => exact ih s' _ fs'
        | error e => rfl

theorem joinDirEachK_run (cwd : PyPath) (paths : List PyPath) (s : DirSink) (written : List Str) (fs : FS) :
    (joinDirEachK cwd paths s written).run fs = (.ok (joinDirEach cwd paths s written fs).1, (joinDirEach cwd paths s written fs).2) := by
  induction paths generalizing s written fs with
  | nil => rfl
  | cons path rest ih =>
    show Prog.bind (Killable.attempt (Killable.reading (openZipBytes (PyPath.resolve cwd path)))).run (fun r => Killable.run (match r with
      | .error e => Killable.pure (s, some e)
      | .ok src => do
        let fs ← Killable.get
        match (src.ask fs).keys with
        | .error e => Killable.pure (s, some e)
        | .ok none => Killable.pure (s, some .typeError)
        | .ok (some ks) => do
          match ← joinDirKeysK cwd src.ask ks s written with
          | (s', written', none) => joinDirEachK cwd rest s' written'
          | (s', _, some e) => Killable.pure (s', some e))) fs = _
    have hp : (Killable.attempt (Killable.reading (openZipBytes (PyPath.resolve cwd path)))).run fs =
      (.ok (openZipBytes (PyPath.resolve cwd path) fs).1, (openZipBytes (PyPath.resolve cwd path) fs).2) := rfl
    unfold joinDirEach
    simp only [Prog.bind, hp]
    rcases openZipBytes (PyPath.resolve cwd path) fs with ⟨r, fs'⟩
    cases r with
    | error e => rfl
    | ok src =>
      show Killable.run (match (src.ask fs').keys with
        | .error e => Killable.pure (s, some e)
        | .ok none => Killable.pure (s, some .typeError)
        | .ok (some ks) => do
          match ← joinDirKeysK cwd src.ask ks s written with
          | (s', written', none) => joinDirEachK cwd rest s' written'
          | (s', _, some e) => Killable.pure (s', some e)) fs' = _
      dsimp only
      cases (src.ask fs').keys with
      | error e => rfl
      | ok ks =>
        cases ks with
        | none => rfl
        | some ks =>
          show Prog.bind (joinDirKeysK cwd src.ask ks s written).run (fun r => Killable.run (match r with
            | (s', written', none) => joinDirEachK cwd rest s' written'
            | (s', _, some e) => Killable.pure (s', some e))) fs' = _
          simp only [Prog.bind, joinDirKeysK_run]
          rcases joinDirKeys cwd src.ask ks s written fs' with ⟨⟨s', written', e⟩, fs''⟩
          cases e with
          | none => exact ih s' written' fs''
          | some e => rfl

theorem joinMainK_run (E : FromParams.Env) (order : List Str → List Str) (p : Params) : (joinMainK E order p).run = joinMain E order p := by
  have h : ∀ paths sink, (joinIntoK E.cwd order paths sink).run = joinInto E.cwd order paths sink := by
    intro paths sink
    unfold joinIntoK
    split
    · rename_i l
      show Prog.bind (ZipOut.enter order l) (fun o => Prog.bind Prog.get fun fs => (ZipOut.closeAllAtK [(joinEach E.cwd fs paths o []).1] (joinEach E.cwd fs paths o []).2).run) = _
      simp only [closeAllAtK_run]
      rfl
    · rename_i l
      have hl : ∀ s, (joinDirEachK E.cwd paths s []).run = joinDirLoop E.cwd paths s := fun s => funext fun fs => joinDirEachK_run E.cwd paths s [] fs
      show Prog.bind ((DirSink.new l.toPath).enter E.cwd) (fun s1 => Prog.bind (joinDirEachK E.cwd paths s1 []).run fun r =>
        Prog.bind (r.1.exit E.cwd) fun _ => Killable.run (match r.2 with | some e => Killable.raise e | none => Killable.pure ())) = _
      simp only [hl]
      have : ∀ r : DirSink × Option Exc, Killable.run (match r.2 with | some e => Killable.raise e | none => Killable.pure () : Killable Unit) =
          match r.2 with | some e => Prog.raise e | none => Prog.pure () := by
        rintro ⟨_, _ | e⟩ <;> rfl
      simp only [this]
      rfl
    · rename_i h1 h2
      unfold joinInto
      split
      · exact absurd rfl (h1 _)
      · exact absurd rfl (h2 _)
      · rfl
  show Prog.bind (p.pathListFromFile E.cwd "input_store_list_file".toList) (fun paths => Prog.bind (FromParams.byteSink E p "output".toList (some (joinLocals p paths))) fun sink =>
    (joinIntoK E.cwd order paths sink).run) = _
  simp only [h]
  rfl

/-! ## What programs touch -/

section
variable {F D : Loc → Prop} {B C C' : Loc → Content → Prop}

theorem Touches.refl {fs : FS} (h : fs.Tree) : Touches F D C fs fs := ⟨h, fun _ => .inl rfl⟩

theorem Touches.trans {a b c : FS} (h1 : Touches F D C a b) (h2 : Touches F D C b c) : Touches F D C a c := by
  refine ⟨h2.tree, fun q => ?_⟩
  rcases h2.places q with e2 | ⟨d2, n2, m2⟩ | ⟨f2, n2, m2⟩
  · rw [e2]; exact h1.places q
  · rcases h1.places q with e1 | ⟨-, -, m1⟩ | ⟨-, -, c, m1, -⟩
    · exact .inr (.inl ⟨d2, e1 ▸ n2, m2⟩)
    · rw [n2] at m1; cases m1
    · rw [n2] at m1; cases m1
  · rcases h1.places q with e1 | ⟨-, -, m1⟩ | ⟨-, n1, -⟩
    · exact .inr (.inr ⟨f2, e1 ▸ n2, m2⟩)
    · exact absurd m1 n2
    · exact .inr (.inr ⟨f2, n1, m2⟩)

theorem Touches.mono {F' D' : Loc → Prop} {a b : FS} (h : Touches F D C a b) (hF : ∀ q, F q → F' q) (hD : ∀ q, D q → D' q)
    (hC : ∀ q c, F q → b.node q = some (.file c) → C q c → C' q c) : Touches F' D' C' a b := by
  refine ⟨h.tree, fun q => ?_⟩
  rcases h.places q with e | ⟨d, n, m⟩ | ⟨f, n, c, m, hc⟩
  · exact .inl e
  · exact .inr (.inl ⟨hD q d, n, m⟩)
  · exact .inr (.inr ⟨hF q f, n, c, m, hC q c f m hc⟩)

/-- Some bytes. -/
def Raw (_ : Loc) (c : Content) : Prop := ∃ b, c = .data b

/-- Such a content, or what is there in that state. -/
def BOr (B : Loc → Content → Prop) (fs : FS) (q : Loc) (c : Content) : Prop := B q c ∨ fs.node q = some (.file c)

/-- Started in this state, the program touches no more than that, killed or not. -/
def Safe {α : Type} (F D : Loc → Prop) (C : Loc → Content → Prop) (x : Killable α) (fs : FS) : Prop :=
  fs.Tree → Touches F D C fs (x.run fs).2 ∧ ∀ s, x.killed fs s → Touches F D C fs s

/-- The same; the contents are such, or those the program leaves if it is not killed. -/
def SafeF {α : Type} (F D : Loc → Prop) (B : Loc → Content → Prop) (x : Killable α) (fs : FS) : Prop := Safe F D (BOr B (x.run fs).2) x fs

theorem Safe.mono {α : Type} {F' D' : Loc → Prop} {x : Killable α} {fs : FS} (h : Safe F D C x fs) (hF : ∀ q, F q → F' q) (hD : ∀ q, D q → D' q)
    (hC : ∀ q c, F q → C q c → C' q c) : Safe F' D' C' x fs := fun ht =>
  ⟨((h ht).1).mono hF hD fun q c hq _ => hC q c hq, fun s hs => ((h ht).2 s hs).mono hF hD fun q c hq _ => hC q c hq⟩

theorem Safe.still {α : Type} {x : Killable α} {fs : FS} (hr : (x.run fs).2 = fs) (hk : ∀ s, x.killed fs s → s = fs) : Safe F D C x fs := fun ht =>
  ⟨by rw [hr]; exact Touches.refl ht, fun s hs => by rw [hk s hs]; exact Touches.refl ht⟩

theorem Safe.pure {α : Type} (a : α) (fs : FS) : Safe F D C (Killable.pure a) fs := Safe.still rfl fun _ h => h

theorem Safe.ofRes {α : Type} (r : Res α) (fs : FS) : Safe F D C (Killable.ofRes r) fs := Safe.still (by cases r <;> rfl) fun _ h => h

theorem Safe.raise {α : Type} (e : Exc) (fs : FS) : Safe F D C (Killable.raise (α := α) e) fs := Safe.still rfl fun _ h => h

theorem Safe.reading {α : Type} {p : Prog α} {fs : FS} (h : (p fs).2 = fs) : Safe F D C (Killable.reading p) fs := Safe.still h fun _ h => h

theorem Safe.get (fs : FS) : Safe F D C Killable.get fs := Safe.reading rfl

theorem bind_run_ok {α β : Type} {x : Killable α} {f : α → Killable β} {fs fs' : FS} {a : α} (h : x.run fs = (.ok a, fs')) :
    (x >>= f).run fs = (f a).run fs' := by
  show Prog.bind x.run (fun a => (f a).run) fs = _
  simp only [Prog.bind, h]

theorem bind_run_error {α β : Type} {x : Killable α} {f : α → Killable β} {fs fs' : FS} {e : Exc} (h : x.run fs = (.error e, fs')) :
    (x >>= f).run fs = (.error e, fs') := by
  show Prog.bind x.run (fun a => (f a).run) fs = _
  simp only [Prog.bind, h]

theorem Safe.bind {α β : Type} {x : Killable α} {f : α → Killable β} {fs : FS} (hx : Safe F D C x fs)
    (hf : ∀ a fs', x.run fs = (.ok a, fs') → Safe F D C (f a) fs') : Safe F D C (x >>= f) fs := by
  intro ht
  obtain ⟨h1, h2⟩ := hx ht
  constructor
  · cases hr : x.run fs with
    | mk r fs' =>
      rw [hr] at h1
      cases r with
      | error e => rw [bind_run_error hr]; exact h1
      | ok a => rw [bind_run_ok hr]; exact h1.trans ((hf a fs' hr h1.tree).1)
  · rintro s (hs | ⟨a, fs', hr, hs⟩)
    · exact h2 s hs
    · rw [hr] at h1
      exact h1.trans ((hf a fs' hr h1.tree).2 s hs)

theorem SafeF.bind {α β : Type} {x : Killable α} {f : α → Killable β} {fs : FS} (hx : Safe F D B x fs)
    (hf : ∀ a fs', x.run fs = (.ok a, fs') → SafeF F D B (f a) fs') : SafeF F D B (x >>= f) fs := by
  refine Safe.bind (hx.mono (fun _ h => h) (fun _ h => h) fun _ _ _ h => .inl h) fun a fs' hr => ?_
  rw [bind_run_ok hr]
  exact hf a fs' hr

theorem SafeF.of {α : Type} {x : Killable α} {fs : FS} (h : Safe F D B x fs) : SafeF F D B x fs :=
  h.mono (fun _ h => h) (fun _ h => h) fun _ _ _ h => .inl h

theorem Safe.attempt {α : Type} {x : Killable α} {fs : FS} (h : Safe F D C x fs) : Safe F D C (Killable.attempt x) fs := h

theorem mkdirs_touches {fs : FS} (ht : fs.Tree) {d q : Loc} (hq : q <+: d) (hD : ∀ r, r <+: d → D r) : Touches F D C fs (Vista.mkdirs q fs).2 := by
  obtain ⟨h1, h2, -⟩ := mkdirs_any ht hq
  refine ⟨h1, fun r => ?_⟩
  rcases h2 r with h | ⟨a, b, c⟩
  · exact .inl h
  · exact .inr (.inl ⟨hD r a, b, c⟩)

theorem Safe.mkdirs {d : Loc} (hD : ∀ r, r <+: d → D r) (fs : FS) : Safe F D C (Killable.mkdirs d) fs := by
  refine fun ht => ⟨mkdirs_touches ht (List.prefix_refl _) hD, ?_⟩
  rintro s (rfl | ⟨q, hq, rfl⟩)
  · exact Touches.refl ht
  · exact mkdirs_touches ht hq hD

theorem writeFile_touches {fs : FS} (ht : fs.Tree) {l : Loc} {c : Content} (hF : F l) (hC : C l c) : Touches F D C fs (Vista.writeFile l c fs).2 := by
  by_cases h : l ≠ [] ∧ fs.node l.dropLast = some .dir ∧ fs.node l ≠ some .dir
  · obtain ⟨fs', h1, h2, h3⟩ := (writeFile_spec ht l c).1 h.1 h.2.1 h.2.2
    rw [h1]
    refine ⟨h3, fun q => ?_⟩
    by_cases hq : q = l
    · subst hq; exact .inr (.inr ⟨hF, h.2.2, c, h2.1, hC⟩)
    · exact .inl (h2.2 q hq)
  · rw [(writeFile_spec ht l c).2 h]; exact Touches.refl ht

theorem Safe.writeFile {l : Loc} {b : Bytes} (hF : F l) (hC : ∀ b' more, b = b' ++ more → C l (.data b')) (fs : FS) : Safe F D C (Killable.writeFile l b) fs := by
  refine fun ht => ⟨writeFile_touches ht hF (hC b .empty (by rw [ByteArray.append_empty])), ?_⟩
  rintro s (rfl | ⟨b', more, hb, rfl⟩)
  · exact Touches.refl ht
  · exact writeFile_touches ht hF (hC b' more hb)

theorem Safe.writing {ls : List Loc} (hF : ∀ l ∈ ls, F l) (hC : ∀ l ∈ ls, ∀ b, C l (.data b)) (fs : FS) : Safe F D C (Killable.writing ls) fs := by
  have key : ∀ (c : Loc → Bytes) (ls : List Loc), (∀ l ∈ ls, F l) → (∀ l ∈ ls, ∀ b, C l (.data b)) → ∀ fs : FS, fs.Tree →
      Touches F D C fs (ls.foldl (fun t l => (Vista.writeFile l (.data (c l)) t).2) fs) := by
    intro c ls
    induction ls with
    | nil => exact fun _ _ fs ht => Touches.refl ht
    | cons l ls ih =>
      intro hF hC fs ht
      have h1 : Touches F D C fs (Vista.writeFile l (.data (c l)) fs).2 := writeFile_touches ht (hF l (by simp)) (hC l (by simp) _)
      exact h1.trans (ih (fun l h => hF l (by simp [h])) (fun l h => hC l (by simp [h])) _ h1.tree)
  refine fun ht => ⟨Touches.refl ht, ?_⟩
  rintro s (rfl | ⟨c, rfl⟩)
  · exact Touches.refl ht
  · exact key c ls hF hC fs ht

theorem enter_touches (order : List Str → List Str) {fs : FS} (ht : fs.Tree) {l : Loc} (hF : F l) (hC : C l (.data .empty)) :
    Touches F D C fs (ZipOut.enter order l fs).2 := by
  by_cases h : l ≠ [] ∧ fs.node l.dropLast = some .dir ∧ fs.node l ≠ some .dir
  · obtain ⟨o, fs', h1, -, -, h2, h3⟩ := (enter_spec order ht l).1 h.1 h.2.1 h.2.2
    rw [h1]
    refine ⟨h3, fun q => ?_⟩
    by_cases hq : q = l
    · subst hq; exact .inr (.inr ⟨hF, h.2.2, _, h2.1, hC⟩)
    · exact .inl (h2.2 q hq)
  · rw [(enter_spec order ht l).2 h]; exact Touches.refl ht

theorem Safe.enterK (order : List Str → List Str) {l : Loc} (hF : F l) (hC : C l (.data .empty)) (fs : FS) : Safe F D C (ZipOut.enterK order l) fs := by
  refine fun ht => ⟨enter_touches order ht hF hC, ?_⟩
  rintro s (rfl | rfl)
  · exact Touches.refl ht
  · exact enter_touches order ht hF hC

/-- Closing leaves a zip file or nothing new. -/
theorem close_cases (o : ZipOut) {fs : FS} (ht : fs.Tree) :
    (o.close fs).2 = fs ∨ ∃ a, (o.close fs).2 = (Vista.writeFile o.loc (.zip a) fs).2 ∧ fs.WithFile o.loc (.zip a) (o.close fs).2 := by
  have hw : ∀ a, o.close = Vista.writeFile o.loc (.zip a) → (o.close fs).2 = fs ∨
      ∃ a, (o.close fs).2 = (Vista.writeFile o.loc (.zip a) fs).2 ∧ fs.WithFile o.loc (.zip a) (o.close fs).2 := by
    intro a e
    by_cases h : o.loc ≠ [] ∧ fs.node o.loc.dropLast = some .dir ∧ fs.node o.loc ≠ some .dir
    · obtain ⟨fs', h1, h2, -⟩ := (writeFile_spec ht o.loc (.zip a)).1 h.1 h.2.1 h.2.2
      exact .inr ⟨a, by rw [e], by rw [e, h1]; exact h2⟩
    · exact .inl (by rw [e, (writeFile_spec ht o.loc (.zip a)).2 h])
  rcases hx : o.sink.exit none with ⟨⟨_ | a, s⟩, _ | u⟩
  · exact .inl (by simp only [ZipOut.close, hx]; rfl)
  · exact .inl (by simp only [ZipOut.close, hx]; rfl)
  · exact .inl (by simp only [ZipOut.close, hx]; rfl)
  · exact hw a (by simp only [ZipOut.close, hx])

theorem close_tree (o : ZipOut) {fs : FS} (ht : fs.Tree) : (o.close fs).2.Tree ∧ ∀ q, q ≠ o.loc → (o.close fs).2.node q = fs.node q := by
  rcases close_cases o ht with h | ⟨a, h, h'⟩
  · rw [h]; exact ⟨ht, fun _ _ => rfl⟩
  · refine ⟨?_, h'.2⟩
    rw [h]
    exact (writeFile_touches (F := fun _ => True) (D := fun _ => True) (C := fun _ _ => True) ht trivial trivial).tree

theorem closeAllAt_others (os : List ZipOut) (e : Option Exc) {fs : FS} (ht : fs.Tree) {q : Loc} (hq : q ∉ os.map (·.loc)) :
    (ZipOut.closeAllAt os e fs).2.node q = fs.node q := by
  induction os generalizing e fs with
  | nil => cases e <;> rfl
  | cons o os ih =>
    simp only [List.map_cons, List.mem_cons, not_or] at hq
    obtain ⟨h1, h2⟩ := close_tree o ht
    unfold ZipOut.closeAllAt
    cases hc : o.close fs with
    | mk r fs' =>
      rw [hc] at h1 h2
      cases r with
      | ok u => exact (ih e h1 hq.2).trans (h2 q hq.1)
      | error e' => exact (ih _ h1 hq.2).trans (h2 q hq.1)

theorem closeAllAtK_safe (os : List ZipOut) (e : Option Exc) (hnd : (os.map (·.loc)).Nodup) (hF : ∀ o ∈ os, F o.loc)
    (hB : ∀ o ∈ os, ∀ b, B o.loc (.data b)) (fs : FS) (ht : fs.Tree) : SafeF F D B (ZipOut.closeAllAtK os e) fs := by
  induction os generalizing e fs with
  | nil => cases e with
    | none => exact Safe.pure _ _
    | some e => exact Safe.raise _ _
  | cons o os ih =>
    simp only [List.map_cons, List.nodup_cons] at hnd
    unfold ZipOut.closeAllAtK
    refine SafeF.bind (Safe.writing (by simpa using hF) (by simpa using hB) fs) fun a fs1 h1 => ?_
    cases h1
    have h2 : (Killable.attempt o.closeK).run fs = (.ok (o.close fs).1, (o.close fs).2) := rfl
    obtain ⟨t1, t2⟩ := close_tree o ht
    unfold SafeF
    rw [bind_run_ok h2]
    refine Safe.bind (Safe.attempt (x := o.closeK) ?_) fun r fs1 h1 => ?_
    · have hT : Touches F D (BOr B (Killable.run (match (o.close fs).1 with
          | .ok _ => ZipOut.closeAllAtK os e
          | .error e' => ZipOut.closeAllAtK os (some e')) (o.close fs).2).2) fs (o.close fs).2 := by
        rcases close_cases o ht with h | ⟨c, h, h'⟩
        · rw [h]; exact Touches.refl ht
        · have hfin : (Killable.run (match (o.close fs).1 with
            | .ok _ => ZipOut.closeAllAtK os e
            | .error e' => ZipOut.closeAllAtK os (some e')) (o.close fs).2).2.node o.loc = some (.file (.zip c)) := by
            rw [← h'.1]
            cases (o.close fs).1 with
            | ok u => rw [closeAllAtK_run]; exact closeAllAt_others os e t1 hnd.1
            | error e' => rw [closeAllAtK_run]; exact closeAllAt_others os _ t1 hnd.1
          conv => arg 5; rw [h]
          exact writeFile_touches ht (hF o (by simp)) (.inr hfin)
      refine fun _ => ⟨hT, ?_⟩
      rintro s (rfl | rfl)
      · exact Touches.refl ht
      · exact hT
    · rw [h2] at h1
      cases h1
      cases hr : (o.close fs).1 with
      | ok u => exact ih e hnd.2 (fun o' h => hF o' (by simp [h])) (fun o' h => hB o' (by simp [h])) _ t1
      | error e' => exact ih (some e') hnd.2 (fun o' h => hF o' (by simp [h])) (fun o' h => hB o' (by simp [h])) _ t1

theorem enterAllAtK_safe (order : List Str → List Str) (ls : List Loc) (hnd : ls.Nodup) (os : List ZipOut) (hF : ∀ l ∈ ls, F l) (hB : ∀ l ∈ ls, ∀ b, B l (.data b)) {fs : FS}
    (ht : fs.Tree) (h : ∀ l ∈ ls, l ≠ [] ∧ fs.node l.dropLast = some .dir ∧ fs.node l ≠ some .dir) :
    Safe F D B (ZipOut.enterAllAtK order ls os) fs := by
  induction ls generalizing fs os with
  | nil => exact Safe.pure _ _
  | cons l ls ih =>
    simp only [List.nodup_cons] at hnd
    obtain ⟨hl1, hl2, hl3⟩ := h l (by simp)
    obtain ⟨o, fs1, a1, a2, a3, a4, a5⟩ := (enter_spec order ht l).1 hl1 hl2 hl3
    have hdiff : ∀ l' ∈ ls, l' ≠ l := fun l' hl' h => hnd.1 (h ▸ hl')
    unfold ZipOut.enterAllAtK
    refine Safe.bind (Safe.attempt (Safe.enterK order (hF l (by simp)) (hB l (by simp) _) fs)) fun r fs' hr => ?_
    have hr' : (Killable.attempt (ZipOut.enterK order l)).run fs = (.ok (.ok o), fs1) := by
      show (Except.ok (ZipOut.enter order l fs).1, (ZipOut.enter order l fs).2) = _
      rw [a1]
    rw [hr'] at hr
    cases hr
    refine ih hnd.2 _ (fun l h => hF l (by simp [h])) (fun l h => hB l (by simp [h])) a5 fun l' hl' => ?_
    obtain ⟨c1, c2, c3⟩ := h l' (by simp [hl'])
    refine ⟨c1, ?_, by rw [a4.2 _ (hdiff l' hl')]; exact c3⟩
    rw [a4.2]
    · exact c2
    · intro h; rw [h] at c2; exact hl3 c2

/-! ## The sinks stay where they are -/

theorem put_loc (o : ZipOut) (k : Str) (b : Bytes) : (o.put k b).1.loc = o.loc := rfl

theorem set_locs {outs : List ZipOut} {i : Nat} {o o' : ZipOut} (h : outs[i]? = some o) (hl : o'.loc = o.loc) :
    (outs.set i o').map (·.loc) = outs.map (·.loc) := by
  rw [List.map_set, hl]
  apply List.ext_getElem? fun j => ?_
  rw [List.getElem?_set]
  obtain ⟨hi, ho⟩ := List.getElem?_eq_some_iff.1 h
  by_cases hij : i = j
  · subst hij; simp [hi, ho]
  · simp [hij]

theorem dealKeys_locs (src : KVSource Bytes) (n i : Nat) (ks : List Str) (outs : List ZipOut) :
    (dealKeys src n i ks outs).1.map (·.loc) = outs.map (·.loc) := by
  induction ks generalizing i outs with
  | nil => rfl
  | cons k ks ih =>
    unfold dealKeys
    split
    · rfl
    · rename_i o ho
      split
      · rfl
      · rename_i v _
        split
        · rw [ih, set_locs ho (put_loc o k v)]
        · exact set_locs ho (put_loc o k v)

theorem evenBody_locs (shuffle : PVal → List Str → List Str) (src : KVSource Bytes) (n : Nat) (seed : PVal) (outs : List ZipOut) :
    (evenBody shuffle src n seed outs).1.map (·.loc) = outs.map (·.loc) := by
  unfold evenBody
  split
  · rfl
  · exact dealKeys_locs _ _ _ _ _

theorem copyKeys_loc (src : KVSource Bytes) (ks : List Str) (o : ZipOut) (copied : List Str) : (copyKeys src ks o copied).1.loc = o.loc := by
  induction ks generalizing o copied with
  | nil => rfl
  | cons k ks ih =>
    unfold copyKeys
    split
    · rfl
    · split <;> rfl
    · split
      · rw [ih, put_loc]
      · rfl

theorem sampleKeys_loc (src : KVSource Bytes) (ks : List Str) (o : ZipOut) : (sampleKeys src ks o).1.loc = o.loc := by
  induction ks generalizing o with
  | nil => rfl
  | cons k ks ih =>
    unfold sampleKeys
    split
    · rfl
    · split
      · rw [ih, put_loc]
      · rfl

theorem joinKeys_loc (src : KVSource Bytes) (ks : List Str) (o : ZipOut) (w : List Str) : (joinKeys src ks o w).1.loc = o.loc := by
  induction ks generalizing o w with
  | nil => rfl
  | cons k ks ih =>
    unfold joinKeys
    by_cases hk : k ∈ w
    · rw [if_pos hk]
    · rw [if_neg hk]
      split
      · rfl
      · split
        · rw [ih, put_loc]
        · rfl

theorem joinOne_loc (src : KVSource Bytes) (o : ZipOut) (w : List Str) : (joinOne src o w).1.loc = o.loc := by
  unfold joinOne
  split
  · rfl
  · rfl
  · exact joinKeys_loc _ _ _ _

theorem joinEach_loc (cwd : PyPath) (fs : FS) (paths : List PyPath) (o : ZipOut) (w : List Str) : (joinEach cwd fs paths o w).1.loc = o.loc := by
  induction paths generalizing o w with
  | nil => rfl
  | cons path rest ih =>
    unfold joinEach
    cases (zipBytesSource (PyPath.resolve cwd path) fs).1 with
    | error e => rfl
    | ok src =>
      have := joinOne_loc src.asSource o w
      rcases hj : joinOne src.asSource o w with ⟨o1, w1, e1⟩
      rw [hj] at this
      cases e1 with
      | none => simp only [hj]; rw [ih]; exact this
      | some e => simp only [hj]; exact this

/-- Making directories for a place that is not blocked. -/
theorem Safe.makingDirs {α : Type} {d : Loc} (hD : ∀ r, r <+: d → D r) {p : Prog α} {fs : FS} (hb : ¬ fs.Blocked d) (h : fs.WithDirs d (p fs).2)
    (ht' : (p fs).2.Tree) : Safe F D C (Killable.makingDirs p) fs := by
  intro ht
  have final : ∀ r, (p fs).2.node r = fs.node r ∨ (D r ∧ fs.node r = none ∧ (p fs).2.node r = some .dir) := by
    intro r
    by_cases hr : r <+: d
    · cases hn : fs.node r with
      | none => exact .inr ⟨hD r hr, rfl, h.1 r hr⟩
      | some n =>
        cases n with
        | dir => exact .inl (h.1 r hr)
        | file c => exact absurd ⟨r, c, hr, hn⟩ hb
    · exact .inl (h.2 r hr)
  have done : Touches F D C fs (p fs).2 := ⟨ht', fun r => by
    rcases final r with e | e
    · exact .inl e
    · exact .inr (.inl e)⟩
  refine ⟨done, ?_⟩
  rintro s (rfl | rfl | ⟨q, rfl, hq⟩)
  · exact Touches.refl ht
  · exact done
  · refine ⟨(mkdirs_any ht (List.prefix_refl q)).1, fun r => ?_⟩
    rcases hq r with e | e
    · exact .inl e
    · rw [e]
      rcases final r with e | e
      · exact .inl e
      · exact .inr (.inl e)

/-! ## The scripts -/

theorem Safe.creatableFileK {cwd : PyPath} {ns : Params} (h : ns.WF) {param : Str} {out : Loc} (hout : Params.PathIs cwd ns param out)
    (hD : ∀ q, q <+: out.dropLast → D q) (fs : FS) : Safe F D C (ns.creatableFileK cwd param) fs := by
  unfold Params.creatableFileK
  refine Safe.bind (Safe.ofRes _ _) fun l fs1 h1 => ?_
  have hp : ns.pathParam cwd param = .ok out := ((Params.pathParam_spec cwd h param).1 out).2 hout
  rw [hp] at h1
  cases h1
  exact Safe.bind (Safe.mkdirs hD _) fun _ _ _ => Safe.pure _ _

/-- What a killed even split can leave in the files: bytes, in the list of the slices a beginning of the list. -/
def EvenRaw (dir : Loc) (n : Nat) (q : Loc) (c : Content) : Prop :=
  ∃ b, c = .data b ∧ (q = dir ++ ["_slices.txt".toList] → ∃ more, encodeUtf8 (joinWith '\n' ((List.range n).map fun j =>
    '/' :: joinWith '/' (dir ++ [(toString j).toList ++ ".zip".toList]))) = b ++ more)

theorem evenSplitK_safe (order : List Str → List Str) (shuffle : PVal → List Str → List Str) {cwd : PyPath} (src : FS → KVSource Bytes) {p : Params}
    {dir : Loc} {n : Nat} {seed : PVal} (hp : EvenParams cwd p dir n seed) {fs : FS} (hf : EvenPlace fs dir n) :
    SafeF (fun q => q = dir ++ ["_slices.txt".toList] ∨ ∃ j, j < n ∧ q = slicePath dir j) (fun q => q <+: dir) (EvenRaw dir n) (evenSplitK order shuffle cwd src p) fs := by
  obtain ⟨ht, hb, hl, hz⟩ := hf
  obtain ⟨fs1, a1, a2, a3⟩ := (Params.C73_creatable_directory cwd p hp.wf "output_dir".toList fs ht).1 dir hp.dir hb
  obtain ⟨v, hv, hn⟩ := hp.slices
  have hpos := ((Params.C47_positive_integer p hp.wf "num_slices".toList .none).1 v).2 ⟨hv, n, hn, by have := hp.positive; omega⟩
  have hdd := pathIs_dotdot hp.dir
  have hres : PyPath.resolve cwd dir.toPath = dir := resolve_toPath cwd hdd
  have hk : FileKey "_slices.txt".toList := by constructor <;> simp [TextSafe] <;> decide
  have hnp : ∀ w : Str, ¬ dir ++ [w] <+: dir := fun w h => by have := h.length_le; simp at this
  unfold evenSplitK
  refine SafeF.bind ?_ fun d fs1' h1 => ?_
  · unfold Params.creatableDirectoryK
    refine Safe.bind (Safe.ofRes _ _) fun l fs1 h1 => ?_
    have hpath : p.pathParam cwd "output_dir".toList = .ok dir := ((Params.pathParam_spec cwd hp.wf _).1 dir).2 hp.dir
    rw [hpath] at h1
    cases h1
    exact Safe.bind (Safe.mkdirs (fun _ h => h) _) fun _ _ _ => Safe.pure _ _
  replace h1 : p.creatableDirectory cwd "output_dir".toList fs = (.ok d, fs1') := h1
  rw [a1] at h1
  cases h1
  refine SafeF.bind (Safe.ofRes _ _) fun v' fs1' h1 => ?_
  rw [hpos] at h1
  cases h1
  refine SafeF.bind (Safe.ofRes _ _) fun v' fs1' h1 => ?_
  rw [seed_param hp] at h1
  cases h1
  rw [asInt_getD hn, div_fileKey hk]
  obtain ⟨fs2, b1, b2, b3⟩ := writeBytesTo_spec (cwd := cwd) (P := dir.toPath) a3 hk.dotdot (by rw [hres]; exact a2.1 dir (List.prefix_refl _))
    (by rw [hres, a2.2 _ (hnp _)]; exact hl)
    (encodeUtf8 (joinWith '\n' (((List.range n).map (slicePath dir)).map fun l => (Loc.toPath l).render)))
  rw [hres] at b2
  have hdir2 : fs2.node dir = some .dir := by
    rw [b2.2 _ (fun h => hnp _ (by rw [← h]))]; exact a2.1 dir (List.prefix_refl _)
  refine SafeF.bind ?_ fun _ fs2' h2 => ?_
  · unfold writeBytesToK
    rw [parent_snoc, hres, resolve_snoc _ hk.dotdot, hres]
    exact Safe.bind (Safe.mkdirs (fun _ h => h) _) fun _ _ _ => Safe.writeFile (.inl rfl) (fun b more h => ⟨b, rfl, fun _ => ⟨more, by simpa [slicePath, Loc.toPath, PyPath.render, Function.comp_def] using h⟩⟩) _
  rw [writeBytesToK_same, b1] at h2
  cases h2
  have hnd : ((List.range n).map (slicePath dir)).Nodup := (List.nodup_map_iff_inj_on List.nodup_range).2 fun i _ j _ h => slicePath_inj dir h
  have hopen : ∀ l ∈ (List.range n).map (slicePath dir), l ≠ [] ∧ fs2.node l.dropLast = some .dir ∧ fs2.node l ≠ some .dir := by
    intro l hl
    simp only [List.mem_map, List.mem_range] at hl
    obtain ⟨j, hj, rfl⟩ := hl
    refine ⟨by simp [slicePath], by simp [slicePath, hdir2], ?_⟩
    rw [b2.2 _ (slicePath_ne_list dir j), a2.2 _ (slicePath_not_prefix dir j)]
    exact hz j hj
  have hF : ∀ l ∈ (List.range n).map (slicePath dir), l = dir ++ ["_slices.txt".toList] ∨ ∃ j, j < n ∧ l = slicePath dir j := by
    intro l hl
    simp only [List.mem_map, List.mem_range] at hl
    obtain ⟨j, hj, rfl⟩ := hl
    exact .inr ⟨j, hj, rfl⟩
  have hB : ∀ l ∈ (List.range n).map (slicePath dir), ∀ b, EvenRaw dir n l (.data b) := by
    intro l hl b
    simp only [List.mem_map, List.mem_range] at hl
    obtain ⟨j, hj, rfl⟩ := hl
    exact ⟨b, rfl, fun h => absurd h (slicePath_ne_list dir j)⟩
  refine SafeF.bind (enterAllAtK_safe order _ hnd [] hF hB b3 hopen) fun outs fs3 h3 => ?_
  rw [enterAllAtK_run] at h3
  obtain ⟨new, fs3', c1, c2, c3, c4, c5, c6⟩ := enterAllAt_spec order b3 ((List.range n).map (slicePath dir)) hnd [] hopen
  rw [c1] at h3
  cases h3
  refine SafeF.bind (Safe.get _) fun fs4 fs5 h5 => ?_
  cases h5
  have hlocs := (evenBody_locs shuffle (src fs3) n seed new).trans c2
  have hmem : ∀ o ∈ (evenBody shuffle (src fs3) n seed new).1.reverse, o.loc ∈ (List.range n).map (slicePath dir) := fun o ho => by
    rw [← hlocs]
    exact List.mem_map_of_mem (List.mem_reverse.1 ho)
  refine closeAllAtK_safe _ _ ?_ (fun o ho => hF _ (hmem o ho)) (fun o ho => hB _ (hmem o ho)) _ c6
  rw [List.map_reverse, List.nodup_reverse, hlocs]; exact hnd

theorem encodeUtf8_append (a b : Str) : encodeUtf8 (a ++ b) = encodeUtf8 a ++ encodeUtf8 b := by
  simp [encodeUtf8, String.ofList_append]

/-- A run can be killed with any beginning of the list of slices written, and nothing else (but directories). -/
theorem evenSplitK_list (order : List Str → List Str) (shuffle : PVal → List Str → List Str) {cwd : PyPath} (src : FS → KVSource Bytes) {p : Params}
    {dir : Loc} {n : Nat} {seed : PVal} (hp : EvenParams cwd p dir n seed) {fs : FS} (hf : EvenPlace fs dir n) {b more : Bytes}
    (hb : encodeUtf8 (joinWith '\n' ((List.range n).map fun j => '/' :: joinWith '/' (dir ++ [(toString j).toList ++ ".zip".toList]))) = b ++ more) :
    ∃ s, (evenSplitK order shuffle cwd src p).killed fs s ∧ s.Tree ∧ s.node (dir ++ ["_slices.txt".toList]) = some (.file (.data b)) ∧
      (∀ q, q <+: dir → s.node q = some .dir) ∧ ∀ q, ¬ q <+: dir → q ≠ dir ++ ["_slices.txt".toList] → s.node q = fs.node q := by
  obtain ⟨ht, hblock, hl, hz⟩ := hf
  obtain ⟨fs1, a1, a2, a3⟩ := (Params.C73_creatable_directory cwd p hp.wf "output_dir".toList fs ht).1 dir hp.dir hblock
  obtain ⟨v, hv, hn⟩ := hp.slices
  have hpos := ((Params.C47_positive_integer p hp.wf "num_slices".toList .none).1 v).2 ⟨hv, n, hn, by have := hp.positive; omega⟩
  have hdd := pathIs_dotdot hp.dir
  have hres : PyPath.resolve cwd dir.toPath = dir := resolve_toPath cwd hdd
  have hk : FileKey "_slices.txt".toList := by constructor <;> simp [TextSafe] <;> decide
  have hnp : ∀ w : Str, ¬ dir ++ [w] <+: dir := fun w h => by have := h.length_le; simp at this
  obtain ⟨fs2, c1, c2, c3⟩ := mkdirs_existing a3 (a2.1 dir (List.prefix_refl _))
  obtain ⟨fs3, d1, d2, d3⟩ := (writeFile_spec c3 (dir ++ ["_slices.txt".toList]) (.data b)).1 (by simp)
    (by rw [List.dropLast_concat, c2]; exact a2.1 dir (List.prefix_refl _)) (by rw [c2, a2.2 _ (hnp _)]; exact hl)
  refine ⟨fs3, ?_, d3, d2.1, fun q hq => ?_, fun q hq hq' => by rw [d2.2 q hq', c2, a2.2 q hq]⟩
  · unfold evenSplitK
    refine .inr ⟨dir, fs1, a1, .inr ⟨v, fs1, by rw [hpos]; rfl, .inr ⟨seed, fs1, by rw [seed_param hp]; rfl, ?_⟩⟩⟩
    rw [asInt_getD hn, div_fileKey hk]
    refine .inl ?_
    unfold writeBytesToK
    rw [parent_snoc, hres, resolve_snoc _ hk.dotdot, hres]
    refine .inr ⟨(), fs2, c1, .inr ⟨b, more, by simpa [slicePath, Loc.toPath, PyPath.render, Function.comp_def] using hb, ?_⟩⟩
    rw [d1]
  · rw [d2.2 q (fun e => hnp _ (e ▸ hq)), c2]; exact a2.1 q hq

/-- A zip file is opened, filled and left. -/
theorem fill_safe {D : Loc → Prop} (order : List Str → List Str) (out : Loc) (body : FS → ZipOut → ZipOut × Option Exc) (hbody : ∀ fs o, (body fs o).1.loc = o.loc)
    {fs : FS} (ht : fs.Tree) : SafeF (fun q => q = out) D Raw (do
      let o ← ZipOut.enterK order out
      let fs ← Killable.get
      ZipOut.closeAllAtK [(body fs o).1] (body fs o).2) fs := by
  refine SafeF.bind (Safe.enterK (F := fun q => q = out) (C := Raw) order (l := out) rfl ⟨.empty, rfl⟩ fs) fun o fs2 h2 => ?_
  replace h2 : ZipOut.enter order out fs = (.ok o, fs2) := h2
  have hopen : out ≠ [] ∧ fs.node out.dropLast = some .dir ∧ fs.node out ≠ some .dir := by
    by_contra hc
    rw [(enter_spec order ht out).2 hc] at h2
    cases h2
  obtain ⟨o', fs2, b1, b2, -, b4, b5⟩ := (enter_spec order ht out).1 hopen.1 hopen.2.1 hopen.2.2
  rw [b1] at h2
  cases h2
  refine SafeF.bind (Safe.get _) fun fs3 fs4 h4 => ?_
  cases h4
  exact closeAllAtK_safe _ _ (by simp) (fun o' ho => by rw [List.mem_singleton.1 ho, hbody, b2]) (fun _ _ b => ⟨b, rfl⟩) _ b5

/-- One zip file is opened, filled and left. -/
theorem one_safe (order : List Str → List Str) {cwd : PyPath} {ns : Params} (h : ns.WF) {param : Str} {out : Loc} (hout : Params.PathIs cwd ns param out)
    {α : Type} (body : FS → ZipOut → ZipOut × Option Exc) (hbody : ∀ fs o, (body fs o).1.loc = o.loc) (ret : FS → ZipOut → α) (fs : FS) (ht : fs.Tree) :
    SafeF (fun q => q = out) (fun q => q <+: out.dropLast) Raw (do
      let out ← ns.creatableFileK cwd param
      let o ← ZipOut.enterK order out
      let fs ← Killable.get
      ZipOut.closeAllAtK [(body fs o).1] (body fs o).2
      Killable.pure (ret fs o)) fs := by
  refine SafeF.bind (Safe.creatableFileK h hout (fun _ h => h) fs) fun l fs1 h1 => ?_
  replace h1 : ns.creatableFile cwd param fs = (.ok l, fs1) := h1
  by_cases hb : fs.Blocked out.dropLast
  · rw [(Params.C73_creatable_file cwd ns h param fs ht).2.1 out hout hb] at h1; cases h1
  obtain ⟨fs1', a1, a2, a3⟩ := (Params.C73_creatable_file cwd ns h param fs ht).1 out hout hb
  rw [a1] at h1
  cases h1
  refine SafeF.bind (Safe.enterK (F := fun q => q = out) (C := Raw) order (l := out) rfl ⟨.empty, rfl⟩ fs1) fun o fs2 h2 => ?_
  replace h2 : ZipOut.enter order out fs1 = (.ok o, fs2) := h2
  have hopen : out ≠ [] ∧ fs1.node out.dropLast = some .dir ∧ fs1.node out ≠ some .dir := by
    by_contra hc
    rw [(enter_spec order a3 out).2 hc] at h2
    cases h2
  obtain ⟨o', fs2, b1, b2, -, b4, b5⟩ := (enter_spec order a3 out).1 hopen.1 hopen.2.1 hopen.2.2
  rw [b1] at h2
  cases h2
  refine SafeF.bind (Safe.get _) fun fs3 fs4 h4 => ?_
  cases h4
  have hc : SafeF (fun q => q = out) (fun q => q <+: out.dropLast) Raw (ZipOut.closeAllAtK [(body fs2 o).1] (body fs2 o).2) fs2 :=
    closeAllAtK_safe _ _ (by simp) (fun o' ho => by rw [List.mem_singleton.1 ho, hbody, b2]) (fun _ _ b => ⟨b, rfl⟩) _ b5
  unfold SafeF
  cases hr : (ZipOut.closeAllAtK [(body fs2 o).1] (body fs2 o).2).run fs2 with
  | mk r fs5 =>
    unfold SafeF at hc
    rw [hr] at hc
    have hfin : ((do
      ZipOut.closeAllAtK [(body fs2 o).1] (body fs2 o).2
      Killable.pure (ret fs2 o)).run fs2).2 = fs5 := by
      cases r with
      | error e => rw [bind_run_error hr]
      | ok u => rw [bind_run_ok hr]; rfl
    rw [hfin]
    exact Safe.bind hc fun _ _ _ => Safe.pure _ _

end
end Vista
