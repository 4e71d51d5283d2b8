import Verif.Model.ZipOut
import Verif.Spec.ZipOut
import Verif.Props.Zip
import Verif.Proofs.FileSystem

/-!
# Zip sinks in the file system: proofs
-/
set_option linter.unusedSectionVars false
set_option linter.unusedSimpArgs false
namespace Vista
open Zip (Naming Inv Holds bytesCodec)

theorem plain_naming : Naming (fun k => .ok k) PlainKey where
  names k h := ⟨k, rfl, h.reserved, h.nul⟩
  injective k k' n _ _ h h' := by
    simp only [Except.ok.injEq] at h h'; rw [h, h']
  lines k h := h.newline

/-- An open sink that holds `M` so far. -/
structure Ready (order : List Str → List Str) (o : ZipOut) (M : Str → Option Bytes) : Prop where
  cfg : o.sink.cfg = Zip.defaultConfig order (fun k => .ok k) true
  inv : Inv bytesCodec (fun k => .ok k) PlainKey o.sink M

variable {order : List Str → List Str}

theorem Ready.put {o : ZipOut} {M : Str → Option Bytes} (h : Ready order o M) {k : Str} (hk : PlainKey k) (v : Bytes) :
    (o.put k v).1.loc = o.loc ∧
    ((M k).isSome = true → o.put k v = (o, .error .valueError)) ∧
    (M k = none → (o.put k v).2 = .ok () ∧ Ready order (o.put k v).1 (fun k' => if k' = k then some v else M k')) := by
  obtain ⟨h1, h2, h3⟩ := Zip.put_step plain_naming (by rw [h.cfg]; rfl) h.inv k v hk
  refine ⟨rfl, fun hm => ?_, fun hm => ?_⟩
  · have := h2 hm
    simp only [ZipOut.put]
    rw [show o.sink.put k (.bytes v) = _ from this]
  · obtain ⟨a, b⟩ := h3 (by rw [hm]; rfl)
    exact ⟨a, ⟨by rw [show (o.put k v).1.sink = (o.sink.put k (.bytes v)).1 from rfl]; exact h1.trans h.cfg, b⟩⟩

theorem enter_spec (order : List Str → List Str) {fs : FS} (ht : fs.Tree) (l : Loc) :
    (l ≠ [] → fs.node l.dropLast = some .dir → fs.node l ≠ some .dir →
      ∃ o fs', ZipOut.enter order l fs = (.ok o, fs') ∧ o.loc = l ∧ Ready order o (fun _ => none) ∧ fs.WithFile l (.data .empty) fs' ∧ fs'.Tree) ∧
    (¬ (l ≠ [] ∧ fs.node l.dropLast = some .dir ∧ fs.node l ≠ some .dir) → ZipOut.enter order l fs = (.error .ioError, fs)) := by
  have hc : Zip.Sink.create (Zip.defaultConfig order (fun k => .ok k) true) = .ok ⟨Zip.defaultConfig order (fun k => .ok k) true, .none, []⟩ := by
    simp [Zip.Sink.create, Zip.defaultConfig, checkArg, bind, Except.bind]
  have he : Zip.Sink.enter none ⟨Zip.defaultConfig order (fun k => .ok k) true, .none, []⟩ =
      .ok ⟨Zip.defaultConfig order (fun k => .ok k) true, .opened [], []⟩ := by
    simp [Zip.Sink.enter, Zip.defaultConfig, bind, Except.bind, show Zip.readKeysFile [] = .ok none from rfl]
  constructor
  · intro h1 h2 h3
    obtain ⟨fs', a, b, c⟩ := (writeFile_spec ht l (.data .empty)).1 h1 h2 h3
    refine ⟨⟨l, ⟨Zip.defaultConfig order (fun k => .ok k) true, .opened [], []⟩⟩, fs', ?_, rfl, ⟨rfl, ⟨⟨[], rfl, fun k n _ _ => rfl⟩, by simp, by simp, by simp⟩⟩, b, c⟩
    simp only [ZipOut.enter, Prog.bind_apply, Prog.ofRes_apply, hc, a, he, Prog.pure_apply]
  · intro h
    have := (writeFile_spec ht l (.data .empty)).2 h
    simp only [ZipOut.enter, Prog.bind_apply, Prog.ofRes_apply, hc, this]

theorem exit_spec (horder : ∀ l, (order l).Perm l) {o : ZipOut} {M : Str → Option Bytes} (h : Ready order o M) :
    ∃ a s, o.sink.exit none = ((some a, s), .ok ()) ∧ Holds bytesCodec (fun k => .ok k) PlainKey a M := by
  obtain ⟨hcfg, ⟨a, ha, he⟩, hnd, hkeys, hdom⟩ := h
  obtain ⟨a', w1, w2, -⟩ := Zip.readKeysFile_written order a o.sink.keys
  obtain ⟨a'', ks', w1', w3, w4, w5⟩ := Zip.C57_keys order horder a o.sink.keys hnd
  rw [w1, Except.ok.injEq] at w1'
  subst w1'
  have hgood : (∀ k, k ∈ ks' ↔ k ∈ o.sink.keys) := by
    refine w5.2 ⟨fun k hk => (hdom k ((hkeys k).1 hk)).newline, fun h => ?_⟩
    exact (hdom [] ((hkeys []).1 (by rw [h]; simp))).nonempty rfl
  refine ⟨a', { o.sink with zip := .closed }, ?_, ?_, ⟨ks', w3, w4, fun k => by rw [hgood, hkeys]⟩, hdom⟩
  · simp only [Zip.Sink.exit, ha, hcfg, Zip.defaultConfig, w1]
  · intro k n hk hn
    simp only [Except.ok.injEq] at hn
    subst hn
    rw [w2 _ hk.reserved]
    exact he k k hk rfl

theorem close_spec (horder : ∀ l, (order l).Perm l) {o : ZipOut} {M : Str → Option Bytes} (h : Ready order o M) {fs : FS} (ht : fs.Tree)
    (hf : ∃ c, fs.node o.loc = some (.file c)) :
    ∃ fs', o.close fs = (.ok (), fs') ∧ Stores fs' o.loc M ∧ (∀ q, q ≠ o.loc → fs'.node q = fs.node q) ∧ fs'.Tree := by
  obtain ⟨a, s, h1, h2⟩ := exit_spec horder h
  obtain ⟨c, hc⟩ := hf
  have hne : o.loc ≠ [] := by rintro h0; rw [h0, FS.node_nil] at hc; simp at hc
  have hpar : fs.node o.loc.dropLast = some .dir := by
    rcases nil_or_snoc o.loc with h0 | ⟨q, n, h0⟩
    · exact absurd h0 hne
    · rw [h0, List.dropLast_concat]
      exact ht.parents q n (by rw [← h0, hc]; simp)
  obtain ⟨fs', w1, w2, w3⟩ := (writeFile_spec ht o.loc (.zip a)).1 hne hpar (by rw [hc]; simp)
  refine ⟨fs', ?_, ⟨a, w2.1, Zip.serves_of_holds plain_naming h2⟩, w2.2, w3⟩
  simp only [ZipOut.close, h1, w1]

/-- What leaving raises. -/
def raised (e : Option Exc) : Res Unit := match e with | some e => .error e | none => .ok ()

theorem closeAllAt_spec (horder : ∀ l, (order l).Perm l) {os : List ZipOut} {Ms : List (Str → Option Bytes)} (h : List.Forall₂ (Ready order) os Ms)
    (hnd : (os.map (·.loc)).Nodup) (e : Option Exc) {fs : FS} (ht : fs.Tree) (hf : ∀ o ∈ os, ∃ c, fs.node o.loc = some (.file c)) :
    ∃ fs', ZipOut.closeAllAt os e fs = (raised e, fs') ∧ List.Forall₂ (fun o M => Stores fs' o.loc M) os Ms ∧
      (∀ q, q ∉ os.map (·.loc) → fs'.node q = fs.node q) ∧ fs'.Tree := by
  induction h generalizing fs with
  | nil => cases e <;> exact ⟨fs, rfl, .nil, fun _ _ => rfl, ht⟩
  | @cons o M os Ms ho hos ih =>
    simp only [List.map_cons, List.nodup_cons] at hnd
    obtain ⟨fs1, a1, a2, a3, a4⟩ := close_spec horder ho ht (hf o (by simp))
    have hdiff : ∀ o' ∈ os, o'.loc ≠ o.loc := fun o' ho' h => hnd.1 (h ▸ List.mem_map_of_mem ho')
    obtain ⟨fs2, b1, b2, b3, b4⟩ := ih hnd.2 a4 (fun o' ho' => by
      rw [a3 _ (hdiff o' ho')]; exact hf o' (by simp [ho']))
    refine ⟨fs2, by simp only [ZipOut.closeAllAt, a1, b1], .cons ?_ b2, ?_, b4⟩
    · obtain ⟨a, c1, c2⟩ := a2
      exact ⟨a, by rw [b3 _ hnd.1]; exact c1, c2⟩
    · intro q hq
      simp only [List.map_cons, List.mem_cons, not_or] at hq
      rw [b3 q hq.2, a3 q hq.1]

theorem enterAllAt_spec (order : List Str → List Str) {fs : FS} (ht : fs.Tree) (ls : List Loc) (hnd : ls.Nodup) (os : List ZipOut)
    (h : ∀ l ∈ ls, l ≠ [] ∧ fs.node l.dropLast = some .dir ∧ fs.node l ≠ some .dir) :
    ∃ new fs', ZipOut.enterAllAt order ls os fs = (.ok (os ++ new), fs') ∧ new.map (·.loc) = ls ∧ (∀ o ∈ new, Ready order o (fun _ => none)) ∧
      (∀ l ∈ ls, fs'.node l = some (.file (.data .empty))) ∧ (∀ q, q ∉ ls → fs'.node q = fs.node q) ∧ fs'.Tree := by
  induction ls generalizing fs os with
  | nil => exact ⟨[], fs, by simp [ZipOut.enterAllAt], rfl, by simp, by simp, fun _ _ => rfl, ht⟩
  | cons l ls ih =>
    simp only [List.nodup_cons] at hnd
    obtain ⟨hl1, hl2, hl3⟩ := h l (by simp)
    obtain ⟨o, fs1, a1, a2, a3, a4, a5⟩ := (enter_spec order ht l).1 hl1 hl2 hl3
    have hdiff : ∀ l' ∈ ls, l' ≠ l := fun l' hl' h => hnd.1 (h ▸ hl')
    obtain ⟨new, fs2, b1, b2, b3, b4, b5, b6⟩ := ih a5 hnd.2 (os ++ [o]) (by
      intro l' hl'
      obtain ⟨c1, c2, c3⟩ := h l' (by simp [hl'])
      refine ⟨c1, ?_, by rw [a4.2 _ (hdiff l' hl')]; exact c3⟩
      rw [a4.2]
      · exact c2
      · intro h; rw [h] at c2; exact hl3 c2)
    refine ⟨o :: new, fs2, by simp only [ZipOut.enterAllAt, a1, b1, List.append_assoc, List.singleton_append], by simp [a2, b2], ?_, ?_, ?_, b6⟩
    · intro o' ho'
      rcases List.mem_cons.1 ho' with rfl | ho'
      · exact a3
      · exact b3 o' ho'
    · intro l' hl'
      rcases List.mem_cons.1 hl' with rfl | hl'
      · rw [b5 _ hnd.1]; exact a4.1
      · exact b4 l' hl'
    · intro q hq
      simp only [List.mem_cons, not_or] at hq
      rw [b5 q hq.2, a4.2 q hq.1]

/-- A store in a file can be opened. -/
theorem zipBytesSource_spec {fs : FS} {l : Loc} {M : Str → Option Bytes} (h : Stores fs l M) :
    ∃ src, zipBytesSource l fs = (.ok src, fs) ∧ Zip.Serves src.asSource PlainKey M := by
  obtain ⟨a, h1, src, h2, h3⟩ := h
  refine ⟨src, ?_, h3⟩
  simp only [zipBytesSource, Prog.bind_apply, readFile, h1, Prog.ofRes_apply, h2]

end Vista
