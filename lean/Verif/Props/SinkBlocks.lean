import Verif.Spec.SinkBlocks
import Verif.Props.Sinks

/-!
# Property C95: a program writes the same through every character sink
-/
set_option linter.unusedSectionVars false
set_option linter.unusedSimpArgs false
namespace Vista
namespace SinkBlocks
variable {α : Type}

/-! ## Nowhere -/

theorem nowhere_run {c : Client α} {ws : List Str} {r : Res α} (h : Writes False c ws r) : nowhereBlock c = r := by
  induction h with
  | result r => rfl
  | write s next ws r _ ih => exact ih .none
  | writelines lines next ws r _ ih => exact ih
  | raises lines e next ws r hf => exact hf.elim
  | flush next ws r _ ih => exact ih
  | isatty next ws r _ ih => exact ih
  | writable next ws r _ ih => exact ih

theorem writes_mono {c : Client α} {ws : List Str} {r : Res α} (h : Writes False c ws r) : Writes True c ws r := by
  induction h with
  | result r => exact .result r
  | write s next ws r _ ih => exact .write s next ws r ih
  | writelines lines next ws r _ ih => exact .writelines lines next ws r ih
  | raises lines e next ws r hf => exact hf.elim
  | flush next ws r _ ih => exact .flush next ws r ih
  | isatty next ws r _ ih => exact .isatty next ws r ih
  | writable next ws r _ ih => exact .writable next ws r ih

/-! ## Strings -/

theorem writeLines_spec (i : Nat) : ∀ (ls : List Str) (s : MemSink Str) (c : Str), s.buffers[i]? = some ⟨c, true⟩ →
    ∃ s', writeLines i ls s = (s', .ok ()) ∧ s'.buffers[i]? = some ⟨c ++ ls.flatten, true⟩ ∧ s'.last = s.last := by
  intro ls
  induction ls with
  | nil => intro s c h; exact ⟨s, rfl, by simpa using h, rfl⟩
  | cons l ls ih =>
    intro s c h
    have hi : i < s.buffers.length := by
      rcases Nat.lt_or_ge i s.buffers.length with h' | h'
      · exact h'
      · rw [List.getElem?_eq_none h'] at h; cases h
    have e : s.step [] (.write i l) = ({ s with buffers := s.buffers.set i ⟨c ++ l, true⟩ }, .ok ()) := by
      simp only [MemSink.step, h, if_true]
    obtain ⟨s', h1, h2, h3⟩ := ih { s with buffers := s.buffers.set i ⟨c ++ l, true⟩ } (c ++ l) (by simp [hi])
    exact ⟨s', by rw [writeLines, e]; exact h1, by rw [h2]; simp [List.append_assoc], h3⟩

theorem string_run (others : Others (MemSink Str)) (i : Nat) {c : Client α} {ws : List Str} {r : Res α} (h : Writes True c ws r) :
    ∀ (s : MemSink Str) (t : Str), s.buffers[i]? = some ⟨t, true⟩ →
      ∃ s', run (stringStep others i) c s = (s', r) ∧ s'.buffers[i]? = some ⟨t ++ ws.flatten, true⟩ ∧ s'.last = s.last := by
  induction h with
  | result r => intro s t hs; exact ⟨s, rfl, by simpa using hs, rfl⟩
  | write x next ws r _ ih =>
    intro s t hs
    have hi : i < s.buffers.length := by
      rcases Nat.lt_or_ge i s.buffers.length with h' | h'
      · exact h'
      · rw [List.getElem?_eq_none h'] at hs; cases hs
    have e : stringStep others i s (.write x) = ({ s with buffers := s.buffers.set i ⟨t ++ x, true⟩ }, .ok (.int x.length)) := by
      simp only [stringStep, MemSink.step, hs, if_true]
      rfl
    obtain ⟨s', h1, h2, h3⟩ := ih (.int x.length) { s with buffers := s.buffers.set i ⟨t ++ x, true⟩ } (t ++ x) (by simp [hi])
    exact ⟨s', by rw [run, e]; exact h1, by rw [h2]; simp [List.append_assoc], h3⟩
  | writelines lines next ws r _ ih =>
    intro s t hs
    obtain ⟨s1, e1, e2, e3⟩ := writeLines_spec i lines s t hs
    have e : stringStep others i s (.writelines ⟨lines, none⟩) = (s1, .ok .none) := by simp only [stringStep, e1]
    obtain ⟨s', h1, h2, h3⟩ := ih s1 _ e2
    exact ⟨s', by rw [run, e]; exact h1, by rw [h2]; simp [List.append_assoc], h3.trans e3⟩
  | raises lines e next ws r _ _ ih =>
    intro s t hs
    obtain ⟨s1, e1, e2, e3⟩ := writeLines_spec i lines s t hs
    have e : stringStep others i s (.writelines ⟨lines, some e⟩) = (s1, .error e) := by simp only [stringStep, e1]
    obtain ⟨s', h1, h2, h3⟩ := ih s1 _ e2
    exact ⟨s', by rw [run, e]; exact h1, by rw [h2]; simp [List.append_assoc], h3.trans e3⟩
  | flush next ws r _ ih =>
    intro s t hs
    have e : stringStep others i s .flush = (s, .ok .none) := by simp only [stringStep, bufferOpen, hs, if_true]
    rw [run, e]; exact ih s t hs
  | isatty next ws r _ ih =>
    intro s t hs
    have e : stringStep others i s .isatty = (s, .ok (.bool false)) := by simp only [stringStep, bufferOpen, hs, if_true]
    rw [run, e]; exact ih s t hs
  | writable next ws r _ ih =>
    intro s t hs
    have e : stringStep others i s .writable = (s, .ok (.bool true)) := by simp only [stringStep, bufferOpen, hs, if_true]
    rw [run, e]; exact ih s t hs

/-! ## Files -/

theorem file_run (others : Others (Buffer Str)) {c : Client α} {ws : List Str} {r : Res α} (h : Writes True c ws r) :
    ∀ t : Str, run (fileStep others) c ⟨t, true⟩ = (⟨t ++ ws.flatten, true⟩, r) := by
  induction h with
  | result r => intro t; simp [run]
  | write x next ws r _ ih => intro t; simpa [run, fileStep] using ih (.int x.length) (t ++ x)
  | writelines lines next ws r _ ih => intro t; simpa [run, fileStep] using ih (t ++ lines.flatten)
  | raises lines e next ws r _ _ ih => intro t; simpa [run, fileStep] using ih (t ++ lines.flatten)
  | flush next ws r _ ih => intro t; simpa [run, fileStep] using ih t
  | isatty next ws r _ ih => intro t; simpa [run, fileStep] using ih t
  | writable next ws r _ ih => intro t; simpa [run, fileStep] using ih t

/-! ## C95 -/

/-- A body that only writes ends with the same result or exception on every sink.  Nothing is left anywhere by `to_nowhere`. -/
theorem C95_nowhere (body : Client α) (ws : List Str) (r : Res α) (h : Writes False body ws r) : nowhereBlock body = r := nowhere_run h

/-- The object `to_nowhere` opens: it raises, and then only `NotImplementedError`, exactly when it is asked to read, to move or to be
cut, or for its buffer; whatever was done before, even closing it, it takes more text. -/
theorem C95_nowhere_accepts (op : FileOp) :
    ((∃ reply, nullReply op = .ok reply) ∨ nullReply op = .error .notImplementedError) ∧
    ((∃ reply, nullReply op = .ok reply) ↔ op ≠ .buffer ∧ op ≠ .read ∧ op ≠ .readable ∧ op ≠ .readline ∧ op ≠ .readlines ∧
      (∀ n, op ≠ .seek n) ∧ op ≠ .truncate ∧ op ≠ .next ∧ op ≠ .iter) ∧
    ∀ (calls : List FileOp) (body : Client α),
      nowhereBlock (calls.foldr (fun op c => .call op fun _ => c) body) = nowhereBlock body := by
  refine ⟨?_, ?_, fun calls body => ?_⟩
  · cases op <;> simp [nullReply]
  · cases op <;> simp [nullReply]
  · induction calls with
    | nil => rfl
    | cons c cs ih => exact ih

/-- On a `StringCharSink`, whatever was done with it before: what the body wrote is then the last string written, also if the body
raised. -/
theorem C95_string (others : Others (MemSink Str)) (body : Client α) (ws : List Str) (r : Res α) (h : Writes True body ws r)
    (sink : MemSink Str) : (stringBlock others body sink).2 = r ∧ (stringBlock others body sink).1.last = some ws.flatten := by
  obtain ⟨s', h1, h2, h3⟩ := string_run others sink.buffers.length h (sink.step [] .openBuffer).1 [] (by simp [MemSink.step])
  have hl : s'.step [] (.leave sink.buffers.length) =
      ({ last := some ws.flatten, buffers := s'.buffers.set sink.buffers.length ⟨ws.flatten, false⟩ }, .ok ()) := by
    simp only [MemSink.step, h2, if_true, List.nil_append]
  simp only [stringBlock, h1, hl, and_self]

theorem fileBlock_eq (others : Others (Buffer Str)) (body : Client α) (cwd p : PyPath) (fs : FS) :
    fileBlock others cwd p body fs = (do
      writeBytesTo cwd p (encodeUtf8 [])
      writeFile (PyPath.resolve cwd p) (.data (encodeUtf8 (run (fileStep others) body ⟨[], true⟩).1.content))
      Prog.ofRes (run (fileStep others) body ⟨[], true⟩).2 : Prog α) fs := by
  simp only [fileBlock, writeBytesTo, Prog.bind_apply]
  rcases mkdirs (PyPath.resolve cwd p.parent) fs with ⟨r, fs1⟩
  cases r <;> rfl

/-- On a file: unless something is in the way, the file has exactly what the body wrote, also if the body raised, the directories
above it exist, and nothing else has changed; if something is in the way, `OSError`, and nothing has changed. -/
theorem C95_file (others : Others (Buffer Str)) (body : Client α) (ws : List Str) (r : Res α) (h : Writes True body ws r)
    (cwd P : PyPath) (k : Str) (hk : k ≠ ['.', '.']) (fs : FS) (hfs : fs.Tree) :
    (¬ fs.Blocked (PyPath.resolve cwd P) → fs.node (PyPath.resolve cwd P ++ [k]) ≠ some .dir →
      ∃ fs', fileBlock others cwd ⟨P.root, P.parts ++ [k]⟩ body fs = (r, fs') ∧ fs'.Tree ∧
        fs'.node (PyPath.resolve cwd P ++ [k]) = some (.file (.data (encodeUtf8 ws.flatten))) ∧
        (∀ q, q <+: PyPath.resolve cwd P → fs'.node q = some .dir) ∧
        ∀ q, ¬ q <+: PyPath.resolve cwd P ++ [k] → fs'.node q = fs.node q) ∧
    (fs.Blocked (PyPath.resolve cwd P) ∨ fs.node (PyPath.resolve cwd P ++ [k]) = some .dir →
      ∃ fs', fileBlock others cwd ⟨P.root, P.parts ++ [k]⟩ body fs = (.error .ioError, fs') ∧ ∀ q, fs'.node q = fs.node q) := by
  have hpre : ¬ PyPath.resolve cwd P ++ [k] <+: PyPath.resolve cwd P := by
    intro h'; have := h'.length_le; simp at this; omega
  have hr := file_run others h []
  rw [List.nil_append] at hr
  constructor
  · intro hb hd
    obtain ⟨fs1, a1, a2, a3, a4, a5⟩ := (C69_file_sink (cwd := cwd) (P := P) fs hfs k hk (encodeUtf8 [])).1 hb hd
    obtain ⟨fs2, b1, b2, b3⟩ := (writeFile_spec a2 (PyPath.resolve cwd P ++ [k]) (.data (encodeUtf8 ws.flatten))).1 (by simp)
      (by rw [List.dropLast_concat, a4 _ (List.prefix_refl _)]) (by rw [a3]; simp)
    refine ⟨fs2, ?_, b3, b2.1, fun q hq => ?_, fun q hq => ?_⟩
    · rw [fileBlock_eq, hr]
      simp only [Prog.bind_apply, a1, resolve_snoc k hk, b1, Prog.ofRes_apply]
    · rw [b2.2 q (fun h' => hpre (h' ▸ hq)), a4 q hq]
    · rw [b2.2 q (fun h' => hq (h' ▸ List.prefix_refl _)), a5 q hq]
  · intro hor
    obtain ⟨fs1, a1, a2⟩ := (C69_file_sink (cwd := cwd) (P := P) fs hfs k hk (encodeUtf8 [])).2 hor
    exact ⟨fs1, by rw [fileBlock_eq]; simp only [Prog.bind_apply, a1], a2⟩

/-- `sink.write(data)` is such a block, so it does the same. -/
theorem C95_write (data : Str) (runs : Prop) : Writes runs (writeBody data) [data] (.ok ()) :=
  .write data _ [] _ fun _ => .result _

/-! ## The representation of a string source -/

/-- The representation of a source for a string shows the string if it has at most 100 characters, and else its first 100. -/
theorem C69_repr (s : Str) :
    (s.length ≤ 100 → stringSourceRepr s = "_StringCharSource(".toList ++ s ++ ")".toList) ∧
    (∀ a b, s = a ++ b → a.length = 100 → b ≠ [] → stringSourceRepr s = "_StringCharSource(".toList ++ a ++ "...)".toList) := by
  have hdots : "...)".toList = "...".toList ++ ")".toList := by decide
  have hp : [')'] = ")".toList := by decide
  unfold stringSourceRepr
  rw [hdots, hp]
  generalize "_StringCharSource(".toList = u
  generalize "...".toList = v
  generalize ")".toList = w
  generalize 100 = n
  constructor
  · intro h
    have h' : ¬ s.length > n := by omega
    simp only [h', if_false]
  · intro a b h ha hb
    have h' : s.length > n := by
      have := List.length_pos_iff.2 hb
      rw [h, List.length_append]; omega
    have ht : s.take n = a := by rw [h, ← ha, List.take_left]
    simp only [h', if_true, ht, List.append_assoc]

example : stringSourceRepr "abc".toList = "_StringCharSource(abc)".toList ∧
    (stringSourceRepr (List.replicate 5000 'x')).length = 122 := by decide +kernel

/-! ### Concrete cases -/

namespace Example

/-- A body that writes two texts and some lines, asks whether it may write, and raises in the end. -/
def body : Client Nat :=
  .call (.write "a".toList) fun _ => .call .writable fun
    | .ok (.bool true) => .call (.writelines ⟨["b\n".toList, "c".toList], none⟩) fun _ => .call .flush fun _ => .result (.error .keyError)
    | _ => .result (.ok 0)

example : Writes False body ["a".toList, "b\n".toList, "c".toList] (.error .keyError) :=
  .write _ _ _ _ fun _ => .writable _ _ _ (.writelines ["b\n".toList, "c".toList] _ [] _ (.flush _ _ _ (.result _)))

/-- An iterator that raises after one line; the body catches the exception and writes something else. -/
def careful : Client Unit :=
  .call (.writelines ⟨["x".toList], some .valueError⟩) fun
    | .ok _ => .result (.ok ())
    | .error _ => .call (.write "!".toList) fun _ => .result (.error .runtimeError)

example : Writes True careful ["x".toList, "!".toList] (.error .runtimeError) :=
  .raises ["x".toList] .valueError _ ["!".toList] _ trivial (.write _ _ _ _ fun _ => .result _)

/-- Counterexample: `to_nowhere` does not even run the iterator it is given, so its exceptions are not raised. -/
theorem _root_.Vista.SinkBlocks.C95_iterator_counterexample :
    Writes True careful ["x".toList, "!".toList] (.error .runtimeError) ∧
    (∀ others, (stringBlock others careful MemSink.new).2 = .error .runtimeError) ∧ nowhereBlock careful = .ok () :=
  have h : Writes True careful ["x".toList, "!".toList] (.error .runtimeError) :=
    .raises ["x".toList] .valueError _ ["!".toList] _ trivial (.write _ _ _ _ fun _ => .result _)
  ⟨h, fun others => (C95_string others careful _ _ h MemSink.new).1, rfl⟩

/-- A body that refuses to write to a closed file. -/
def guarded : Client Unit :=
  .call .closed fun
    | .ok (.bool false) => .call (.write "x".toList) fun _ => .result (.ok ())
    | _ => .result (.error .valueError)

/-- Counterexample: the object `to_nowhere` opens looks closed, as `closed` is a method and not a property. -/
theorem _root_.Vista.SinkBlocks.C95_closed_counterexample :
    (∀ others, (stringBlock others guarded MemSink.new).2 = .ok ()) ∧ nowhereBlock guarded = .error .valueError :=
  ⟨fun _ => rfl, rfl⟩

/-- A body that adds up what `write` returns. -/
def counting : Client Nat :=
  .call (.write "ab".toList) fun
    | .ok (.int n) => .result (.ok n)
    | _ => .result (.error .typeError)

/-- Counterexample: `write` returns the number of characters, but `None` for `to_nowhere`. -/
theorem _root_.Vista.SinkBlocks.C95_count_counterexample :
    (∀ others, (stringBlock others counting MemSink.new).2 = .ok 2) ∧ nowhereBlock counting = .error .typeError :=
  ⟨fun _ => rfl, rfl⟩

/-- Closing the buffer inside the block makes leaving it raise. -/
example : (∀ others, (stringBlock others (.call .close fun _ => .result (.ok 1)) MemSink.new).2 = .error .valueError) := fun _ => rfl

end Example
end SinkBlocks
end Vista
