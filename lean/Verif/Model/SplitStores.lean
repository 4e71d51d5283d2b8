import Verif.Model.ZipOut
import Verif.Model.ParamsFiles

/-!
# `vistautils/scripts/split_key_value_store.py`

The input source is given as the functions it offers, which depend on the file system when they are called.  While an output is open its
file changes only when it is opened and when it is left, so the questions asked in between are answered for the same file system.
-/
namespace Vista

/-- `"{!s}.zip".format(i)` in the output directory, `split_key_value_store.py:68`. -/
def slicePath (dir : Loc) (i : Nat) : Loc := dir ++ [(toString i).toList ++ ".zip".toList]

/-- `sorted(list(input_source.keys()))`, `split_key_value_store.py:77-79`; `list(None)` is a `TypeError`. -/
def sortedKeys (src : KVSource Bytes) : Res (List Str) := do
  match ← src.keys with
  | some ks => .ok (stableSort strLe ks)
  | none => .error .typeError

/-- The loop in `split_key_value_store.py:83-84`, for the keys from position `i` on: the sinks afterwards, and the exception if one was
raised. -/
def dealKeys (src : KVSource Bytes) (n : Nat) : Nat → List Str → List ZipOut → List ZipOut × Option Exc
  | _, [], outs => (outs, none)
  | i, k :: ks, outs =>
    match outs[i % n]? with
    | none => (outs, some .indexError)
    | some o =>
      match src.getItem k with
      | .error e => (outs, some e)
      | .ok v =>
        match (o.put k v).2 with
        | .ok _ => dealKeys src n (i + 1) ks (outs.set (i % n) (o.put k v).1)
        | .error e => (outs.set (i % n) (o.put k v).1, some e)

/-- The body of the `with` block, `split_key_value_store.py:77-84`; `seed` is `None` or a positive integer, `shuffle` what seeding with
it and `random.shuffle` do. -/
def evenBody (shuffle : PVal → List Str → List Str) (src : KVSource Bytes) (n : Nat) (seed : PVal) (outs : List ZipOut) : List ZipOut × Option Exc :=
  match sortedKeys src with
  | .error e => (outs, some e)
  | .ok ks => dealKeys src n 0 (if seed.truthy then shuffle seed ks else ks) outs

/-- `_split_into_even_slices`, `split_key_value_store.py:64-84`. -/
def evenSplit (order : List Str → List Str) (shuffle : PVal → List Str → List Str) (cwd : PyPath) (src : FS → KVSource Bytes) (p : Params) :
    Prog Unit := do
  let dir ← p.creatableDirectory cwd "output_dir".toList
  let slices ← Prog.ofRes (p.positiveInteger "num_slices".toList)
  let seed ← Prog.ofRes (p.optionalPositiveInteger "random_seed".toList)
  let n := ((Params.asInt slices).getD 0).toNat
  let paths := (List.range n).map (slicePath dir)
  writeTextTo cwd ((Loc.toPath dir).div (PyPath.parse "_slices.txt".toList)) (joinWith '\n' (paths.map fun l => (Loc.toPath l).render))
  let outs ← ZipOut.enterAll order paths
  let fs ← Prog.get
  match evenBody shuffle (src fs) n seed outs with
  | (outs', e) => ZipOut.closeAll outs' e

/-- The loop over the keys of one output, `split_key_value_store.py:99-115`: the sink afterwards, the keys copied, and the exception if
one was raised.  (`str_list_limited` for the message does not raise: the keys of the source are a set, and `len` works.) -/
def copyKeys (src : KVSource Bytes) : List Str → ZipOut → List Str → ZipOut × List Str × Option Exc
  | [], o, copied => (o, copied, none)
  | k :: ks, o, copied =>
    match src.get Unit k () with
    | .error e => (o, copied, some e)
    | .ok (.inr _) =>
      match src.keys with
      | .error e => (o, copied, some e)
      | .ok _ => (o, copied, some .runtimeError)
    | .ok (.inl v) =>
      match (o.put k v).2 with
      | .ok _ => copyKeys src ks (o.put k v).1 (copied ++ [k])
      | .error e => ((o.put k v).1, copied, some e)

/-- One output, `split_key_value_store.py:95-115`: the keys copied. -/
def splitOne (order : List Str → List Str) (cwd : PyPath) (src : FS → KVSource Bytes) (ns : Params) : Prog (List Str) := do
  let keysFile ← ns.existingFile cwd "keys_file".toList
  let keys ← fileLinesToSet keysFile
  let out ← ns.creatableFile cwd "output_file".toList
  let o ← ZipOut.enter order out
  let fs ← Prog.get
  match copyKeys (src fs) keys o [] with
  | (o', copied, e) => do
    o'.leave e
    Prog.pure copied

/-- The loop over the outputs, `split_key_value_store.py:94-115`. -/
def splitEach (order : List Str → List Str) (cwd : PyPath) (src : FS → KVSource Bytes) : List Params → Prog (List Str)
  | [] => Prog.pure []
  | ns :: rest => do
    let copied ← splitOne order cwd src ns
    let more ← splitEach order cwd src rest
    Prog.pure (copied ++ more)

/-- `split_key_value_store.py:117-126`; `immutableset(None)` is empty. -/
def checkExhaustive (src : KVSource Bytes) (p : Params) (copied : List Str) : Res Unit := do
  let must ← p.boolean "must_be_exhaustive".toList (.bool true)
  if must.truthy then
    match ← src.keys with
    | some ks => if (ks.filter fun k => decide (k ∉ copied)).length > 0 then .error .runtimeError else .ok ()
    | none => .ok ()
  else .ok ()

/-- `_explicit_split`, `split_key_value_store.py:87-126`. -/
def explicitSplit (order : List Str → List Str) (cwd : PyPath) (src : FS → KVSource Bytes) (p : Params) : Prog Unit := do
  let ns ← Prog.ofRes (p.namespace "explicit_split".toList)
  let nss ← Prog.ofRes ns.subNamespaces
  let copied ← splitEach order cwd src nss
  let fs ← Prog.get
  Prog.ofRes (checkExhaustive (src fs) p copied)

/-- `main`, `split_key_value_store.py:52-61`; `source` makes and enters the source, `ask` is what it offers
(`StoreScripts.lean`); leaving it changes nothing. -/
def splitMain (order : List Str → List Str) (shuffle : PVal → List Str → List Str) (cwd : PyPath) {σ : Type} (source : Prog σ)
    (ask : σ → FS → KVSource Bytes) (p : Params) : Prog Unit := do
  Prog.ofRes (p.assertExactlyOnePresent ["num_slices".toList, "explicit_split".toList])
  let src ← source
  if p.contains "num_slices".toList then evenSplit order shuffle cwd (ask src) p
  else if p.contains "explicit_split".toList then explicitSplit order cwd (ask src) p
  else Prog.raise .runtimeError

end Vista
