import Verif.Model.SplitStores
import Verif.Model.JoinStores

/-!
# The scripts on stores, from their parameters

`split_key_value_store.py`, `downsample_key_value_store.py`: making and entering the source.
-/
namespace Vista

/-- The sources of bytes of `key_value.py`, entered. -/
inductive ByteSource
  | zip (o : OpenZip)
  | map (idToPath : List (Str × Str))

/-- `with source as …`, `key_value.py:541-579, 628-632`; anything but these sources raises here (it is not modelled). -/
def enterByteSource : KVObj → Prog ByteSource
  | .zipSource false l => do
    let o ← openZipBytes l
    Prog.pure (.zip o)
  | .mapSource false m => Prog.pure (.map m)
  | _ => Prog.raise .other

/-- The functions it offers, `key_value.py:541-579, 591-626`, depending on the file system when they are called. -/
def ByteSource.ask (cwd : PyPath) : ByteSource → FS → KVSource Bytes
  | .zip o => o.ask
  | .map m => docMapSource readBytesFile cwd m

/-- `split_key_value_store.py`, `main`: lines 52-61. -/
def splitScript (E : FromParams.Env) (order : List Str → List Str) (shuffle : PVal → List Str → List Str) (p : Params) : Prog Unit :=
  splitMain order shuffle E.cwd (do
    let o ← FromParams.byteLinearSource E p
    enterByteSource o) (ByteSource.ask E.cwd) p

/-- `downsample_key_value_store.py`, `main`: lines 33-46. -/
def downsampleScript (E : FromParams.Env) (order : List Str → List Str) (shuffle : Int → List Str → Res (List Str)) (p : Params) : Prog Unit :=
  downsample order shuffle E.cwd (do
    let o ← FromParams.byteSource E p
    enterByteSource o) (ByteSource.ask E.cwd) p

end Vista
