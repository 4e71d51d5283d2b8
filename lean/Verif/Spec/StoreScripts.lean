import Verif.Spec.FromParams
import Verif.Spec.SplitStores
import Verif.Spec.Text
import Verif.Props.Files

/-!
# What the parameters of the scripts on stores say
-/
namespace Vista

/-- The last of these lines of a document map with the key `k` names the path `q`. -/
def Documents (items : List (Str × PyPath)) (k : Str) (q : PyPath) : Prop :=
  ∃ before after, items = before ++ (k, q) :: after ∧ k ∉ after.map (·.1)

/-- The namespace `input` describes a source of bytes, which has the entries `M`; they come from the files at the places `from_`: a zip store; a
document map, all of whose files are there. -/
inductive InputIs (E : FromParams.Env) (p : Params) (fs : FS) : (Loc → Prop) → (Str → Option Bytes) → Prop
  | zip {ns : Params} {mods : List Str} {l : Loc} {M : Str → Option Bytes} : FromParams.Typed E none p "input".toList ns "zip".toList mods →
      Params.PathIs E.cwd ns "path".toList l → Stores fs l M → InputIs E p fs (fun q => q = l) M
  | documents {ns : Params} {mods : List Str} {l : Loc} {t : Str} {ls : List Str} {items : List (Str × PyPath)} {M : Str → Option Bytes} :
      FromParams.Typed E none p "input".toList ns "_doc_id_binary_source_from_params".toList mods → Params.PathIs E.cwd ns "path".toList l →
      fs.node l = some (.file (.data (encodeUtf8 t))) → IsLines (universalNewlines t) ls →
      List.Forall₂ (fun l e => ∃ a b, TwoFields l a b ∧ e = (a, PyPath.parse b)) ls items →
      (∀ k q, Documents items k q → ∃ b, fs.node (PyPath.resolve E.cwd q) = some (.file (.data b)) ∧ M k = some b) →
      (∀ k, M k ≠ none → ∃ q, Documents items k q) →
      InputIs E p fs (fun q => ∃ k r, Documents items k r ∧ q = PyPath.resolve E.cwd r) M

end Vista
