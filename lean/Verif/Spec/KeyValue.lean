import Verif.Model.Zip

/-!
# What key-value sources should do
-/
namespace Vista

/-- A generator goes through `xs` in order and yields for each `x` a `y` with `good x y`, until the first `x` for which it fails
(`bad x e`: the exception `e` ends it). -/
inductive Emits {α β : Type} (good : α → β → Prop) (bad : α → Exc → Prop) : List α → Gen β → Prop
  | done : Emits good bad [] ⟨[], none⟩
  | item {x : α} {xs : List α} {y : β} {ys : List β} {e : Option Exc} : good x y → Emits good bad xs ⟨ys, e⟩ →
      Emits good bad (x :: xs) ⟨y :: ys, e⟩
  | fails {x : α} {xs : List α} {e : Exc} : bad x e → Emits good bad (x :: xs) ⟨[], some e⟩

/-- `source[k]` and `source.get(k, d)` agree: `get` returns the default exactly as it was given where `[]` raises `KeyError`, and
otherwise does the same as `[]`. -/
def KVSource.Agrees {V : Type} (s : KVSource V) : Prop :=
  ∀ (D : Type) (k : Str) (d : D),
    (∀ v, s.getItem k = .ok v → s.get D k d = .ok (.inl v)) ∧
    (s.getItem k = .error .keyError → s.get D k d = .ok (.inr d)) ∧
    (∀ e, e ≠ .keyError → s.getItem k = .error e → s.get D k d = .error e)

/-- The member is one of those a tar source with these settings offers under the key `key`: a regular file whose name passes the
filter, with a key that is not empty and passes the key filter. -/
def Offered (keyFunction : Str → Option Str) (nameFilter keep : Str → Bool) (m : TarMember) (key : Str) : Prop :=
  m.isFile = true ∧ nameFilter m.name = true ∧ keyFunction m.name = some key ∧ key ≠ [] ∧ keep key = true

end Vista
