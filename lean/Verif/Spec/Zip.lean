import Verif.Model.Zip

/-!
# What zip-backed key-value stores should do
-/
namespace Vista
namespace Zip

/-- The conditions on the file name function and on the keys in use (`allowed`): the function gives names without NUL other than
`__keys`, different for different keys, and keys contain no line feed. -/
structure Naming (filename : Str → Res Str) (allowed : Str → Prop) : Prop where
  names : ∀ k, allowed k → ∃ n, filename k = .ok n ∧ n ≠ "__keys".toList ∧ '\x00' ∉ n
  injective : ∀ k k' n, allowed k → allowed k' → filename k = .ok n → filename k' = .ok n → k = k'
  lines : ∀ k, allowed k → '\n' ∉ k

/-- The source offers exactly the mapping `M`: `keys()` are its keys, each once; lookups give its values; for other (allowed) keys
`[]` raises `KeyError` and `get` returns the default. -/
structure Serves {V : Type} (s : KVSource V) (allowed : Str → Prop) (M : Str → Option V) : Prop where
  keys : ∃ ks, s.keys = .ok (some ks) ∧ ks.Nodup ∧ ∀ k, k ∈ ks ↔ (M k).isSome = true
  present : ∀ k v, M k = some v → s.getItem k = .ok v ∧ ∀ (D : Type) (d : D), s.get D k d = .ok (.inl v)
  absent : ∀ k, allowed k → M k = none → s.getItem k = .error .keyError ∧ ∀ (D : Type) (d : D), s.get D k d = .ok (.inr d)

/-- The first value put for a key. -/
def firstPut {V : Type} (puts : List (Str × V)) (k : Str) : Option V := (puts.find? fun e => decide (e.1 = k)).map (·.2)

/-- What a store holds after a session: an overwriting session starts from nothing; a key that is there keeps its value, otherwise the
first value put counts. -/
def afterSession {V : Type} (M : Str → Option V) (overwrite : Bool) (puts : List (Str × V)) : Str → Option V := fun k =>
  (if overwrite then none else M k).or (firstPut puts k)

/-- What the calls of `put` in a session do: `ValueError` for a key that was there at the start or has been put before, success
otherwise. -/
def Outcomes {V : Type} (start : Str → Option V) (puts : List (Str × V)) (outs : List (Res Unit)) : Prop :=
  outs.length = puts.length ∧ ∀ before k v after, puts = before ++ (k, v) :: after →
    ((start k).isSome = true ∨ k ∈ before.map (·.1) → outs[before.length]? = some (.error .valueError)) ∧
    (¬ ((start k).isSome = true ∨ k ∈ before.map (·.1)) → outs[before.length]? = some (.ok ()))

/-- Values of one type written to, and read from, a store: what is passed to `put`, how the source decodes. -/
structure Codec (V : Type) where
  value : V → Value
  process : Bytes → Res V
  /-- The bytes written. -/
  bytes : V → Bytes
  writes : ∀ v, value v = .bytes (bytes v) ∨ ∃ s, value v = .str s ∧ bytes v = encodeUtf8 s
  reads : ∀ v, process (bytes v) = .ok v

/-- A session: whether the sink overwrites, and the calls of `put`. -/
structure Session (V : Type) where
  overwrite : Bool
  puts : List (Str × V)

/-- The contents after a sequence of sessions. -/
def afterSessions {V : Type} : (Str → Option V) → List (Session V) → Str → Option V
  | M, [] => M
  | M, x :: rest => afterSessions (afterSession M x.overwrite x.puts) rest

end Zip
end Vista
