import Verif.Model.KeyValue

/-!
# The life of a tar source: `vistautils/key_value.py:696-793`

`Model/KeyValue.lean` says what one uninterrupted iteration over an open archive yields.  Here a source is used in any order: entered,
left, entered again, with any number of generators under way, each advanced when the program likes.

The archive does not change while the program runs.  `tarfile.TarFile` (standard library) is modelled by `TarHandle`: it reads the
members one by one as they are asked for, keeps those it has read, and after `close` refuses to read more members or to extract one;
the members it already has can still be listed.
-/
namespace Vista
namespace TarLife

/-- An open `tarfile.TarFile`: whether it has been closed, how many members it has read, and whether it knows there are no more. -/
structure TarHandle where
  closed : Bool
  read : Nat
  loaded : Bool

/-- A source, and the archive at its path: `byte_linear_source_from_tar_gz` (`lazy := false`, `f` returns the bytes),
`key_value.py:186-210, 718-727`, or such a source with interpreted values (`lazy := true`), `key_value.py:231-243, 769-775`: there the
wrapped `items` is called when the generator is first advanced. -/
structure Source (V : Type) where
  archive : Res (List TarMember)
  keyFunction : Str → Option Str
  nameFilter : Str → Bool
  lazy : Bool
  f : Str → Bytes → Res V

/-- A generator: not started (with its key filter), looping over the members of the file with this number and about to ask for the
member at this position, or finished. -/
inductive GenState
  | fresh (keep : Str → Bool)
  | running (keep : Str → Bool) (handle : Nat) (pos : Nat)
  | finished

/-- The files opened so far, `self.inp`, and the generators obtained so far. -/
structure State where
  handles : List TarHandle
  inp : Option Nat
  gens : List GenState

/-- What a program does with a source. -/
inductive Op
  | enter
  | exit
  | items (keep : Str → Bool)
  | next (g : Nat)

/-- What it sees: the call returned, or a generator was returned, or an item, or the end of the iteration, or an exception. -/
inductive Event (V : Type)
  | returned
  | generator (g : Nat)
  | item (k : Str) (v : V)
  | stop
  | raised (e : Exc)
  deriving DecidableEq

/-- `__init__`, `key_value.py:718-727`. -/
def init : State := ⟨[], none, []⟩

/-- How one step of a generator ends. -/
inductive Outcome (V : Type)
  | item (k : Str) (v : V) (pos : Nat)
  | stop
  | raised (e : Exc)

/-- Is the member wanted, and under which key: the tests of `key_value.py:741-743`. -/
def wantedKey {V : Type} (s : Source V) (keep : Str → Bool) (m : TarMember) : Option Str :=
  if m.isFile && s.nameFilter m.name then
    match s.keyFunction m.name with
    | none => none
    | some key => if !key.isEmpty && keep key then some key else none
  else none

/-- `key_value.py:744-749` (and `781-784`): extract the member from the file `self.inp`, and interpret it. -/
def extract {V : Type} (s : Source V) (inpClosed : Bool) (m : TarMember) (key : Str) (pos : Nat) : Outcome V :=
  if inpClosed then .raised .ioError else
  match m.extract with
  | .error e => .raised e
  | .ok none => .raised .ioError
  | .ok (some data) =>
    match s.f key data with
    | .ok v => .item key v pos
    | .error e => .raised e

/-- The loop of `key_value.py:740-749` from a position on, until the next `yield`; the list holds the members from there on.  `hd`
is the file the loop goes over, `inpClosed` tells whether the file `self.inp` refers to is closed.  -/
def advance {V : Type} (s : Source V) (keep : Str → Bool) (inpClosed : Bool) (hd : TarHandle) (pos : Nat) :
    List TarMember → TarHandle × Outcome V
  | [] => if hd.loaded then (hd, .stop) else if hd.closed then (hd, .raised .ioError) else ({ hd with loaded := true }, .stop)
  | m :: rest =>
    if pos < hd.read then
      match wantedKey s keep m with
      | some key => (hd, extract s inpClosed m key (pos + 1))
      | none => advance s keep inpClosed hd (pos + 1) rest
    else if hd.loaded then (hd, .stop)
    else if hd.closed then (hd, .raised .ioError)
    else
      match wantedKey s keep m with
      | some key => ({ hd with read := pos + 1 }, extract s inpClosed m key (pos + 1))
      | none => advance s keep inpClosed { hd with read := pos + 1 } (pos + 1) rest

/-- The members in the archive, once it could be opened. -/
def members {V : Type} (s : Source V) : List TarMember :=
  match s.archive with
  | .ok ms => ms
  | .error _ => []

/-- Whether the file `self.inp` refers to is closed. -/
def inpClosed (st : State) : Bool :=
  match st.inp with
  | some i => match st.handles[i]? with
    | some h => h.closed
    | none => false
  | none => false

/-- Run generator `g`, which loops over file number `h`, from position `pos`. -/
def resume {V : Type} (s : Source V) (st : State) (g : Nat) (keep : Str → Bool) (h pos : Nat) : State × Event V :=
  match st.handles[h]? with
  | none => ({ st with gens := st.gens.set g .finished }, .raised .typeError)
  | some hd =>
    let r := advance s keep (inpClosed st) hd pos ((members s).drop pos)
    let hs := st.handles.set h r.1
    match r.2 with
    | .item k v p => (⟨hs, st.inp, st.gens.set g (.running keep h p)⟩, .item k v)
    | .stop => (⟨hs, st.inp, st.gens.set g .finished⟩, .stop)
    | .raised e => (⟨hs, st.inp, st.gens.set g .finished⟩, .raised e)

/-- One operation: `__enter__` `key_value.py:753-755, 788-790`, `__exit__` `757-759, 792-793`, `items` `729-751, 777-786`, and `next`
of a generator.  (A generator that has raised or stopped stops at once when asked again; there is no
way to advance a generator that has not been obtained, and nothing happens here.) -/
def step {V : Type} (s : Source V) (st : State) : Op → State × Event V
  | .enter =>
    match s.archive with
    | .error e => (st, .raised e)
    | .ok ms => ({ st with handles := st.handles ++ [⟨false, 0, ms.isEmpty⟩], inp := some st.handles.length }, .returned)
  | .exit =>
    match st.inp with
    | none => (st, .raised .attributeError)
    | some i => ({ st with handles := st.handles.modify i fun h => { h with closed := true } }, .returned)
  | .items keep =>
    if !s.lazy && st.inp.isNone then (st, .raised .assertionError)
    else ({ st with gens := st.gens ++ [.fresh keep] }, .generator st.gens.length)
  | .next g =>
    match st.gens[g]? with
    | none => (st, .returned)
    | some .finished => (st, .stop)
    | some (.fresh keep) =>
      match st.inp with
      | none => ({ st with gens := st.gens.set g .finished }, .raised .assertionError)
      | some i => resume s st g keep i 0
    | some (.running keep h pos) => resume s st g keep h pos

/-- A history: every operation with what it gave. -/
def run {V : Type} (s : Source V) (st : State) : List Op → List (Op × Event V)
  | [] => []
  | op :: ops => (op, (step s st op).2) :: run s (step s st op).1 ops

end TarLife
end Vista
