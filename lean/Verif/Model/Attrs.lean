import Verif.Model.Basic

/-!
# `vistautils/attrutils.py`: declarations of attributes

`attr.attrib`, `attr.attrs` and the constructors the latter makes are modelled as far as these declarations use them (attrs 19.2): defaults,
validators, converters and `init`; not `kw_only`, `repr`, `cmp`, `hash`, `metadata`, `type`, `factory=`.  Values `V`, classes `C` and the
state `S` that factories may look at and change are parameters.  The warnings of `deprecation.deprecated` are not modelled.
-/
namespace Vista
namespace Attrs

/-- What the declarations use of Python objects and of `immutablecollections`. -/
structure World (V C S : Type) where
  none : V
  noneType : C
  isInstance : V → C → Bool
  /-- `issubclass(c, ImmutableCollection)`. -/
  isCollection : C → Bool
  /-- `c.of(v)`. -/
  of : C → V → Res V
  /-- `c.empty()`. -/
  empty : C → V
  /-- `c.builder()`: makes an object. -/
  builder : C → S → V × S

/-- What `isinstance` accepts as its second argument: a class or a tuple of such arguments. -/
inductive TypeArg (C : Type)
  | cls (c : C)
  | tuple (ts : List (TypeArg C))

variable {V C S : Type}

mutual
/-- `isinstance(v, t)`. -/
def isInstanceOf (W : World V C S) (v : V) : TypeArg C → Bool
  | .cls c => W.isInstance v c
  | .tuple ts => isInstanceOfAny W v ts
/-- `isinstance(v, t)` for one of the members of a tuple. -/
def isInstanceOfAny (W : World V C S) (v : V) : List (TypeArg C) → Bool
  | [] => false
  | t :: ts => isInstanceOf W v t || isInstanceOfAny W v ts
end

/-- A callable without arguments. -/
abbrev Thunk (V S : Type) := S → Res V × S

/-- The default of an attribute: `NOTHING`, a value or `Factory(f)`. -/
inductive Default (V S : Type)
  | nothing
  | value (v : V)
  | factory (f : Thunk V S)

/-- Is it `NOTHING`? -/
def Default.isNothing : Default V S → Bool
  | .nothing => true
  | _ => false

/-- What `attrib` returns. -/
structure Attribute (V S : Type) where
  default : Default V S
  validator : Option (V → Res Unit)
  converter : Option (V → Res V)
  init : Bool

/-- Keyword arguments of `attrib`. -/
structure Keywords (V S : Type) where
  default : Option (Default V S) := none
  validator : Option (V → Res Unit) := none
  converter : Option (V → Res V) := none
  init : Option Bool := none

/-- Positional arguments after the first one: none, the default, or the default and a validator. -/
inductive Args (V S : Type)
  | none
  | default (d : Default V S)
  | both (d : Default V S) (f : V → Res Unit)

/-- The default among the positional arguments. -/
def Args.default? : Args V S → Option (Default V S)
  | .none => Option.none
  | .default d => some d
  | .both d _ => some d

/-- The validator among the positional arguments. -/
def Args.validator? : Args V S → Option (V → Res Unit)
  | .both _ f => some f
  | _ => Option.none

/-- An argument given in two ways is a `TypeError`. -/
def once {α : Type} : Option α → Option α → Res (Option α)
  | some _, some _ => .error .typeError
  | some a, none => .ok (some a)
  | none, b => .ok b

/-- `attrib(**own, *args, **extra)`: more than two positional arguments are not modelled. -/
def attrib (own extra : Keywords V S) (args : Args V S) : Res (Attribute V S) := do
  let d ← once own.default extra.default
  let d' ← once args.default? d
  let v ← once own.validator extra.validator
  let v' ← once args.validator? v
  let c ← once own.converter extra.converter
  let i ← once own.init extra.init
  .ok ⟨d'.getD .nothing, v', c, i.getD true⟩

/-- `validators.instance_of(t)`. -/
def instanceOf (W : World V C S) (t : TypeArg C) (v : V) : Res Unit := if isInstanceOf W v t then .ok () else .error .typeError

/-- `attrutils.py:20-24` `attrib_instance_of`. -/
def attribInstanceOf (W : World V C S) (t : TypeArg C) (args : Args V S) (extra : Keywords V S) :
    Res (Attribute V S) :=
  attrib { validator := some (instanceOf W t) } extra args

/-- `attrutils.py:119-121` `opt_instance_of`. -/
def optInstanceOf (W : World V C S) (t : TypeArg C) : V → Res Unit := instanceOf W (.tuple [t, .cls W.noneType])

/-- `attrutils.py:34-40` `attrib_opt_instance_of`; a keyword `default` is its own parameter. -/
def attribOptInstanceOf (W : World V C S) (t : TypeArg C) (args : Args V S) (extra : Keywords V S) :
    Res (Attribute V S) :=
  attrib { validator := some (optInstanceOf W t), default := some (extra.default.getD (.value W.none)) } { extra with default := none } args

/-- `attrutils.py:48-50` `attrib_factory`. -/
def attribFactory (f : Thunk V S) (args : Args V S) (extra : Keywords V S) : Res (Attribute V S) :=
  attrib { default := some (.factory f) } extra args

/-- `attrutils.py:124-128` `_check_immutable_collection`. -/
def checkImmutableCollection (W : World V C S) (c : C) : Res Unit := checkArg (W.isCollection c)

/-- `attrutils.py:58-63` `attrib_immutable`. -/
def attribImmutable (W : World V C S) (c : C) (args : Args V S) (extra : Keywords V S) :
    Res (Attribute V S) := do
  checkImmutableCollection W c
  attrib { converter := some (W.of c) } extra args

/-- `attrutils.py:73-85` `attrib_private_immutable_builder`. -/
def attribPrivateImmutableBuilder (W : World V C S) (c : C) (args : Args V S)
    (extra : Keywords V S) : Res (Attribute V S) := do
  checkImmutableCollection W c
  attrib { default := some (.factory fun s => (.ok (W.builder c s).1, (W.builder c s).2)), init := some false } extra args

/-- `attrutils.py:131-137` `_empty_immutable_if_none`. -/
def emptyImmutableIfNone [DecidableEq V] (W : World V C S) (c : C) (v : V) : Res V := if v = W.none then .ok (W.empty c) else W.of c v

/-- `attrutils.py:95-112` `attrib_opt_immutable`. -/
def attribOptImmutable [DecidableEq V] (W : World V C S) (c : C) (args : Args V S)
    (extra : Keywords V S) : Res (Attribute V S) := do
  checkImmutableCollection W c
  attrib { converter := some (emptyImmutableIfNone W c), default := some (.value (W.empty c)) } extra args

/-- attrs' check of the order of attributes when the class is defined: none without a default after one with a default. -/
def checkOrder : Bool → List (Attribute V S) → Res Unit
  | _, [] => .ok ()
  | hadDefault, a :: as =>
    if !a.init then checkOrder hadDefault as
    else if hadDefault && a.default.isNothing then .error .valueError
    else checkOrder (hadDefault || !a.default.isNothing) as

/-- A class: its attributes with their names. -/
abbrev Cls (V S : Type) := List (Str × Attribute V S)

/-- `attr.s` applied to a class body. -/
def defineClass (as : Cls V S) : Res (Cls V S) := do
  checkOrder false (as.map (·.2))
  .ok as

/-- The name of the parameter for an attribute: attrs takes leading underscores away. -/
def paramName (n : Str) : Str := n.dropWhile (· == '_')

/-- Python's binding of arguments to the parameters of the constructor; `none` where the default is used. -/
def bindArgs : Cls V S → List V → List (Str × V) → Res (List (Option V))
  | [], [], [] => .ok []
  | [], _, _ => .error .typeError
  | (n, a) :: as, pos, kw =>
    if !a.init then do
      let rest ← bindArgs as pos kw
      .ok (none :: rest)
    else
      match pos, kw.lookup (paramName n) with
      | _ :: _, some _ => .error .typeError
      | v :: pos', none => do
        let rest ← bindArgs as pos' kw
        .ok (some v :: rest)
      | [], some v => do
        let rest ← bindArgs as [] (kw.filter fun e => e.1 != paramName n)
        .ok (some v :: rest)
      | [], none =>
        if a.default.isNothing then .error .typeError
        else do
          let rest ← bindArgs as [] kw
          .ok (none :: rest)

/-- `converter(v)`, if there is one. -/
def convert (a : Attribute V S) (v : V) : Res V :=
  match a.converter with
  | some c => c v
  | none => .ok v

/-- The value an attribute is set to, `none` if it is left alone. -/
def fieldValue (a : Attribute V S) (given : Option V) (s : S) : Res (Option V) × S :=
  match given, a.default with
  | some v, _ => ((convert a v).map some, s)
  | none, .nothing => (.ok none, s)
  | none, .value v => ((convert a v).map some, s)
  | none, .factory f =>
    match f s with
    | (.error e, s') => (.error e, s')
    | (.ok v, s') => ((convert a v).map some, s')

/-- The assignments of the constructor, in the order of the attributes. -/
def assignFields : Cls V S → List (Option V) → S → Res (List (Option V)) × S
  | (_, a) :: as, g :: gs, s =>
    match fieldValue a g s with
    | (.error e, s') => (.error e, s')
    | (.ok v, s') =>
      match assignFields as gs s' with
      | (.error e, s'') => (.error e, s'')
      | (.ok vs, s'') => (.ok (v :: vs), s'')
  | _, _, s => (.ok [], s)

/-- The validators, run after all assignments. -/
def validate : Cls V S → List (Option V) → Res Unit
  | (_, a) :: as, some v :: vs => do
    match a.validator with
    | some f => f v
    | none => .ok ()
    validate as vs
  | _ :: as, none :: vs => validate as vs
  | _, _ => .ok ()

/-- `cls(*pos, **kw)`: the values of the attributes of the new object. -/
def construct (as : Cls V S) (pos : List V) (kw : List (Str × V)) (s : S) : Res (List (Option V)) × S :=
  match bindArgs as pos kw with
  | .error e => (.error e, s)
  | .ok gs =>
    match assignFields as gs s with
    | (.error e, s') => (.error e, s')
    | (.ok vs, s') =>
      match validate as vs with
      | .error e => (.error e, s')
      | .ok () => (.ok vs, s')

end Attrs
end Vista
