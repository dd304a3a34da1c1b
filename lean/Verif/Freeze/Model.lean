/-!
# Model: the checks made when an AST is frozen (camkes/ast/base.py, camkes/ast/objects.py)

Names are strings. Objects that the code compares structurally (instances, interfaces,
interface types) are values of types with decidable equality.
-/

namespace Verif.Freeze

/-! ### MapLike.freeze -/

/-- A child of a map-like object: its name (`none` if the class has no `name` or it is `None`)
and its identity. -/
structure Child where
  name : Option String
  id : Nat
  deriving DecidableEq, Repr

/-- `d.get(name)`. -/
def dget {β : Type} : List (String × β) → String → Option β
  | [], _ => none
  | (k, v) :: rest, n => if k = n then some v else dget rest n

/-- The loop of `MapLike.freeze`, camkes/ast/base.py:244-263, over the children of all child
fields in order; `none` is the `ASTError`. A new key goes to the end of the dict. -/
def addAll : List (String × Child) → List Child → Option (List (String × Child))
  | d, [] => some d
  | d, c :: rest =>
    match c.name with
    | none => addAll d rest
    | some n =>
      match dget d n with
      | some _ => none
      | none => addAll (d ++ [(n, c)]) rest

/-- `MapLike.freeze`: the `_mapping` built, camkes/ast/base.py:238-263. -/
def mapFreeze (children : List Child) : Option (List (String × Child)) := addAll [] children

/-! ### Composition.freeze -/

/-- The interface classes, camkes/ast/objects.py:722-784. -/
inductive Kind
  | emits | consumes | uses | provides | dataport
  deriving DecidableEq, Repr

/-- An interface. `optional` is `false` for `Emits` and `Provides`, which have no such field. -/
structure Iface where
  kind : Kind
  name : String
  type : String
  optional : Bool
  deriving DecidableEq, Repr

/-- An instance with what `Composition.freeze` reads of its component type: the interfaces, and
the destinations of the exports of the component's own composition (empty if it has none). -/
structure Inst where
  name : String
  ifaces : List Iface
  exported : List Iface
  deriving DecidableEq, Repr

structure End where
  inst : Inst
  iface : Iface
  deriving DecidableEq, Repr

inductive Err
  | duplicateUse     -- ASTError
  | noSuchInterface  -- AssertionError
  | unconnected      -- ASTError
  deriving DecidableEq, Repr

/-- The set `unconnected` initially, camkes/ast/objects.py:277-280 (as a list). -/
def allIfaces (insts : List Inst) : List End :=
  insts.flatMap fun i => i.ifaces.map fun f => ⟨i, f⟩

/-- The loop over connection ends, camkes/ast/objects.py:281-293: returns the sets
`unconnected` and `connected`. -/
def useEnds : List End → List End → List End → Except Err (List End × List End)
  | un, con, [] => .ok (un, con)
  | un, con, e :: rest =>
    if e ∈ con then .error .duplicateUse
    else if e ∈ un then useEnds (un.filter fun x => !decide (x = e)) (e :: con) rest
    else .error .noSuchInterface

/-- Whether a leftover interface is an error, camkes/ast/objects.py:295-308. -/
def mustConnect (e : End) : Bool :=
  !e.iface.optional && !(decide (e.iface.kind = .emits) || decide (e.iface.kind = .provides)) &&
    !decide (e.iface ∈ e.inst.exported)

/-- `Composition.freeze` of a top-level composition, camkes/ast/objects.py:270-309. A connection
is the list of its from-ends followed by its to-ends. -/
def compositionFreeze (insts : List Inst) (conns : List (List End)) : Except Err Unit :=
  match useEnds (allIfaces insts) [] conns.flatten with
  | .error e => .error e
  | .ok (un, _) => if un.any mustConnect then .error .unconnected else .ok ()

/-! ### Configuration.freeze -/

structure Setting (V : Type) where
  inst : String
  attr : String
  value : V

structure AttrDecl (V : Type) where
  name : String
  default : Option V

structure CInst (V : Type) where
  name : String
  attrs : List (AttrDecl V)

variable {V : Type}

/-- `_mapping`: a dict of dicts, kept as a flat table keyed by instance and attribute (the empty
inner dicts a `defaultdict` creates are not observable through a lookup of an attribute). -/
abbrev Table (V : Type) := List ((String × String) × V)

def tget : Table V → String → String → Option V
  | [], _, _ => none
  | ((i, a), v) :: rest, i', a' => if i = i' ∧ a = a' then some v else tget rest i' a'

/-- camkes/ast/objects.py:334-340; `none` is the `ASTError` for a duplicate setting. -/
def addSettings : Table V → List (Setting V) → Option (Table V)
  | t, [] => some t
  | t, s :: rest =>
    match tget t s.inst s.attr with
    | some _ => none
    | none => addSettings (t ++ [((s.inst, s.attr), s.value)]) rest

/-- camkes/ast/objects.py:350-354: the default of one attribute. -/
def addDefault (i : String) (t : Table V) (a : AttrDecl V) : Table V :=
  match tget t i a.name, a.default with
  | none, some d => t ++ [((i, a.name), d)]
  | _, _ => t

/-- camkes/ast/objects.py:347-354. -/
def addDefaults (insts : List (CInst V)) (t : Table V) : Table V :=
  insts.foldl (fun t i => i.attrs.foldl (addDefault i.name) t) t

/-- `Configuration.freeze` of an assembly's configuration, camkes/ast/objects.py:327-354. -/
def configFreeze (insts : List (CInst V)) (settings : List (Setting V)) : Option (Table V) :=
  (addSettings [] settings).map (addDefaults insts)

/-! ### Connection.freeze -/

/-- The interface kinds named by a connector, camkes/ast/objects.py:807-810. -/
inductive EndKind
  | event | procedure | dataport
  deriving DecidableEq, Repr

structure Connector where
  fromType : Option EndKind
  toType : Option EndKind
  fromMultiple : Bool
  toMultiple : Bool
  fromHardware : Bool
  toHardware : Bool
  /-- default of the attribute `disable_interface_type_checking`, if declared and truthy -/
  noTypeCheck : Bool
  deriving DecidableEq, Repr

/-- A connection end as seen by `Connection.freeze`. -/
structure CEnd where
  kind : Kind
  type : String
  hardware : Bool
  deriving DecidableEq, Repr

inductive CErr
  | noFrom | noTo | manyFrom | manyTo | types | notFrom | notTo
  | fromNotHardware | fromHardware | toNotHardware | toHardware
  | fromKind | toKind
  deriving DecidableEq, Repr

/-- The checks of one from-end, camkes/ast/objects.py:433-468. -/
def checkFrom (c : Connector) (e : CEnd) : Except CErr Unit :=
  if !decide (e.kind = .emits) && !decide (e.kind = .uses) && !decide (e.kind = .dataport) then .error .notFrom
  else if c.fromHardware && !e.hardware then .error .fromNotHardware
  else if !c.fromHardware && e.hardware then .error .fromHardware
  else if decide (c.fromType = some .event) && !decide (e.kind = .emits) then .error .fromKind
  else if decide (c.fromType = some .procedure) && !decide (e.kind = .uses) then .error .fromKind
  else if decide (c.fromType = some .dataport) && !decide (e.kind = .dataport) then .error .fromKind
  else .ok ()

/-- The checks of one to-end, camkes/ast/objects.py:469-504. -/
def checkTo (c : Connector) (e : CEnd) : Except CErr Unit :=
  if !decide (e.kind = .consumes) && !decide (e.kind = .provides) && !decide (e.kind = .dataport) then .error .notTo
  else if c.toHardware && !e.hardware then .error .toNotHardware
  else if !c.toHardware && e.hardware then .error .toHardware
  else if decide (c.toType = some .event) && !decide (e.kind = .consumes) then .error .toKind
  else if decide (c.toType = some .procedure) && !decide (e.kind = .provides) then .error .toKind
  else if decide (c.toType = some .dataport) && !decide (e.kind = .dataport) then .error .toKind
  else .ok ()

def checkAll (f : CEnd → Except CErr Unit) : List CEnd → Except CErr Unit
  | [] => .ok ()
  | e :: rest => match f e with
    | .error x => .error x
    | .ok () => checkAll f rest

/-- `len(types) > 1`, camkes/ast/objects.py:425-426. -/
def severalTypes : List CEnd → Bool
  | [] => false
  | e :: rest => rest.any (fun f => !decide (f.type = e.type))

/-- `Connection.freeze`, camkes/ast/objects.py:401-504. -/
def connectionFreeze (c : Connector) (froms tos : List CEnd) : Except CErr Unit :=
  if froms.length = 0 then .error .noFrom
  else if tos.length = 0 then .error .noTo
  else if decide (froms.length > 1) && !c.fromMultiple then .error .manyFrom
  else if decide (tos.length > 1) && !c.toMultiple then .error .manyTo
  else if severalTypes (froms ++ tos) && !c.noTypeCheck then .error .types
  else match checkAll (checkFrom c) froms with
    | .error x => .error x
    | .ok () => checkAll (checkTo c) tos

end Verif.Freeze
