/-!
# Model: flattening the component hierarchy (camkes/parser/stage7.py)

Names are lists of characters. Object identities: two instance objects met at one level of the
recursion are the same object iff they have the same name (sibling names are distinct and the
names of deeper instances carry their path), so instances are identified by name. Interfaces
are identified by an opaque `F`; attribute values are opaque `V`.
-/

namespace Verif.Hierarchy

abbrev Str := List Char

/-- A connection end (camkes/ast/objects.py:977-990); no instance means an interface of the
enclosing component itself. -/
structure End (F : Type) where
  inst : Option Str
  iface : F
  deriving DecidableEq, Repr

/-- A connection (camkes/ast/objects.py:384-393). `type` is the name of its connector. -/
structure Conn (F : Type) where
  name : Str
  type : Str
  froms : List (End F)
  tos : List (End F)
  deriving DecidableEq, Repr

/-- `export srcInst.srcIface -> dest` (camkes/ast/objects.py:1024-1034). -/
structure Export (F : Type) where
  srcInst : Str
  srcIface : F
  dest : F
  deriving DecidableEq, Repr

/-- The value of a setting: a reference to another attribute (dotted name, followed by the keys
of a `dict_lookup`, camkes/ast/objects.py:1037-1052) or a literal. -/
inductive Value (V : Type)
  | ref (r : Str) (lookup : List Str)
  | lit (v : V)
  deriving DecidableEq, Repr

/-- A setting `inst.attr = value` (camkes/ast/objects.py:541-550). -/
structure Setting (V : Type) where
  inst : Str
  attr : Str
  value : Value V
  deriving DecidableEq, Repr

/-- What a component declares itself: its interfaces, its attributes with their defaults and
whether it is a hardware device (camkes/ast/objects.py:636-662). Flattening only carries it
along. -/
structure Decl (F V : Type) where
  ifaces : List F := []
  attrs : List (Str × Option V) := []
  hardware : Bool := false

mutual
/-- An assembly or component with its composition and configuration (both possibly empty;
`item.composition is None` behaves as an empty one). After reference resolution and the cycle
check (C10) the types of instances form a finite tree. -/
inductive Comp (F V : Type)
  | mk (insts : Insts F V) (conns : List (Conn F)) (exports : List (Export F))
      (settings : List (Setting V)) (decl : Decl F V)
/-- The instances of a composition in order: name, address space, type. -/
inductive Insts (F V : Type)
  | nil
  | cons (name space : Str) (type : Comp F V) (rest : Insts F V)
end

inductive Err
  | parseError
  | assertion
  deriving DecidableEq, Repr

/-- An instance in the flattened assembly. -/
structure FInst (F V : Type) where
  name : Str
  space : Str
  type : Comp F V

/-- An interface pointer (camkes/parser/stage7.py:31-54). -/
abbrev Ptr (F : Type) := Str × F

/-- A dict from interface pointers to interface pointers, as the log of its assignments.
(Iterating such a dict is only used to assign all its items into another one, for which
replaying the log has the same effect.) -/
abbrev Aliases (F : Type) := List (Ptr F × Ptr F)

/-- Lookup in a dict given by its log: the last assignment. -/
def lookupLast {α β : Type} [DecidableEq α] : List (α × β) → α → Option β
  | [], _ => none
  | (k, v) :: rest, x =>
    match lookupLast rest x with
    | some w => some w
    | none => if k = x then some v else none

/-- What `infer_all` returns (camkes/parser/stage7.py:212-213). -/
structure Out (F V : Type) where
  insts : List (FInst F V)
  conns : List (Conn F)
  aliases : Aliases F
  settings : List (Setting V)

/-- The accumulators of the loop over instances (camkes/parser/stage7.py:99-131). `derived` maps
instance names to the names of their derived copies. -/
structure Acc (F V : Type) where
  immediate : List (FInst F V)
  child : List (FInst F V)
  derived : List (Str × Str)
  childConns : List (Conn F)
  aliases : Aliases F
  childSettings : List (Setting V)

/-- `'%s.%s' % (namespace, name)` unless the namespace is `None`; `derive`,
camkes/parser/stage7.py:56-80. -/
def deriveName (ns : Option Str) (name : Str) : Str :=
  match ns with
  | none => name
  | some p => p ++ '.' :: name

variable {F V : Type}

/-- `derive` on an instance, camkes/parser/stage7.py:72-79. -/
def deriveInst (ns : Option Str) (i : FInst F V) : FInst F V :=
  ⟨deriveName ns i.name, deriveName ns i.space, i.type⟩

/-- `derive` on a setting, camkes/parser/stage7.py:67-71. -/
def deriveSetting (ns : Option Str) (s : Setting V) : Setting V :=
  ⟨deriveName ns s.inst, s.attr,
    match s.value with
    | .ref r lk => .ref (deriveName ns r) lk
    | .lit v => .lit v⟩

/-- Re-adjusting the ends of a connection, camkes/parser/stage7.py:158-171 and 174-187. -/
def mapEnds (parent : Option Str) (derived : List (Str × Str)) : List (End F) → Except Err (List (End F))
  | [] => .ok []
  | e :: es =>
    let r : Except Err Str := match e.inst with
      | none => match parent with
        | none => .error .parseError
        | some p => .ok p
      | some i => match lookupLast derived i with
        | none => .error .assertion
        | some n => .ok n
    match r with
    | .error x => .error x
    | .ok n =>
      match mapEnds parent derived es with
      | .error x => .error x
      | .ok es' => .ok (⟨some n, e.iface⟩ :: es')

/-- The loop over connections, camkes/parser/stage7.py:152-191. -/
def mapConns (parent : Option Str) (derived : List (Str × Str)) : List (Conn F) → Except Err (List (Conn F))
  | [] => .ok []
  | c :: cs =>
    match mapEnds parent derived c.froms with
    | .error x => .error x
    | .ok fs =>
      match mapEnds parent derived c.tos with
      | .error x => .error x
      | .ok ts =>
        match mapConns parent derived cs with
        | .error x => .error x
        | .ok cs' => .ok (⟨deriveName parent c.name, c.type, fs, ts⟩ :: cs')

/-- Adjusting the aliases of a child, camkes/parser/stage7.py:143-148. -/
def mapAliases (derived : List (Str × Str)) : Aliases F → Except Err (Aliases F)
  | [] => .ok []
  | ((k, f), (v, g)) :: rest =>
    match lookupLast derived k with
    | none => .error .assertion
    | some k' =>
      match lookupLast derived v with
      | none => .error .assertion
      | some v' =>
        match mapAliases derived rest with
        | .error x => .error x
        | .ok rest' => .ok (((k', f), (v', g)) :: rest')

/-- The new aliases of export statements, camkes/parser/stage7.py:193-202. -/
def exportAliases (parent : Option Str) (derived : List (Str × Str)) :
    List (Export F) → Except Err (Aliases F)
  | [] => .ok []
  | e :: es =>
    match parent with
    | none => .error .assertion
    | some p =>
      match lookupLast derived e.srcInst with
      | none => .error .assertion
      | some s =>
        match exportAliases parent derived es with
        | .error x => .error x
        | .ok es' => .ok (((p, e.dest), (s, e.srcIface)) :: es')

mutual
/-- `infer_all`, camkes/parser/stage7.py:82-213. -/
def inferAll (parent : Option Str) : Comp F V → Except Err (Out F V)
  | .mk is conns exports settings _ =>
    match inferInsts parent ⟨[], [], [], [], [], []⟩ is with
    | .error x => .error x
    | .ok a =>
      match mapConns parent a.derived (conns ++ a.childConns) with
      | .error x => .error x
      | .ok cs =>
        match exportAliases parent a.derived exports with
        | .error x => .error x
        | .ok es => .ok ⟨a.immediate ++ a.child, cs, a.aliases ++ es,
            (settings ++ a.childSettings).map (deriveSetting parent)⟩
/-- The loop over the instances of the composition, camkes/parser/stage7.py:123-150. -/
def inferInsts (parent : Option Str) (a : Acc F V) : Insts F V → Except Err (Acc F V)
  | .nil => .ok a
  | .cons n sp t rest =>
    match inferAll (some n) t with
    | .error x => .error x
    | .ok o =>
      let derived := a.derived ++ o.insts.map (fun i => (i.name, deriveName parent i.name)) ++
        [(n, deriveName parent n)]
      match mapAliases derived o.aliases with
      | .error x => .error x
      | .ok al =>
        inferInsts parent
          ⟨a.immediate ++ [deriveInst parent ⟨n, sp, t⟩],
           a.child ++ o.insts.map (deriveInst parent),
           derived, a.childConns ++ o.conns, a.aliases ++ al, a.childSettings ++ o.settings⟩ rest
end

/-- `while p in aliases: p = aliases[p]`, camkes/parser/stage7.py:243-244. `none` is out of
fuel. -/
def chase [DecidableEq F] (aliases : Aliases F) : Nat → Ptr F → Option (Ptr F)
  | 0, _ => none
  | fuel + 1, p =>
    match lookupLast aliases p with
    | none => some p
    | some q => chase aliases fuel q

/-- Replacing the ends of one side of a connection, camkes/parser/stage7.py:241-246. After
`infer_all` every end has an instance. -/
def chaseEnds [DecidableEq F] (aliases : Aliases F) (fuel : Nat) : List (End F) → Option (List (End F))
  | [] => some []
  | e :: es =>
    match e.inst with
    | none => none
    | some i =>
      match chase aliases fuel (i, e.iface) with
      | none => none
      | some p =>
        match chaseEnds aliases fuel es with
        | none => none
        | some es' => some (⟨some p.1, p.2⟩ :: es')

def chaseConns [DecidableEq F] (aliases : Aliases F) (fuel : Nat) : List (Conn F) → Option (List (Conn F))
  | [] => some []
  | c :: cs =>
    match chaseEnds aliases fuel c.froms with
    | none => none
    | some fs =>
      match chaseEnds aliases fuel c.tos with
      | none => none
      | some ts =>
        match chaseConns aliases fuel cs with
        | none => none
        | some cs' => some (⟨c.name, c.type, fs, ts⟩ :: cs')

/-- The flattened assembly: instances, connections, settings. -/
structure Flat (F V : Type) where
  insts : List (FInst F V)
  conns : List (Conn F)
  settings : List (Setting V)

/-- `Parse7.transform`, camkes/parser/stage7.py:228-251. `none` is out of fuel. -/
def transform [DecidableEq F] (fuel : Nat) (assembly : Comp F V) : Option (Except Err (Flat F V)) :=
  match inferAll none assembly with
  | .error x => some (.error x)
  | .ok o =>
    match chaseConns o.aliases fuel o.conns with
    | none => none
    | some cs => some (.ok ⟨o.insts, cs, o.settings⟩)

end Verif.Hierarchy
