import Verif.Decls.Model
import Verif.Lift.Spec

/-!
# Specification: what a declaration says

The written forms of an architecture description (camkes/parser/camkes.g) as data types, the
tree the parser gives for each of them (`tree`), and the object a reader expects (`value`).
-/

namespace Verif.Decls.Spec
open Verif.Decls

/-! ### Words, strings, numbers and values -/

/-- An identifier. -/
def idTree (n : Str) : Tree := .node .id [.tok n]

/-- A dotted name: at least one identifier. -/
structure Path where
  first : Str
  rest : List Str

def Path.names (p : Path) : List Str := p.first :: p.rest
def Path.tree (p : Path) : Tree := .node .reference (p.names.map idTree)

/-- A string literal: one or more quoted pieces, one after the other. -/
structure Text where
  first : Str
  rest : List Str

def Text.pieces (t : Text) : List Str := t.first :: t.rest
def Text.value (t : Text) : Str := t.pieces.flatten
def pieceTree (s : Str) : Tree := .node .quotedString [.tok ('"' :: (s ++ ['"']))]
def Text.tree (t : Text) : Tree := .node .multiString (t.pieces.map pieceTree)

/-- A numeric expression with its value (what expressions mean is property C05). -/
structure Num where
  expr : NumExpr.Tree
  value : Int
  evaluates : NumExpr.lift expr = .ok value

/-- Keys of dictionaries and lookups. -/
inductive KeyS
  | num (n : Num)
  | str (t : Text)

def KeyS.value : KeyS → Key
  | .num n => .num n.value
  | .str t => .str t.value
def KeyS.tree : KeyS → Tree
  | .num n => .num n.expr
  | .str t => t.tree

/-- The dictionary written with these entries: every key once, where it was first written,
with the value that was written last. -/
def dictOf (kvs : List (Key × Obj)) : List (Key × Obj) :=
  (kvs.map Prod.fst).eraseDups.filterMap fun k =>
    ((kvs.filter fun kv => kv.1 == k).getLast?).map fun kv => (k, kv.2)

/-- Values: numbers, strings, lists and dictionaries, nested as one likes. -/
inductive Item
  | num (n : Num)
  | str (t : Text)
  | list (xs : List Item)
  | dict (kvs : List (KeyS × Item))

mutual
def Item.value : Item → Obj
  | .num n => .num n.value
  | .str t => .str t.value
  | .list xs => .list (Item.values xs)
  | .dict kvs => .dict (dictOf (Item.entries kvs))
def Item.values : List Item → List Obj
  | [] => []
  | x :: xs => x.value :: Item.values xs
def Item.entries : List (KeyS × Item) → List (Key × Obj)
  | [] => []
  | (k, v) :: rest => (k.value, v.value) :: Item.entries rest
end

mutual
def Item.tree : Item → Tree
  | .num n => .num n.expr
  | .str t => t.tree
  | .list xs => .node .list (Item.trees xs)
  | .dict kvs => .node .dict (Item.entryTrees kvs)
def Item.trees : List Item → List Tree
  | [] => []
  | x :: xs => x.tree :: Item.trees xs
def Item.entryTrees : List (KeyS × Item) → List Tree
  | [] => []
  | (k, v) :: rest => k.tree :: v.tree :: Item.entryTrees rest
end

/-! ### Types, attributes, methods, procedures -/

/-- The types the language knows; `words` are the keywords as written, for example
`unsigned integer`. -/
inductive Basic
  | int (words : List Str) | unsigned (words : List Str) | char (words : List Str)
  | signedChar (words : List Str) | unsignedChar (words : List Str) | string
  | int64 (words : List Str) | uint64 (words : List Str)

def Basic.value : Basic → Str
  | .int _ => (kw "int") | .unsigned _ => (kw "unsigned int") | .char _ => (kw "char")
  | .signedChar _ => (kw "signed char") | .unsignedChar _ => (kw "unsigned char")
  | .string => (kw "string") | .int64 _ => (kw "int64_t") | .uint64 _ => (kw "uint64_t")
def Basic.tree : Basic → Tree
  | .int ws => .node .signedInt (ws.map .tok) | .unsigned ws => .node .unsignedInt (ws.map .tok)
  | .char ws => .node .char (ws.map .tok) | .signedChar ws => .node .signedChar (ws.map .tok)
  | .unsignedChar ws => .node .unsignedChar (ws.map .tok) | .string => .tok (kw "string")
  | .int64 ws => .node .int64 (ws.map .tok) | .uint64 ws => .node .uint64 (ws.map .tok)

/-- The name of an attribute with `[]` or without, its type and its default. -/
inductive AttrS
  | basic (type : Basic) (name : Str) (array : Bool) (default : Option Item)
  | named (type : Path) (name : Str) (array : Bool) (default : Option Item)
  /-- `struct { … }` written in place, with at least one member. -/
  | anon (first : AttrS) (rest : List AttrS) (name : Str) (array : Bool)
      (default : Option Item)

mutual
def AttrS.value : AttrS → Obj
  | .basic t n a d => .attribute (.str t.value) n a (d.map Item.value)
  | .named t n a d => .attribute (.ref t.names (some .struct)) n a (d.map Item.value)
  | .anon f r n a d =>
    .attribute (.struct none (f.value :: AttrS.values r)) n a (d.map Item.value)
def AttrS.values : List AttrS → List Obj
  | [] => []
  | x :: xs => x.value :: AttrS.values xs
end

/-- `type name`, `type name[]`, then `= default`. -/
def attrTree (type : Tree) (n : Str) (array : Bool) (d : Option Item) : Tree :=
  let scalar := Tree.node .attributeScalarParameter [.node .type [type], idTree n]
  .node .attributeDecl
    ((if array then .node .attributeArrayParameter [scalar] else scalar) ::
      (match d with | none => [] | some i => [i.tree]))

mutual
def AttrS.tree : AttrS → Tree
  | .basic t n a d => attrTree t.tree n a d
  | .named t n a d => attrTree (.node .structRef [t.tree]) n a d
  | .anon f r n a d =>
    attrTree (.node .structRef [.node .structDefn (f.tree :: AttrS.trees r)]) n a d
def AttrS.trees : List AttrS → List Tree
  | [] => []
  | x :: xs => x.tree :: AttrS.trees xs
end

/-- A word that is not the keyword `integer` and has no space in it. -/
def Ident (n : Str) : Prop := ' ' ∉ n ∧ n ≠ (kw "integer")

/-- Types of methods: those of the language, `struct name`, or the name of a C type. -/
inductive MTy
  | basic (b : Basic)
  | structKw (n : Str)
  | named (n : Str) (h : Ident n)

/-- The C type; `bool` is called `boolean`. -/
def MTy.value : MTy → Str
  | .basic b => b.value
  | .structKw n => (kw "struct ") ++ n
  | .named n _ => if n = (kw "bool") then (kw "boolean") else n
def MTy.tree : MTy → Tree
  | .basic b => .node .type [b.tree]
  | .structKw n => .node .type [.node .structType [idTree n]]
  | .named n _ => .node .type [.node .structRef [.node .reference [idTree n]]]

inductive Direction | inD | inout | out | refin

def Direction.text : Direction → Str
  | .inD => (kw "in") | .inout => (kw "inout") | .out => (kw "out")
  | .refin => (kw "refin")

structure ParamS where
  direction : Option Direction
  type : MTy
  name : Str
  array : Bool

/-- A parameter without a direction is an input. -/
def ParamS.value (p : ParamS) : Obj :=
  .parameter p.name (match p.direction with | none => (kw "in") | some d => d.text)
    p.type.value p.array
def ParamS.tree (p : ParamS) : Tree :=
  let scalar := Tree.node .methodScalarParameter
    ((match p.direction with | none => [] | some d => [.node .direction [.tok d.text]]) ++
      [p.type.tree, idTree p.name])
  if p.array then .node .methodArrayParameter [scalar] else scalar

/-- A method; no return type is `void`. -/
structure MethodS where
  returns : Option MTy
  name : Str
  params : List ParamS

def MethodS.value (m : MethodS) : Obj :=
  .method m.name (m.returns.map MTy.value) (m.params.map ParamS.value)
def MethodS.tree (m : MethodS) : Tree :=
  .node .methodDecl ((match m.returns with | none => [] | some t => [t.tree]) ++
    idTree m.name :: m.params.map ParamS.tree)

/-- `include "file";` or `include <file>;`. -/
inductive InclS
  | quoted (t : Text)
  | angled (s : Str)

def InclS.value : InclS → Obj
  | .quoted t => .incl t.value true
  | .angled s => .incl s false
def InclS.tree : InclS → Tree
  | .quoted t => .node .includeStmt [t.tree]
  | .angled s => .node .includeStmt [.node .angleString [.tok ('<' :: (s ++ ['>']))]]

/-- What a procedure may hold. -/
inductive ProcItem
  | method (m : MethodS) | attribute (a : AttrS) | includes (i : InclS)

def ProcItem.tree : ProcItem → Tree
  | .method m => m.tree | .attribute a => a.tree | .includes i => i.tree

/-- The procedure: every method, attribute and file that was written, in that order. -/
def procedureOf (name : Option Str) (items : List ProcItem) : Obj :=
  .procedure name
    (items.filterMap fun | .includes i => some i.value | _ => none)
    (items.filterMap fun | .method m => some m.value | _ => none)
    (items.filterMap fun | .attribute a => some a.value | _ => none)

/-- An optional name in front of a definition. -/
def named (name : Option Str) (defn : Tree) : List Tree :=
  match name with
  | none => [defn]
  | some n => [idTree n, defn]

/-! ### Connectors -/

structure EndS where
  hardware : Bool
  kind : Lift.Spec.Kind
  multiple : Bool
  threads : Option Num
  nonneg : ∀ n, threads = some n → 0 ≤ n.value

def EndS.trees (e : EndS) : List Tree :=
  (if e.hardware then [.node .hardwareBare [.tok (kw "hardware")]] else []) ++
  .node .connectorEndType
    [.tok (kw (if e.multiple then e.kind.plural else e.kind.singular))] ::
  (match e.threads with | none => [] | some n => [.num n.expr])

structure ConnectorS where
  fromEnd : EndS
  toEnd : EndS
  attributes : List AttrS

/-- The number of threads written, one if none is. -/
def EndS.threadCount (e : EndS) : Nat :=
  match e.threads with | none => 1 | some n => n.value.toNat

def ConnectorS.value (name : Option Str) (c : ConnectorS) : Obj :=
  .connector {
    name := name.map String.ofList
    fromType := c.fromEnd.kind.singular, toType := c.toEnd.kind.singular
    fromMultiple := c.fromEnd.multiple, toMultiple := c.toEnd.multiple
    fromThreads := c.fromEnd.threadCount, toThreads := c.toEnd.threadCount
    fromHardware := c.fromEnd.hardware, toHardware := c.toEnd.hardware
    attributes := c.attributes.map AttrS.value }
def ConnectorS.tree (c : ConnectorS) : Tree :=
  .node .connectorDefn (c.fromEnd.trees ++ c.toEnd.trees ++ c.attributes.map AttrS.tree)

/-! ### Configurations -/

/-- Arguments of a query: one dictionary or a list of them. -/
inductive QArgs
  | one (kvs : List (KeyS × Item))
  | many (ds : List (List (KeyS × Item)))

def dictValue (kvs : List (KeyS × Item)) : Obj := Item.value (.dict kvs)
def dictTree (kvs : List (KeyS × Item)) : Tree := Item.tree (.dict kvs)

def QArgs.values : QArgs → List Obj
  | .one d => [dictValue d] | .many ds => ds.map dictValue
def QArgs.tree : QArgs → Tree
  | .one d => dictTree d | .many ds => .node .dictList (ds.map dictTree)

def lookupTrees : Option (List KeyS) → List Tree
  | none => []
  | some ks => [.node .dictLookup (ks.map KeyS.tree)]

inductive SVal
  | item (i : Item)
  | query (type : Str) (args : QArgs) (lookup : Option (List KeyS))
  | reference (p : Path) (lookup : Option (List KeyS))

def SVal.value : SVal → Obj
  | .item i => i.value
  | .query t a l => .queryO t a.values (l.map (List.map KeyS.value))
  | .reference p l => .attrRef (List.intercalate ['.'] p.names) (l.map (List.map KeyS.value))
def SVal.tree : SVal → Tree
  | .item i => i.tree
  | .query t a l => .node .query (idTree t :: a.tree :: lookupTrees l)
  | .reference p l => .node .attributeReference (p.names.map idTree ++ lookupTrees l)

structure SettingS where
  inst : Str
  attr : Str
  val : SVal

def SettingS.value (s : SettingS) : Obj := .setting s.inst s.attr s.val.value
def SettingS.tree (s : SettingS) : Tree :=
  .node .setting [idTree s.inst, idTree s.attr, s.val.tree]

/-- A configuration: its settings in the order written. -/
structure ConfigS where
  name : Option Str
  settings : List SettingS

def ConfigS.value (c : ConfigS) : Obj := .configuration c.name (c.settings.map SettingS.value)
def ConfigS.tree (c : ConfigS) : Tree :=
  .node .configurationDecl
    (named c.name (.node .configurationDefn (c.settings.map SettingS.tree)))

/-! ### Components and compositions -/

/-- The type of a dataport: a name or `Buf(size)`. -/
inductive DTy
  | named (n : Str)
  | buf (n : Num) (pos : 0 < n.value)

def DTy.value : DTy → Str
  | .named n => n
  | .buf n _ => (kw "Buf(") ++ (toString n.value).toList ++ (kw ")")
def DTy.tree : DTy → Tree
  | .named n => .node .dataportType [idTree n]
  | .buf n _ => .node .dataportType [.num n.expr]

/-- What a component may hold besides a composition and a configuration. `opt` is `maybe`. -/
inductive CompItem
  | attribute (a : AttrS)
  | consumes (opt : Bool) (type name : Str)
  | control
  | dataport (opt : Bool) (type : DTy) (name : Str)
  | emits (type name : Str)
  | hardware
  | includes (i : InclS)
  | mutexS (name : Str)
  | provides (type : Path) (name : Str)
  | semaphore (name : Str)
  | binarySemaphore (name : Str)
  | uses (opt : Bool) (type : Path) (name : Str)

def maybeTree (opt : Bool) : List Tree :=
  if opt then [.node .maybe [.tok (kw "maybe")]] else []

def CompItem.tree : CompItem → Tree
  | .attribute a => a.tree
  | .consumes o t n => .node .consumes (maybeTree o ++ [idTree t, idTree n])
  | .control => .node .control [.tok (kw "control")]
  | .dataport o t n => .node .dataport (maybeTree o ++ [t.tree, idTree n])
  | .emits t n => .node .emits [idTree t, idTree n]
  | .hardware => .node .hardware [.tok (kw "hardware")]
  | .includes i => i.tree
  | .mutexS n => .node .mutexDecl [idTree n]
  | .provides t n => .node .provides [t.tree, idTree n]
  | .semaphore n => .node .semaphore [idTree n]
  | .binarySemaphore n => .node .binarySemaphore [idTree n]
  | .uses o t n => .node .uses (maybeTree o ++ [t.tree, idTree n])

/-- One end of a connection: `from` or `to`, then the interface. -/
structure CEndS where
  isFrom : Bool
  path : Path

def CEndS.tree (e : CEndS) : Tree :=
  .node .connectionEnd
    [if e.isFrom then .node .fromKw [.tok (kw "from")] else .node .toKw [.tok (kw "to")],
      e.path.tree]
/-- The interface named, and the instance it belongs to if the name is qualified. -/
def CEndS.value (e : CEndS) : Obj :=
  .connEnd e.isFrom
    (match e.path.rest with
      | [] => none
      | _ => some (.ref e.path.names.dropLast (some .instanceK)))
    (.ref e.path.names (some .interface))

/-- The connector of a connection: by name or written in place. -/
inductive ConnRef
  | named (p : Path)
  | anon (c : ConnectorS)

def ConnRef.value : ConnRef → Obj
  | .named p => .ref p.names (some .connector)
  | .anon c => c.value none
def ConnRef.tree : ConnRef → Tree
  | .named p => .node .connectorRef [p.tree]
  | .anon c => .node .connectorRef [c.tree]

mutual
/-- A component definition. -/
inductive CompS
  | mk (items : List CompItem) (tail : TailS)
/-- A component may end in a composition, with a configuration before or after it. -/
inductive TailS
  | none
  | composition (c : CompositionS)
  | compositionFirst (c : CompositionS) (f : ConfigS)
  | configurationFirst (f : ConfigS) (c : CompositionS)
/-- A composition, with its name if it has one. -/
inductive CompositionS
  | mk (name : Option Str) (items : List CItem)
/-- What a composition may hold. -/
inductive CItem
  | instances (i : InstS)
  | connection (type : ConnRef) (name : Str) (ends : List CEndS)
  | group (name : Option Str) (instances : List InstS)
  /-- `export inst.iface -> dst;` -/
  | exports (inst : Path) (iface : Str) (dst : Path)
/-- An instance: its component and its name. -/
inductive InstS
  | mk (type : CRef) (name : Str)
/-- The component of an instance: by name or written in place. -/
inductive CRef
  | named (p : Path)
  | anon (c : CompS)
end

mutual
def CompS.tree : CompS → Tree
  | .mk items tail => .node .componentDefn (items.map CompItem.tree ++ tail.trees)
def TailS.trees : TailS → List Tree
  | .none => []
  | .composition c => [.node .compositionSing [c.tree]]
  | .compositionFirst c f =>
    [.node .compositionSing [c.tree], .node .configurationSing [f.tree]]
  | .configurationFirst f c =>
    [.node .configurationSing [f.tree], .node .compositionSing [c.tree]]
def CompositionS.tree : CompositionS → Tree
  | .mk n items => .node .compositionDecl (named n (.node .compositionDefn (CItem.trees items)))
def CItem.tree : CItem → Tree
  | .instances i => i.tree
  | .connection t n ends => .node .connectionDefn (t.tree :: idTree n :: ends.map CEndS.tree)
  | .group n is => .node .groupDecl (named n (.node .groupDefn (InstS.trees is)))
  | .exports i f d =>
    .node .exportStmt [.node .reference ((i.names ++ [f]).map idTree), d.tree]
def CItem.trees : List CItem → List Tree
  | [] => []
  | x :: xs => x.tree :: CItem.trees xs
def InstS.tree : InstS → Tree
  | .mk t n => .node .instanceDefn [t.tree, idTree n]
def InstS.trees : List InstS → List Tree
  | [] => []
  | x :: xs => x.tree :: InstS.trees xs
def CRef.tree : CRef → Tree
  | .named p => .node .componentRef [p.tree]
  | .anon c => .node .componentRef [c.tree]
end

/-- The component: every item that was written, among its kind and in that order. -/
def componentOf (name : Option Str) (items : List CompItem) (composition configuration : Option Obj) :
    Obj :=
  .component name
    (items.filterMap fun | .includes i => some i.value | _ => none)
    (items.any fun | .control => true | _ => false)
    (items.any fun | .hardware => true | _ => false)
    (items.filterMap fun
      | .provides t n => some (.provides (.ref t.names (some .procedure)) n) | _ => none)
    (items.filterMap fun
      | .uses o t n => some (.uses (.ref t.names (some .procedure)) n o) | _ => none)
    (items.filterMap fun | .emits t n => some (.emits t n) | _ => none)
    (items.filterMap fun | .consumes o t n => some (.consumes t n o) | _ => none)
    (items.filterMap fun | .dataport o t n => some (.dataport t.value n o) | _ => none)
    (items.filterMap fun | .attribute a => some a.value | _ => none)
    (items.filterMap fun | .mutexS n => some (.mutexO n) | _ => none)
    (items.filterMap fun | .semaphore n => some (.semaphore n) | _ => none)
    (items.filterMap fun | .binarySemaphore n => some (.binarySemaphore n) | _ => none)
    composition configuration

mutual
def CompS.value : Option Str → CompS → Obj
  | name, .mk items tail => componentOf name items tail.compositionOf tail.configurationOf
def TailS.compositionOf : TailS → Option Obj
  | .none => Option.none
  | .composition c => some c.value
  | .compositionFirst c _ => some c.value
  | .configurationFirst _ c => some c.value
def TailS.configurationOf : TailS → Option Obj
  | .none => Option.none
  | .composition _ => Option.none
  | .compositionFirst _ f => some f.value
  | .configurationFirst f _ => some f.value
/-- The composition: its instances, connections, groups and exports, each in the order
written. -/
def CompositionS.value : CompositionS → Obj
  | .mk n items =>
    .composition n (CItem.instancesOf items) (CItem.connectionsOf items) (CItem.groupsOf items)
      (CItem.exportsOf items)
def CItem.instancesOf : List CItem → List Obj
  | [] => []
  | .instances i :: rest => i.value :: CItem.instancesOf rest
  | _ :: rest => CItem.instancesOf rest
def CItem.connectionsOf : List CItem → List Obj
  | [] => []
  | .connection t n ends :: rest =>
    .connection t.value n ((ends.filter fun e => e.isFrom).map CEndS.value)
      ((ends.filter fun e => !e.isFrom).map CEndS.value) :: CItem.connectionsOf rest
  | _ :: rest => CItem.connectionsOf rest
def CItem.groupsOf : List CItem → List Obj
  | [] => []
  | .group n is :: rest => .group n (InstS.values is) :: CItem.groupsOf rest
  | _ :: rest => CItem.groupsOf rest
def CItem.exportsOf : List CItem → List Obj
  | [] => []
  | .exports i f d :: rest =>
    .exportO (.ref i.names (some .instanceK)) (.ref (i.names ++ [f]) (some .interface))
      (.ref d.names (some .interface)) :: CItem.exportsOf rest
  | _ :: rest => CItem.exportsOf rest
def InstS.value : InstS → Obj
  | .mk t n => .inst t.value n
def InstS.values : List InstS → List Obj
  | [] => []
  | x :: xs => x.value :: InstS.values xs
def CRef.value : CRef → Obj
  | .named p => .ref p.names (some .component)
  | .anon c => c.value Option.none
end

/-! ### Assemblies and files -/

/-- A slot of the domain schedule: `(domain, duration)` with a unit if one is written. -/
structure SlotS where
  domain : Int
  duration : Int
  ticks : Option Bool

def SlotS.tree (s : SlotS) : Tree :=
  .node .scheduleItem ([.num (.number s.domain), .num (.number s.duration)] ++
    (match s.ticks with
      | none => []
      | some true => [.node .scheduleUnit [.tok (kw "ticks")]]
      | some false => [.node .scheduleUnit [.tok (kw "us")]]))
def SlotS.value (s : SlotS) : Obj := .slot s.domain s.duration s.ticks

inductive AItem
  | composition (c : CompositionS)
  | configuration (f : ConfigS)
  | schedule (slots : List SlotS)

def AItem.tree : AItem → Tree
  | .composition c => .node .compositionSing [c.tree]
  | .configuration f => .node .configurationSing [f.tree]
  | .schedule ss => .node .scheduleDefn (ss.map SlotS.tree)

/-- The compositions, configurations and schedules written in an assembly. -/
def compositionsIn (items : List AItem) : List CompositionS :=
  items.filterMap fun | .composition c => some c | _ => none
def configurationsIn (items : List AItem) : List ConfigS :=
  items.filterMap fun | .configuration f => some f | _ => none
def schedulesIn (items : List AItem) : List (List SlotS) :=
  items.filterMap fun | .schedule s => some s | _ => none

/-- A top level declaration. -/
inductive Decl
  | component (name : Option Str) (c : CompS)
  | composition (c : CompositionS)
  | configuration (f : ConfigS)
  | connector (name : Option Str) (c : ConnectorS)
  | procedure (name : Option Str) (items : List ProcItem)
  | struct (name : Str) (first : AttrS) (rest : List AttrS)
  | assembly (name : Option Str) (items : List AItem)

def Decl.tree : Decl → Tree
  | .component n c => .node .componentDecl (named n c.tree)
  | .composition c => c.tree
  | .configuration f => f.tree
  | .connector n c => .node .connectorDecl (named n c.tree)
  | .procedure n items =>
    .node .procedureDecl (named n (.node .procedureDefn (items.map ProcItem.tree)))
  | .struct n f r =>
    .node .structDecl [idTree n, .node .structDefn (f.tree :: r.map AttrS.tree)]
  | .assembly n items => .node .assemblyDecl (named n (.node .assemblyDefn (items.map AItem.tree)))

/-- The configuration of an assembly: an empty one if none is written. -/
def settingsOf : List ConfigS → Obj
  | [] => .configuration none []
  | f :: _ => f.value

/-- The schedule of an assembly: an empty one if none is written. -/
def slotsOf : List (List SlotS) → Obj
  | [] => .schedule []
  | s :: _ => .schedule (s.map SlotS.value)

/-- What each declaration stands for. An assembly without a configuration has an empty one,
and without a schedule an empty one. -/
inductive Means : Decl → Obj → Prop
  | component (n c) : Means (.component n c) (c.value n)
  | composition (c) : Means (.composition c) c.value
  | configuration (f) : Means (.configuration f) f.value
  | connector (n c) : Means (.connector n c) (c.value n)
  | procedure (n items) : Means (.procedure n items) (procedureOf n items)
  | struct (n f r) : Means (.struct n f r) (.struct (some n) (f.value :: r.map AttrS.value))
  | assembly (n items c fs ss) (hc : compositionsIn items = [c])
      (hf : configurationsIn items = fs) (hfs : fs.length ≤ 1)
      (hs : schedulesIn items = ss) (hss : ss.length ≤ 1) :
      Means (.assembly n items)
        (.assembly n c.value
          (settingsOf fs) (slotsOf ss))

end Verif.Decls.Spec
