import Verif.ArchSpec.Model
import Mathlib.Data.List.Forall2

/-!
# What the generated description should say

`denote` reads a theory the way Isabelle does: a name stands for what its definition says.
`Described` says which system an assembly is, from the assembly alone.  Only the data types of the
model are used here (assemblies and theories), none of its functions.
-/

namespace Verif.ArchSpec.Spec
open Verif.ArchSpec

/-! ### Reading a theory -/

/-- A component as the theory says it is, with every name replaced by what it stands for. -/
structure SComp where
  control : Bool
  hardware : Bool
  requires : List (Str × Bool × List TMethod)
  provides : List (Str × List TMethod)
  dataports : List (Str × Str)
  emits : List (Str × Nat)
  consumes : List (Str × Bool × Nat)
  attributes : List (Str × Ty)
  deriving DecidableEq, Repr

/-- A connection as the theory says it is. -/
structure SConn where
  type : TConnector
  froms : List (Str × Str)
  tos : List (Str × Str)
  deriving DecidableEq, Repr

/-- A system as the theory says it is. -/
structure System where
  components : List (Str × SComp)
  connections : List (Str × SConn)
  groups : List (Str × Str)
  settings : Option (List (Str × Str × Str))
  policy : List (Str × Str × Str)
  deriving DecidableEq, Repr

/-- The definitions of a theory. -/
def defs (thy : List Item) : List (Str × Body) :=
  thy.filterMap fun
    | .defn n b => some (n, b)
    | .lemma _ => none

/-- What a name is defined to be. -/
def lookup (thy : List Item) (n : Str) : Option Body :=
  ((defs thy).find? fun d => decide (d.1 = n)).map (·.2)

/-- The values of all elements, if all have one. -/
def all {α β : Type} (f : α → Option β) : List α → Option (List β)
  | [] => some []
  | a :: as => match f a, all f as with
    | some b, some bs => some (b :: bs)
    | _, _ => none

def theProcedure (thy : List Item) (n : Str) : Option (List TMethod) :=
  match lookup thy n with
  | some (.procedure ms) => some ms
  | _ => none

def theEvent (thy : List Item) (n : Str) : Option Nat :=
  match lookup thy n with
  | some (.event k) => some k
  | _ => none

def theDataport (thy : List Item) (n : Str) : Option Str :=
  match lookup thy n with
  | some (.dataport t) => some t
  | _ => none

def theConnector (thy : List Item) (n : Str) : Option TConnector :=
  match lookup thy n with
  | some (.connector c) => some c
  | _ => none

/-- What the definition of a component type says. -/
def readComp (thy : List Item) (c : TComp) : Option SComp :=
  (all (fun r => (theProcedure thy r.2.2).map fun p => (r.1, r.2.1, p)) c.requires).bind fun rs =>
  (all (fun r => (theProcedure thy r.2).map fun p => (r.1, p)) c.provides).bind fun ps =>
  (all (fun r => (theDataport thy r.2).map fun p => (r.1, p)) c.dataports).bind fun ds =>
  (all (fun r => (theEvent thy r.2).map fun p => (r.1, p)) c.emits).bind fun es =>
  (all (fun r => (theEvent thy r.2.2).map fun p => (r.1, r.2.1, p)) c.consumes).map fun cs =>
    ⟨c.control, c.hardware, rs, ps, ds, es, cs, c.attributes⟩

/-- What the name of an instance stands for: it is defined as another name, that of a type. -/
def theComponent (thy : List Item) (n : Str) : Option SComp :=
  match lookup thy n with
  | some (.alias t) =>
    match lookup thy t with
    | some (.type c) => readComp thy c
    | _ => none
  | _ => none

def theConnection (thy : List Item) (n : Str) : Option SConn :=
  match lookup thy n with
  | some (.connection t fs ts) => (theConnector thy t).map fun c => ⟨c, fs, ts⟩
  | _ => none

/-- What the name of an assembly stands for. -/
def denote (thy : List Item) (n : Str) : Option System :=
  match lookup thy n with
  | some (.assembly comp conf policy) =>
    match lookup thy comp, lookup thy conf with
    | some (.composition cs ks groups), some (.configuration settings) =>
      (all (fun c => (theComponent thy c.2).map fun x => (c.1, x)) cs).bind fun xs =>
      (all (fun k => (theConnection thy k.2).map fun x => (k.1, x)) ks).map fun ys =>
        ⟨xs, ys, groups, settings, policy⟩
    | _, _ => none
  | _ => none

/-! ### What an assembly is -/

/-- The types that have a counterpart in the theory. -/
def builtIn : List (String × Prim) :=
  [("int", .num .integer), ("unsigned int", .num .unsigned), ("real", .num .real),
   ("boolean", .num .boolean), ("char", .txt .char), ("character", .txt .character),
   ("string", .txt .string)]

/-- `t` is a built-in type, and `p` its counterpart. -/
def BuiltIn (t : Str) (p : Prim) : Prop := ∃ s, (s, p) ∈ builtIn ∧ t = s.toList

/-- Types are their counterparts if they have one, C types otherwise. -/
def TypeIs (t : Str) (x : Ty) : Prop :=
  (∃ p, BuiltIn t p ∧ x = .prim p) ∨ ((∀ p, ¬ BuiltIn t p) ∧ x = .ctype t)

/-- A parameter: an array has elements of a built-in type other than `string`. -/
def ParamIs (p : Param) (x : TParam) : Prop :=
  x.name = p.name ∧
  (x.dir = .inParam ↔ p.dir = .inp ∨ p.dir = .refin) ∧ (x.dir = .outParam ↔ p.dir = .out) ∧
  (x.dir = .inOutParam ↔ p.dir = .inout) ∧
  (p.array = false → TypeIs p.type x.type) ∧
  (p.array = true → ∃ q, BuiltIn p.type q ∧ q ≠ .txt .string ∧ x.type = .array q)

def MethodIs (m : Method) (x : TMethod) : Prop :=
  x.name = m.name ∧ List.Forall₂ ParamIs m.params x.params ∧
  (m.ret = none → x.ret = none) ∧ (∀ t, m.ret = some t → ∃ y, x.ret = some y ∧ TypeIs t y)

/-- A connector that says how it is to be described is described so. -/
def ConnectorIs (c : Connector) (x : TConnector) : Prop :=
  (∀ s, c.spec = some s → x = .verbatim s) ∧
  (c.spec = none → ∃ hw, x = .record hw c.joins ∧ (hw = true ↔ c.fromHardware = true ∨ c.toHardware = true))

/-- A component: its interfaces are those that it does not export for a component inside it, each
with the contents of its type.  `num` numbers the event types. -/
structure CompIs (num : Str → Nat) (c : Comp) (x : SComp) : Prop where
  control : x.control = c.control
  hardware : x.hardware = c.hardware
  requires : List.Forall₂ (fun (i : ProcIface) r => r.1 = i.name ∧ r.2.1 = i.optional ∧
    List.Forall₂ MethodIs i.type.methods r.2.2) (c.uses.filter fun i => decide (i.name ∉ c.exports)) x.requires
  provides : List.Forall₂ (fun (i : ProcIface) r => r.1 = i.name ∧
    List.Forall₂ MethodIs i.type.methods r.2) (c.provides.filter fun i => decide (i.name ∉ c.exports)) x.provides
  dataports : x.dataports =
    (c.dataports.filter fun i => decide (i.name ∉ c.exports)).map fun i => (i.name, i.type)
  emits : x.emits =
    (c.emits.filter fun i => decide (i.name ∉ c.exports)).map fun i => (i.name, num i.type)
  consumes : x.consumes =
    (c.consumes.filter fun i => decide (i.name ∉ c.exports)).map fun i => (i.name, i.optional, num i.type)
  attributes : List.Forall₂ (fun (a : Str × Str) y => y.1 = a.1 ∧ TypeIs a.2 y.2) c.attributes x.attributes

def ConnIs (k : Conn) (x : SConn) : Prop :=
  ConnectorIs k.type x.type ∧ x.froms = k.froms ∧ x.tos = k.tos

/-- The event types of the interfaces of the instances. -/
def IsEvent (a : Assembly) (t : Str) : Prop :=
  ∃ i ∈ a.insts, ∃ e, (e ∈ i.type.emits ∨ e ∈ i.type.consumes) ∧ e.type = t

/-- The system that an assembly is: its instances and connections in their order, its group labels,
its settings and the extra policy.  Event types are known by numbers, different for different
types. -/
structure Described (a : Assembly) (sys : System) : Prop where
  components : ∃ num : Str → Nat, (∀ t u, IsEvent a t → IsEvent a u → num t = num u → t = u) ∧
    List.Forall₂ (fun (i : Inst) x => x.1 = i.name ∧ CompIs num i.type x.2) a.insts sys.components
  connections : List.Forall₂ (fun (k : Conn) x => x.1 = k.name ∧ ConnIs k x.2) a.conns sys.connections
  groups : sys.groups = a.groups
  settings : sys.settings.getD [] = a.settings
  policy : sys.policy = a.policy

/-! ### What is asked of an assembly -/

/-- The connector, procedure, event, dataport and component types in an assembly. -/
def HasConnector (a : Assembly) (c : Connector) : Prop := ∃ k ∈ a.conns, k.type = c
def HasProc (a : Assembly) (p : Proc) : Prop :=
  ∃ i ∈ a.insts, ∃ x, (x ∈ i.type.uses ∨ x ∈ i.type.provides) ∧ x.type = p
def HasDataport (a : Assembly) (t : Str) : Prop := ∃ i ∈ a.insts, ∃ d ∈ i.type.dataports, d.type = t
def HasType (a : Assembly) (c : Comp) : Prop := ∃ i ∈ a.insts, i.type = c

/-- `u` is how the name `t` of a dataport type is written: the first opening bracket, if there is a
closing one after it, becomes an underscore, and the last closing bracket is left out. -/
def Written (t u : Str) : Prop :=
  (∃ p m s, t = p ++ '(' :: (m ++ ')' :: s) ∧ '(' ∉ p ∧ ')' ∉ s ∧ u = p ++ '_' :: (m ++ s)) ∨
  ((¬ ∃ p m s, t = p ++ '(' :: (m ++ ')' :: s)) ∧ u = t)

/-- No two different things of one sort have the same name, and no name has a quote in it.  The
parser's identifiers have no quotes, and it makes sure that names of instances and of connections
are different; it does not compare the names of types. -/
structure Apart (a : Assembly) : Prop where
  insts : (a.insts.map (·.name)).Nodup
  conns : (a.conns.map (·.name)).Nodup
  connectors : ∀ c d, HasConnector a c → HasConnector a d → c.name = d.name → c = d
  procs : ∀ c d, HasProc a c → HasProc a d → c.name = d.name → c = d
  types : ∀ c d, HasType a c → HasType a d → c.name = d.name → c = d
  dataports : ∀ t u, HasDataport a t → HasDataport a u → ∀ w, Written t w → Written u w → t = u
  plainInsts : ∀ i ∈ a.insts, '\'' ∉ i.name
  plainConns : ∀ k ∈ a.conns, '\'' ∉ k.name
  plainConnectors : ∀ c, HasConnector a c → ∀ n, c.name = some n → '\'' ∉ n
  plainProcs : ∀ c, HasProc a c → ∀ n, c.name = some n → '\'' ∉ n
  plainTypes : ∀ c, HasType a c → ∀ n, c.name = some n → '\'' ∉ n
  plainEvents : ∀ t, IsEvent a t → '\'' ∉ t
  plainDataports : ∀ t, HasDataport a t → '\'' ∉ t
  configured : a.settings ≠ [] → a.holds = true

/-- The assembly, its composition and its configuration have no names of their own, as is usual. -/
def Unnamed (a : Assembly) : Prop :=
  a.name = none ∧ a.compositionName = none ∧ a.configurationName = none

/-- The names that the assembly, its composition and its configuration have in the theory. -/
def topName (n : Option Str) (default : String) : Str := n.getD default.toList

/-- If they do have names of their own, these are different and have no double underscore. -/
structure TopApart (a : Assembly) : Prop where
  different : [topName a.name "assembly'", topName a.compositionName "composition'",
    topName a.configurationName "configuration'"].Nodup
  assembly : ∀ n, a.name = some n → ¬ ['_', '_'] <:+: n
  composition : ∀ n, a.compositionName = some n → ¬ ['_', '_'] <:+: n
  configuration : ∀ n, a.configurationName = some n → ¬ ['_', '_'] <:+: n

/-- No component exports a dataport or an event. -/
def ExportsProceduresOnly (a : Assembly) : Prop :=
  ∀ i ∈ a.insts, ∀ x, (x ∈ i.type.dataports ∨ x ∈ i.type.emits ∨ x ∈ i.type.consumes) →
    x.name ∉ i.type.exports

/-- A name begins with a letter or an underscore. -/
def Begins (n : Str) : Prop := ∃ c r, n = c :: r ∧ (c.isAlpha = true ∨ c = '_')

/-- Everything that gets a definition has a name, which begins with a letter or an underscore, and
arrays of parameters are of built-in types other than `string`. -/
structure Nameable (a : Assembly) : Prop where
  insts : ∀ i ∈ a.insts, Begins i.name
  conns : ∀ k ∈ a.conns, Begins k.name
  connectors : ∀ c, HasConnector a c → ∃ n, c.name = some n ∧ Begins n
  procs : ∀ c, HasProc a c → ∃ n, c.name = some n ∧ Begins n
  types : ∀ c, HasType a c → ∃ n, c.name = some n ∧ Begins n
  events : ∀ t, IsEvent a t → Begins t
  dataports : ∀ t, HasDataport a t → ∀ w, Written t w → Begins w
  arrays : ∀ c, HasProc a c → ∀ m ∈ c.methods, ∀ p ∈ m.params, p.array = true →
    ∃ q, BuiltIn p.type q ∧ q ≠ .txt .string

/-- The names that a definition or a lemma mentions. -/
def mentions : Item → List Str
  | .lemma ms => ms
  | .defn _ (.type c) => c.requires.map (·.2.2) ++ c.provides.map (·.2) ++ c.dataports.map (·.2) ++
      c.emits.map (·.2) ++ c.consumes.map (·.2.2)
  | .defn _ (.alias t) => [t]
  | .defn _ (.connection t _ _) => [t]
  | .defn _ (.composition cs ks _) => cs.map (·.2) ++ ks.map (·.2)
  | .defn _ (.assembly c d _) => [c, d]
  | .defn _ _ => []

/-- Every name that a definition or a lemma mentions is defined before. -/
def DefinedBefore (thy : List Item) : Prop :=
  ∀ before item after, thy = before ++ item :: after →
    ∀ n ∈ mentions item, n ∈ (defs before).map (·.1)

end Verif.ArchSpec.Spec
