import Verif.Compose.Model
import Verif.Hierarchy.Model
import Verif.AttrRef.Model
import Verif.Consolidate.Model
import Verif.Freeze.Model

/-!
# Model: the stages of the parser after name resolution, one after the other

`Parser.__init__` (camkes/parser/parser.py:29-87) stacks the stages; every stage calls the one
below it and transforms what it returns (`Transformer.parse_file`,
camkes/parser/base.py:39-45). Here are stages 6 to 10, run on the assemblies that stages 0 to 5
deliver: their own models are `Verif.Compose`, `Verif.Hierarchy`, `Verif.AttrRef`,
`Verif.Consolidate` and `Verif.Freeze`, and this file only passes the result of one to the
next. Left out: the query stage (C101; it does nothing when no setting is a query), the type
check of settings (C24), the checks made when anything but the composition, its connections and
the configuration of the assembly is frozen. Leaving out a check means that the model accepts
more than the code, so what is proved of accepted specifications holds of the code's too.

Which exception a stage raises is not kept, only which stage it was.
-/

namespace Verif.Pipeline
open Verif.Hierarchy (Str)

/-- Interfaces, as `Composition.freeze` and `Connection.freeze` see them. -/
abbrev Iface := Freeze.Iface
abbrev Comp (V : Type) := Hierarchy.Comp Iface V
abbrev Decl (V : Type) := Hierarchy.Decl Iface V
abbrev End := Hierarchy.End Iface

/-- An assembly as stage 5 leaves it: its instances (name, address space, type), connections,
exports and settings. Schedules are not modelled here. -/
abbrev Assembly (V : Type) := Compose.Assembly (Str × Str × Comp V) (Hierarchy.Conn Iface)
  (Hierarchy.Export Iface) (Hierarchy.Setting V) Unit

/-- The top-level items of the lifted AST; those that are not assemblies play no role. -/
abbrev Item (V : Type) := Compose.Item (Str × Str × Comp V) (Hierarchy.Conn Iface)
  (Hierarchy.Export Iface) (Hierarchy.Setting V) Unit Unit

inductive Err
  | stage6 | stage7 | stage8 | stage9 | stage10
  deriving DecidableEq, Repr

variable {V : Type}

/-- The instances of a composition, as the model of stage 7 has them. -/
def toInsts : List (Str × Str × Comp V) → Hierarchy.Insts Iface V
  | [] => .nil
  | (n, sp, t) :: rest => .cons n sp t (toInsts rest)

/-- `ast_lifted.assembly` after stage 6 (camkes/ast/liftedast.py:46-58): the first assembly. -/
def theAssembly : List (Item V) → Option (Assembly V)
  | [] => none
  | .assembly a :: _ => some a
  | .other _ :: rest => theAssembly rest

/-- An assembly in the form in which stage 7 takes it; an assembly declares no interfaces and
attributes. -/
def asComp (a : Assembly V) : Comp V :=
  .mk (toInsts a.instances) a.connections a.exports a.settings {}

/-- What a component declares itself. -/
def declOf : Comp V → Decl V
  | .mk _ _ _ _ d => d

/-- What the exports of the composition of a component stand for. -/
def exportedOf : Comp V → List Iface
  | .mk _ _ es _ _ => es.map (·.dest)

/-- `s.rsplit('.', 1)`, camkes/parser/stage8.py:71: what is before and after the last dot; `none`
if there is no dot (the code raises ValueError). -/
def rsplit : Str → Option (Str × Str)
  | [] => none
  | c :: s =>
    match rsplit s with
    | some (a, b) => some (c :: a, b)
    | none => if c = '.' then some ([], s) else none

/-- A setting as stage 8 reads it, camkes/parser/stage8.py:71-74. -/
def toRef (s : Hierarchy.Setting V) : Option (AttrRef.Setting Str V) :=
  match s.value with
  | .lit v => some ⟨(String.ofList s.inst, String.ofList s.attr), .lit v⟩
  | .ref r lk =>
    (rsplit r).map fun p => ⟨(String.ofList s.inst, String.ofList s.attr),
      .ref (String.ofList p.1, String.ofList p.2) lk⟩

/-- All settings; `none` if one of them refers to something without a dot. -/
def toRefs : List (Hierarchy.Setting V) → Option (List (AttrRef.Setting Str V))
  | [] => some []
  | s :: rest => (toRef s).bind fun x => (toRefs rest).map fun xs => x :: xs

/-- The default of an attribute of an instance: `Assembly.get_attribute` and `.default`,
camkes/ast/objects.py:210-222. -/
def attrDefault (insts : List (Hierarchy.FInst Iface V)) (k : AttrRef.Key) : Option V :=
  (insts.find? fun i => decide (String.ofList i.name = k.1)).bind fun i =>
    ((declOf i.type).attrs.find? fun a => decide (String.ofList a.1 = k.2)).bind (·.2)

/-- The settings of the configuration once they are all literal, which the postcondition of stage
8 asserts (camkes/parser/stage8.py:29-34). -/
def literals : List (AttrRef.Setting Str V) → Option (List (Freeze.Setting V))
  | [] => some []
  | ⟨k, .lit v⟩ :: rest => (literals rest).map fun xs => ⟨k.1, k.2, v⟩ :: xs
  | ⟨_, .ref _ _⟩ :: _ => none

/-- A connection as stage 9 takes it. -/
def toConn (k : Hierarchy.Conn Iface) : Consolidate.Conn End String :=
  ⟨String.ofList k.name, String.ofList k.type, k.froms, k.tos⟩

/-- The instance that an end of a connection belongs to. -/
def instOf (insts : List (Hierarchy.FInst Iface V)) (e : End) : Option (Hierarchy.FInst Iface V) :=
  e.inst.bind fun n => insts.find? fun i => decide (i.name = n)

/-- An instance as `Composition.freeze` sees it. -/
def toInst (i : Hierarchy.FInst Iface V) : Freeze.Inst :=
  ⟨String.ofList i.name, (declOf i.type).ifaces, exportedOf i.type⟩

/-- The ends of one side of a connection as `Composition.freeze` sees them. -/
def toEnds (insts : List (Hierarchy.FInst Iface V)) : List End → Option (List Freeze.End)
  | [] => some []
  | e :: rest => (instOf insts e).bind fun i =>
      (toEnds insts rest).map fun xs => ⟨toInst i, e.iface⟩ :: xs

/-- The ends of a connection as `Connection.freeze` sees them. -/
def toCEnds (insts : List (Hierarchy.FInst Iface V)) : List End → Option (List Freeze.CEnd)
  | [] => some []
  | e :: rest => (instOf insts e).bind fun i =>
      (toCEnds insts rest).map fun xs => ⟨e.iface.kind, e.iface.type, (declOf i.type).hardware⟩ :: xs

/-- The ends of all connections, the from-ends of each before its to-ends. -/
def allEnds (insts : List (Hierarchy.FInst Iface V)) :
    List (Consolidate.Conn End String) → Option (List (List Freeze.End))
  | [] => some []
  | k :: rest => (toEnds insts (k.froms ++ k.tos)).bind fun x =>
      (allEnds insts rest).map fun xs => x :: xs

/-- `Connection.freeze` of every connection. -/
def checkConns (connector : String → Freeze.Connector) (insts : List (Hierarchy.FInst Iface V)) :
    List (Consolidate.Conn End String) → Bool
  | [] => true
  | k :: rest =>
    match toCEnds insts k.froms, toCEnds insts k.tos with
    | some fs, some ts =>
      match Freeze.connectionFreeze (connector k.type) fs ts with
      | .ok () => checkConns connector insts rest
      | .error _ => false
    | _, _ => false

/-- What the parser delivers: the assembly, with the configuration as it can be looked up. -/
structure System (V : Type) where
  insts : List (Hierarchy.FInst Iface V)
  conns : List (Consolidate.Conn End String)
  config : Freeze.Table V

/-- Stage 10: `freeze`, camkes/parser/stage10.py:33-40, restricted to the composition, its
connections and the configuration. `connector` are the declared connectors by name. -/
def stage10 (connector : String → Freeze.Connector) (insts : List (Hierarchy.FInst Iface V))
    (conns : List (Consolidate.Conn End String)) (settings : List (Freeze.Setting V)) :
    Option (System V) :=
  match allEnds insts conns with
  | none => none
  | some ends =>
    match Freeze.compositionFreeze (insts.map toInst) ends with
    | .error _ => none
    | .ok () =>
      if checkConns connector insts conns = true then
        match Freeze.configFreeze (insts.map fun i => ⟨String.ofList i.name,
            (declOf i.type).attrs.map fun a => ⟨String.ofList a.1, a.2⟩⟩) settings with
        | none => none
        | some t => if insts = [] then none else some ⟨insts, conns, t⟩
      else none

/-- Stages 8 to 10 on a flattened assembly. `look` is the subscription of a dictionary. A
resolution with as many steps as there are settings, and one more, does not run out of fuel
(`Verif.AttrRef.resolve_terminates`). -/
def finish (connector : String → Freeze.Connector) (look : V → List Str → Option V)
    (f : Hierarchy.Flat Iface V) : Except Err (System V) :=
  match toRefs f.settings with
  | none => .error .stage8
  | some refs =>
    match AttrRef.resolve ⟨attrDefault f.insts, look⟩ (refs.length + 1) refs with
    | none => .error .stage8
    | some (.error _) => .error .stage8
    | some (.ok resolved) =>
      match literals resolved with
      | none => .error .stage8
      | some settings =>
        match Consolidate.transform (f.conns.map toConn) with
        | .error _ => .error .stage9
        | .ok conns =>
          match stage10 connector f.insts conns settings with
          | none => .error .stage10
          | some s => .ok s

/-- Stages 6 to 10. The outer `none` is out of fuel. -/
def pipeline (connector : String → Freeze.Connector) (look : V → List Str → Option V) (fuel : Nat)
    (items : List (Item V)) : Option (Except Err (System V)) :=
  match Compose.compose items with
  | .error _ => some (.error .stage6)
  | .ok items' =>
    match theAssembly items' with
    | none => some (.error .stage6)
    | some a =>
      match Hierarchy.transform fuel (asComp a) with
      | none => none
      | some (.error _) => some (.error .stage7)
      | some (.ok f) => some (finish connector look f)

end Verif.Pipeline
