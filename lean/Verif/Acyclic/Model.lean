/-!
# Model: the AST cycle check (camkes/parser/stage4.py)
-/

namespace Verif.Acyclic

/-- Outcome of `check_acyclic`: normal return or `ParseError`. -/
inductive Verdict
  | ok
  | cycle
  deriving DecidableEq, Repr

/-- The `for c in ...: check_acyclic(c, path + [obj])` loop: stop at the first exception
(camkes/parser/stage4.py:206-207). `none` means out of fuel. -/
def forEach {N : Type} (body : N → Option Verdict) : List N → Option Verdict
  | [] => some .ok
  | c :: cs =>
    match body c with
    | some .ok => forEach body cs
    | r => r

/-- `check_acyclic`, camkes/parser/stage4.py:198-207, over an object graph given by
`children` (`None` children left out, as the code does). Objects are compared by identity,
so `N` is a type of object identities. `path + [obj]` is kept in reverse order. The fuel
bounds the recursion depth. -/
def check {N : Type} [DecidableEq N] (children : N → List N) : Nat → List N → N → Option Verdict
  | 0, _, _ => none
  | fuel + 1, path, obj =>
    if obj ∈ path then some .cycle
    else forEach (check children fuel (obj :: path)) (children obj)

/-! ### The object graph of a specification with resolved references -/

/-- What matters of a component declaration: struct types of its attributes (camkes/ast/
objects.py:943-945: an attribute has its type as child only if it is a struct), the number of
its interfaces, the types of the instances and of the instances in groups of its composition,
and its connection ends (instance, if given, and interface index), per connection.
Simplification: included files, mutexes, settings, connector and procedure types and other
objects that have no path back into components are left out; exports are connection-end
shaped (camkes/ast/objects.py:1025) and are covered by `ends`. -/
structure Comp where
  attrs : List (Option Nat)
  ifaces : Nat
  instances : List Nat
  groups : List (List Nat)
  connections : List (List (Option Nat × Nat))

/-- A specification: components and structs by index. A struct is the list of its attributes'
struct types. An assembly is a component no instance refers to. -/
structure Specification where
  comps : List Comp
  structs : List (List (Option Nat))

/-- Object identities of the resolved AST. -/
inductive Node
  | root
  | comp (c : Nat)
  | composition (c : Nat)
  | inst (c i : Nat)
  | group (c g : Nat)
  | groupInst (c g i : Nat)
  | conn (c k : Nat)
  | connEnd (c k e : Nat)
  | iface (c i : Nat)
  | attr (c a : Nat)
  | struct (s : Nat)
  | structAttr (s a : Nat)
  deriving DecidableEq, Repr

def Specification.comp (sp : Specification) (c : Nat) : Comp := sp.comps.getD c ⟨[], 0, [], [], []⟩
def Specification.struct (sp : Specification) (s : Nat) : List (Option Nat) := sp.structs.getD s []

/-- The `children` property (camkes/ast/base.py:97-110) of each object, by the `child_fields`
of camkes/ast/objects.py: 583 Struct, 632 Component, 252 Composition, 361 Instance, 851 Group,
385 Connection, 981 ConnectionEnd, 943 Attribute; liftedast.py:20 for the root. -/
def kids (sp : Specification) : Node → List Node
  | .root => (List.range sp.comps.length).map .comp ++ (List.range sp.structs.length).map .struct
  | .comp c => (List.range (sp.comp c).attrs.length).map (.attr c) ++
      (List.range (sp.comp c).ifaces).map (.iface c) ++ [.composition c]
  | .composition c => (List.range (sp.comp c).instances.length).map (.inst c) ++
      (List.range (sp.comp c).groups.length).map (.group c) ++
      (List.range (sp.comp c).connections.length).map (.conn c)
  | .inst c i => ((sp.comp c).instances[i]?).toList.map .comp
  | .group c g => (List.range ((sp.comp c).groups.getD g []).length).map (.groupInst c g)
  | .groupInst c g i => (((sp.comp c).groups.getD g [])[i]?).toList.map .comp
  | .conn c k => (List.range ((sp.comp c).connections.getD k []).length).map (.connEnd c k)
  | .connEnd c k e =>
    match ((sp.comp c).connections.getD k [])[e]? with
    | none => []
    | some (none, j) => [.iface c j]
    | some (some i, j) =>
      match (sp.comp c).instances[i]? with
      | none => []
      | some d => [.inst c i, .iface d j]
  | .iface _ _ => []
  | .attr c a => (((sp.comp c).attrs[a]?).join).toList.map .struct
  | .struct s => (List.range (sp.struct s).length).map (.structAttr s)
  | .structAttr s a => (((sp.struct s)[a]?).join).toList.map .struct

end Verif.Acyclic
