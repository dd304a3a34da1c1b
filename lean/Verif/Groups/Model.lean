/-!
# Model: collapsing groups (camkes/parser/stage5.py)
-/

namespace Verif.Groups

/-- An instance: its name and address space (camkes/ast/objects.py:360-369). -/
structure Inst where
  name : String
  addressSpace : String
  deriving DecidableEq, Repr

/-- `group name? { instances }` (camkes/ast/objects.py:850-857). -/
structure Group where
  name : Option String
  instances : List Inst
  deriving DecidableEq, Repr

/-- The parts of a composition this stage touches. -/
structure Composition where
  instances : List Inst
  groups : List Group
  deriving DecidableEq, Repr

/-- `'unamed_group_%d' % counter`, camkes/parser/stage5.py:53. -/
def unnamed (n : Nat) : String := "unamed_group_" ++ toString n

/-- `Collapser.__call__` on a `Group`, camkes/parser/stage5.py:50-59. -/
def visitGroup (counter : Nat) (g : Group) : Group × Nat :=
  match g.name with
  | none => (⟨none, g.instances.map fun i => { i with addressSpace := unnamed counter }⟩, counter + 1)
  | some n => (⟨some n, g.instances.map fun i => { i with addressSpace := n }⟩, counter)

/-- The groups of a composition are visited in order, before the composition itself
(post-order traversal, camkes/ast/base.py:203-226). -/
def visitGroups (counter : Nat) : List Group → List Group × Nat
  | [] => ([], counter)
  | g :: gs =>
    let r := visitGroup counter g
    let rs := visitGroups r.2 gs
    (r.1 :: rs.1, rs.2)

/-- Visiting one composition: its groups, then `Collapser.__call__` on the `Composition`,
camkes/parser/stage5.py:45-49. -/
def visitComposition (counter : Nat) (c : Composition) : Composition × Nat :=
  let r := visitGroups counter c.groups
  (⟨c.instances ++ (r.1.flatMap fun g => g.instances), []⟩, r.2)

/-- The state of the traversal: all compositions of the AST (by identity) and the counter. -/
structure State where
  comps : Nat → Composition
  counter : Nat

/-- Visiting the composition with identity `k`. -/
def visit (s : State) (k : Nat) : State :=
  let r := visitComposition s.counter (s.comps k)
  ⟨fun j => if j = k then r.1 else s.comps j, r.2⟩

/-- `collapse_groups`, camkes/parser/stage5.py:40-64. `order` is the sequence in which
compositions are reached by the traversal. A composition is reached once from its own
component or assembly and again from every instance whose type (transitively) leads to it,
so `order` may repeat; instances, settings and other nodes are left alone. -/
def collapse (comps : Nat → Composition) (order : List Nat) : State :=
  order.foldl visit ⟨comps, 0⟩

end Verif.Groups
