/-!
# Model: composing several assemblies (camkes/parser/stage6.py)
-/

namespace Verif.Compose

/-- An assembly. Types of instances, connections, exports, settings and schedules are opaque.
`Assembly.__init__` (camkes/ast/objects.py:172-184) always provides a configuration and a
schedule, and stage 3 insists on a composition (camkes/parser/stage3.py:171-173). -/
structure Assembly (I C E S D : Type) where
  instances : List I
  connections : List C
  exports : List E
  settings : List S
  schedule : D
  deriving DecidableEq, Repr

/-- A top-level item. -/
inductive Item (I C E S D X : Type)
  | assembly (a : Assembly I C E S D)
  | other (x : X)
  deriving DecidableEq, Repr

inductive Err
  | parseError
  deriving DecidableEq, Repr

variable {I C E S D X : Type}

/-- One iteration of the loop at camkes/parser/stage6.py:55-62. -/
def absorb (acc a : Assembly I C E S D) : Assembly I C E S D :=
  { acc with
    instances := acc.instances ++ a.instances
    connections := acc.connections ++ a.connections
    settings := acc.settings ++ a.settings }

/-- The items after the first assembly: the list that `ast.filter` keeps of them
(stage6.py:69), and the assemblies the loop absorbs (stage6.py:55-56). -/
def dropAssemblies : List (Item I C E S D X) → List (Item I C E S D X)
  | [] => []
  | .assembly _ :: rest => dropAssemblies rest
  | .other x :: rest => .other x :: dropAssemblies rest

def assemblies : List (Item I C E S D X) → List (Assembly I C E S D)
  | [] => []
  | .assembly a :: rest => a :: assemblies rest
  | .other _ :: rest => assemblies rest

/-- `compose_assemblies`, camkes/parser/stage6.py:48-69. "The first assembly" is an object
identity in the code (`LiftedAST.assembly`, camkes/ast/liftedast.py:50-58); here it is the
first position. -/
def compose : List (Item I C E S D X) → Except Err (List (Item I C E S D X))
  | [] => .error .parseError
  | .other x :: rest =>
    match compose rest with
    | .error e => .error e
    | .ok r => .ok (.other x :: r)
  | .assembly a :: rest =>
    .ok (.assembly ((assemblies rest).foldl absorb a) :: dropAssemblies rest)

end Verif.Compose
