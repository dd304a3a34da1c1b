import Verif.Scope.Model

/-!
# Model: resolving all references of a specification (camkes/parser/stage4.py, without forward references)

The traversal is `postorder` (camkes/ast/base.py:203-226), the context is the one of the model `Scope`. A specification is a
list of items, and so are the children of an object, over all its child fields in order.
-/

namespace Verif.Resolve

open Scope (Obj Frame Stack openScope closeScope register resolveRef)

/-- Items of child fields: one item and those behind it. -/
inductive Kids
  | nil
  /-- a field with `None` -/
  | unset (rest : Kids)
  /-- a `Reference` with its `name` and the name of its `type` -/
  | ref (path : List String) (type : String) (rest : Kids)
  /-- a field that held a reference and now holds the object that it refers to -/
  | link (o : Obj) (rest : Kids)
  /-- an object of this class, with its name, if it has one, and its children -/
  | node (uid : Nat) (kind : String) (name : Option String) (sub : Kids) (rest : Kids)

/-- The objects in the child fields of an object, as `within` sees them (camkes/parser/scope.py:149-158): of an instance those of
its type. A reference that is left is an object of the class `Reference`. -/
def members : Kids → List Obj
  | .nil => []
  | .unset rest => members rest
  | .ref _ _ rest => .mk 0 "Reference" none [] :: members rest
  | .link o rest => o :: members rest
  | .node u k n sub rest => .mk u k n (if k = "Instance" then (members sub).flatMap Obj.members else members sub) :: members rest

/-- An object, as scopes see it. -/
def objOf (uid : Nat) (kind : String) (name : Option String) (sub : Kids) : Obj :=
  .mk uid kind name (if kind = "Instance" then (members sub).flatMap Obj.members else members sub)

/-- Errors: those of scopes, and `unknown reference`. -/
inductive Err
  | scope (e : Scope.Err)
  | unknown (path : List String)
  deriving DecidableEq, Repr

/-- Is the object registered in the scope of assemblies? stage4.py:95-98. `gk` is the class of `obj.parent.parent`. -/
def isShared (gk kind : String) : Bool := (kind = "Instance" ∨ kind = "Group" ∨ kind = "Connection") ∧ gk = "Assembly"

/-- `postorder` with `Resolver.__call__`, stage4.py:53-105, 174-180, for the children of an object of the class `pk` whose parent has
the class `gk`: the children, the scopes and the scope of assemblies. `isa` is the relation between classes. The replacement of
a reference is not visited. -/
def post (isa : String → String → Bool) (gk pk : String) : Kids → Stack → Frame → Except Err (Kids × Stack × Frame)
  | .nil, s, a => .ok (.nil, s, a)
  | .unset rest, s, a =>
    match post isa gk pk rest s a with
    | .error e => .error e
    | .ok (r, s, a) => .ok (.unset r, s, a)
  | .link o rest, s, a =>
    match post isa gk pk rest s a with
    | .error e => .error e
    | .ok (r, s, a) => .ok (.link o r, s, a)
  | .ref path type rest, s, a =>
    -- a reference has no children; the scope that is opened for them is closed again
    match closeScope (openScope s) with
    | .error e => .error (.scope e)
    | .ok s =>
      match resolveRef (fun o => isa o.kind type) path s [a] with
      | .error e => .error (.scope e)
      | .ok none => .error (.unknown path)
      | .ok (some o) =>
        match post isa gk pk rest s a with
        | .error e => .error e
        | .ok (r, s, a) => .ok (.link o r, s, a)
  | .node u k n sub rest, s, a =>
    match post isa pk k sub (openScope s) a with
    | .error e => .error e
    | .ok (sub', s, a) =>
      match closeScope s with
      | .error e => .error (.scope e)
      | .ok s =>
        match register s (objOf u k n sub') with
        | .error e => .error (.scope e)
        | .ok s =>
          match (if isShared gk k then Scope.registerFrame a (objOf u k n sub') else .ok a) with
          | .error e => .error (.scope e)
          | .ok a =>
            match post isa gk pk rest s a with
            | .error e => .error e
            | .ok (r, s, a) => .ok (.node u k n sub' r, s, a)

/-- `resolve` for a whole specification, stage4.py:45, 174-180. The code opens one more scope, which stays empty, and registers the
specification itself at the end, which has no name. -/
def resolve (isa : String → String → Bool) (items : Kids) : Except Err Kids :=
  match post isa "" "LiftedAST" items (openScope []) [] with
  | .error e => .error e
  | .ok (r, _, _) => .ok r

end Verif.Resolve
