/-!
# Model: AST traversal (camkes/ast/base.py:169-226, camkes/ast/liftedast.py:66-79)

A tree is the unfolding of an AST through its child fields. A child field that is unset holds
`None`, and the traversals call the action on it too. A shared node appears once for each way of
reaching it; the in-place update of a shared node through its other parents is not modelled.
-/

namespace Verif.Traversal

mutual
inductive Tree
  | node (id : Nat) (kids : Kids)

/-- The items of all child fields of a node, in order. -/
inductive Kids
  | nil
  | unset (rest : Kids)
  | cons (t : Tree) (rest : Kids)
end

def Tree.id : Tree → Nat
  | .node i _ => i

def Tree.kids : Tree → Kids
  | .node _ k => k

/-- A traversal action with its state: called with an item (or `None`), it returns the same
object (`none`) or a replacement. -/
abbrev Action (S : Type) := S → Option Tree → S × Option (Option Tree)

/-- Put an item into a child list. -/
def putItem : Option Tree → Kids → Kids
  | none, rest => .unset rest
  | some t, rest => .cons t rest

variable {S : Type}

mutual
/-- `postorder`, camkes/ast/base.py:203-226. `enter` and `exit` are the effects of the context
manager on the state. -/
def post (act : Action S) (enter exit : S → S) : Tree → S → Tree × S
  | .node i k, s =>
    let r := postKids act enter exit k s
    (.node i r.1, r.2)

def postKids (act : Action S) (enter exit : S → S) : Kids → S → Kids × S
  | .nil, s => (.nil, s)
  | .unset rest, s =>
    let a := act s none
    let r := postKids act enter exit rest a.1
    (putItem (a.2.getD none) r.1, r.2)
  | .cons t rest, s =>
    let p := post act enter exit t (enter s)
    let a := act (exit p.2) (some p.1)
    let r := postKids act enter exit rest a.1
    (putItem (a.2.getD (some p.1)) r.1, r.2)
end

mutual
/-- `preorder`, camkes/ast/base.py:169-201: the children of a replaced item are not visited. -/
def pre (act : Action S) (enter exit : S → S) : Tree → S → Tree × S
  | .node i k, s =>
    let r := preKids act enter exit k s
    (.node i r.1, r.2)

def preKids (act : Action S) (enter exit : S → S) : Kids → S → Kids × S
  | .nil, s => (.nil, s)
  | .unset rest, s =>
    let a := act s none
    let r := preKids act enter exit rest a.1
    (putItem (a.2.getD none) r.1, r.2)
  | .cons t rest, s =>
    let a := act s (some t)
    match a.2 with
    | none =>
      let p := pre act enter exit t (enter a.1)
      let r := preKids act enter exit rest (exit p.2)
      (.cons p.1 r.1, r.2)
    | some repl =>
      let r := preKids act enter exit rest a.1
      (putItem repl r.1, r.2)
end

/-- The action `Collector`, camkes/ast/liftedast.py:72-79. -/
def collector : Action (List (Option Tree)) := fun s x => (s ++ [x], none)

/-- Iterating a lifted AST, camkes/ast/liftedast.py:66-69. -/
def iter (t : Tree) : List (Option Tree) := (post collector id id t []).2

end Verif.Traversal
