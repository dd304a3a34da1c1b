import Verif.Forward.Model
import Verif.Scope.Spec
import Verif.Acyclic.Spec

/-!
# Specification: what references mean when they may go forward

A position is a path: the number of an item, then the number of an item in the children of that item, and so on.
-/

namespace Verif.Forward

open Scope (Obj Frame Stack)

/-- What is at a position. -/
inductive Item
  | unset
  | ref (path : List String) (type : String)
  | node (uid : Nat) (kind : String) (name : Option String)
  deriving DecidableEq

/-- The item with this number. -/
def Tree.item : Tree → Nat → Option Item
  | .nil, _ => none
  | .unset _, 0 => some .unset
  | .ref p t _, 0 => some (.ref p t)
  | .node u k n _ _, 0 => some (.node u k n)
  | .unset r, j + 1 => r.item j
  | .ref _ _ r, j + 1 => r.item j
  | .node _ _ _ _ r, j + 1 => r.item j

/-- The children of the item with this number. -/
def Tree.sub : Tree → Nat → Tree
  | .node _ _ _ s _, 0 => s
  | .unset r, j + 1 => r.sub j
  | .ref _ _ r, j + 1 => r.sub j
  | .node _ _ _ _ r, j + 1 => r.sub j
  | _, _ => .nil

/-- The number of the object that is the item with this number. -/
def Tree.uid (t : Tree) (j : Nat) : Nat :=
  match t.item j with
  | some (.node u _ _) => u
  | _ => 0

/-- What is at a position. -/
def Tree.get : Tree → List Nat → Option Item
  | _, [] => none
  | k, [j] => k.item j
  | k, j :: p => (k.sub j).get p

/-- The object that a position belongs to, and which item of it the position is; `u` has the items `t`. -/
def place (u : Nat) : List Nat → Tree → Nat × Nat
  | [], _ => (u, 0)
  | [j], _ => (u, j)
  | j :: p, t => place (t.uid j) p (t.sub j)

/-- The numbers of all objects. -/
def uids : Tree → List Nat
  | .nil => []
  | .unset r => uids r
  | .ref _ _ r => uids r
  | .node u _ _ s r => u :: (uids s ++ uids r)

/-- Different objects have different numbers, and none has the number of the specification. -/
def Distinct (t : Tree) : Prop := (0 :: uids t).Nodup

/-- The class of an object is not `Reference`. -/
def Sane : Tree → Prop
  | .nil => True
  | .unset r => Sane r
  | .ref _ _ r => Sane r
  | .node _ k _ s r => k ≠ "Reference" ∧ Sane s ∧ Sane r

/-- The named objects that are declared here. -/
def named : Tree → Frame
  | .nil => []
  | .unset r => named r
  | .ref _ _ r => named r
  | .node u k n _ r => (if n = none then [] else [.mk u k n []]) ++ named r

/-- What can be seen from a position: at every level all that is declared, before it or after it, the inner levels first. -/
def visible (outer : Stack) : List Nat → Tree → Stack
  | [], _ => outer
  | j :: p, t => visible (named t :: outer) p (t.sub j)

/-- The object `o` is item `i` of the object `u`, there from the beginning or by reference. -/
def Field (t : Tree) (l : Links) (u i : Nat) (o : Obj) : Prop :=
  ∃ p, p ≠ [] ∧ place 0 p t = (u, i) ∧ ((t.get p = some (.node o.uid o.kind o.name) ∧ o.members = []) ∨
    ((∃ path type, t.get p = some (.ref path type)) ∧ l.lookup (u, i) = some o))

/-- `o` is a child of `u`. -/
def Child (t : Tree) (l : Links) (u : Nat) (o : Obj) : Prop := ∃ i, Field t l u i o

/-- `p` can be reached from `o` with a dot: it is a child of `o`, or of its type if `o` is an instance. -/
def Inside (t : Tree) (l : Links) (o p : Obj) : Prop :=
  if o.kind = "Instance" then ∃ type, Field t l o.uid 0 type ∧ Child t l type.uid p else Child t l o.uid p

/-- Following names from an object. -/
inductive Walk (t : Tree) (l : Links) : Obj → List String → Obj → Prop
  | here (o) : Walk t l o [] o
  | step (o n p rest q) : Inside t l o p → p.name = some n → Walk t l p rest q → Walk t l o (n :: rest) q

/-- `o` is declared in the composition of an assembly. -/
def Shared (t : Tree) (l : Links) (o : Obj) : Prop :=
  ∃ i a n c, t.get [i] = some (.node a "Assembly" n) ∧ Field t l a 0 c ∧ Child t l c.uid o

/-- `u` has the child `v`. -/
def Holds (t : Tree) (l : Links) (u v : Nat) : Prop := ∃ o, Child t l u o ∧ o.uid = v

/-- What a reference with one name means: the innermost visible declaration of a right class; if there is none, one of a composition
that an assembly has inline; and if there is none either, one of a composition of any assembly. -/
def Means (isa : String → String → Bool) (t : Tree) (l : Links) (vis : Stack) (n type : String) (o : Obj) : Prop :=
  Scope.Spec.Innermost (fun o => isa o.kind type) vis n o ∨
  ((∀ f ∈ vis, ∀ p ∈ f, ¬ (p.name = some n ∧ isa p.kind type = true)) ∧ o.name = some n ∧ isa o.kind type = true ∧
    (Shared t [] o ∨
     ((∀ p, Shared t [] p → ¬ (p.name = some n ∧ isa p.kind type = true)) ∧ (type = "Instance" ∨ type = "Interface") ∧ Shared t l o)))

/-- The position is the instance or the interface of an end of a connection of an assembly. -/
def OfEnd (t : Tree) (l : Links) (p : List Nat) : Prop :=
  ∃ c o i, Shared t l c ∧ c.kind = "Connection" ∧ Child t l c.uid o ∧ o.kind = "ConnectionEnd" ∧ place 0 p t = (o.uid, i) ∧ i < 2

/-- References that are replaced are replaced by something of a right class that their names lead to, and all but those to instances and
interfaces are replaced. -/
def Right (isa : String → String → Bool) (t : Tree) (l : Links) : Prop :=
  (∀ p n path type o, t.get p = some (.ref (n :: path) type) → l.lookup (place 0 p t) = some o →
    isa o.kind type = true ∧ ∃ c, c.name = some n ∧ Walk t l c path o ∧ ((∃ f ∈ visible [] p t, c ∈ f) ∨ Shared t l c)) ∧
  ∀ p path type, t.get p = some (.ref path type) → type ≠ "Instance" → type ≠ "Interface" → ∃ o, l.lookup (place 0 p t) = some o

end Verif.Forward
