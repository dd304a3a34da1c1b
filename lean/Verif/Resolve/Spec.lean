import Verif.Resolve.Model
import Verif.Scope.Spec

/-!
# Specification: what a reference in a specification refers to

A position is a path: the number of an item, then the number of an item in the children of that item, and so on.
-/

namespace Verif.Resolve

open Scope (Obj Frame Stack)

/-- What is at a position. -/
inductive Item
  | unset
  | ref (path : List String) (type : String)
  | link (o : Obj)
  | node (uid : Nat) (kind : String) (name : Option String)

/-- The item with this number. -/
def Kids.item : Kids → Nat → Option Item
  | .nil, _ => none
  | .unset _, 0 => some .unset
  | .ref p t _, 0 => some (.ref p t)
  | .link o _, 0 => some (.link o)
  | .node u k n _ _, 0 => some (.node u k n)
  | .unset r, j + 1 => r.item j
  | .ref _ _ r, j + 1 => r.item j
  | .link _ r, j + 1 => r.item j
  | .node _ _ _ _ r, j + 1 => r.item j

/-- The children of the item with this number. -/
def Kids.sub : Kids → Nat → Kids
  | .node _ _ _ s _, 0 => s
  | .unset r, j + 1 => r.sub j
  | .ref _ _ r, j + 1 => r.sub j
  | .link _ r, j + 1 => r.sub j
  | .node _ _ _ _ r, j + 1 => r.sub j
  | _, _ => .nil

/-- What is at a position. -/
def Kids.get : Kids → List Nat → Option Item
  | _, [] => none
  | k, [j] => k.item j
  | k, j :: p => (k.sub j).get p

/-- The named objects that are declared among the first `j` items. -/
def Kids.before : Kids → Nat → Frame
  | .nil, _ => []
  | _, 0 => []
  | .unset r, j + 1 => r.before j
  | .ref _ _ r, j + 1 => r.before j
  | .link _ r, j + 1 => r.before j
  | .node u k n s r, j + 1 => (if n = none then [] else [objOf u k n s]) ++ r.before j

/-- What can be seen from a position: at every level the objects that are declared before, the inner levels first. -/
def visible (outer : Stack) : List Nat → Kids → Stack
  | [], _ => outer
  | j :: p, kids => visible (kids.before j :: outer) p (kids.sub j)

/-- The instances, groups and connections that an assembly declares directly, in all the items; `gk` and `pk` are the classes of
the grandparent and the parent of the items. -/
def shared (gk pk : String) : Kids → Frame
  | .nil => []
  | .unset r => shared gk pk r
  | .ref _ _ r => shared gk pk r
  | .link _ r => shared gk pk r
  | .node u k n s r =>
    shared pk k s ++ (if gk = "Assembly" ∧ k ∈ ["Instance", "Group", "Connection"] ∧ n ≠ none then [objOf u k n s] else []) ++ shared gk pk r

/-- The first `j` items. -/
def Kids.take : Kids → Nat → Kids
  | .nil, _ => .nil
  | _, 0 => .nil
  | .unset r, j + 1 => .unset (r.take j)
  | .ref p t r, j + 1 => .ref p t (r.take j)
  | .link o r, j + 1 => .link o (r.take j)
  | .node u k n s r, j + 1 => .node u k n s (r.take j)

/-- The class of the item with this number. -/
def Kids.kind (k : Kids) (j : Nat) : String :=
  match k.item j with
  | some (.node _ k _) => k
  | _ => ""

/-- Those that are declared before a position, in this or another assembly. -/
def sharedBefore (gk pk : String) : List Nat → Kids → Frame
  | [], _ => []
  | j :: p, kids => shared gk pk (kids.take j) ++ sharedBefore pk (kids.kind j) p (kids.sub j)

/-- What a reference of one part refers to: the innermost declaration of a right class, or one of another assembly if there is
none. -/
def Means (isa : String → String → Bool) (vis : Stack) (assemblies : Frame) (n type : String) (o : Obj) : Prop :=
  Scope.Spec.Innermost (fun o => isa o.kind type) vis n o ∨
  ((∀ f ∈ vis, ∀ p ∈ f, ¬ (p.name = some n ∧ isa p.kind type = true)) ∧ o ∈ assemblies ∧ o.name = some n ∧ isa o.kind type = true)

/-- An assembly is at the top, its composition in it, and in that an instance, a group or a connection. -/
def Declared (items : Kids) (i c j : Nat) (u : Nat) (k n : String) : Prop :=
  (∃ v m, items.get [i] = some (.node v "Assembly" m)) ∧ (∃ v m, items.get [i, c] = some (.node v "Composition" m)) ∧
  items.get [i, c, j] = some (.node u k (some n)) ∧ k ∈ ["Instance", "Group", "Connection"]

/-- No reference is left in an object, however deep. -/
inductive Clean : Obj → Prop
  | mk (o : Obj) : o.kind ≠ "Reference" → (∀ m ∈ o.members, Clean m) → Clean o

/-- The objects in the tree are real ones, and references have names. -/
def Sane : Kids → Prop
  | .nil => True
  | .unset r => Sane r
  | .ref p _ r => p ≠ [] ∧ Sane r
  | .link o r => Clean o ∧ Sane r
  | .node _ k _ s r => k ≠ "Reference" ∧ Sane s ∧ Sane r

/-- No reference is in the tree. -/
def NoRefs : Kids → Prop
  | .nil => True
  | .unset r => NoRefs r
  | .ref _ _ _ => False
  | .link _ r => NoRefs r
  | .node _ _ _ s r => NoRefs s ∧ NoRefs r

end Verif.Resolve
