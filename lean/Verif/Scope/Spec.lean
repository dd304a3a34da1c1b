import Verif.Scope.Model

namespace Verif.Scope.Spec
open Verif.Scope

/-- `o` is declared in scope `f` under name `n` and is of a wanted kind. -/
def Declares (want : Obj → Bool) (f : Frame) (n : String) (o : Obj) : Prop :=
  o ∈ f ∧ o.name = some n ∧ want o = true

/-- `o` is what an unqualified reference `n` means: it is declared in some scope, and no scope
further in declares anything suitable. -/
def Innermost (want : Obj → Bool) (s : Stack) (n : String) (o : Obj) : Prop :=
  ∃ inner f outer, s = inner ++ f :: outer ∧ Declares want f n o ∧
    ∀ g ∈ inner, ∀ p, ¬ Declares want g n p

/-- Two objects that may not be declared under the same name in one scope: same class, where
groups and component instances count as one. -/
def SameKind (o p : Obj) : Prop :=
  o.kind = p.kind ∨
  ((o.kind = "Group" ∨ o.kind = "Instance") ∧ (p.kind = "Group" ∨ p.kind = "Instance"))

/-- Walking from an object through named members. -/
inductive Walk : Obj → List String → Obj → Prop
  | here (o) : Walk o [] o
  | step (o n p rest q) : p ∈ o.members → p.name = some n → Walk p rest q → Walk o (n :: rest) q

/-- A history that only touches scopes it opened itself. -/
inductive Balanced : List Op → Prop
  | nil : Balanced []
  | register (o h) : Balanced h → Balanced (.register o :: h)
  | nest (h k) : Balanced h → Balanced k → Balanced (.open_ :: h ++ .close :: k)

end Verif.Scope.Spec
