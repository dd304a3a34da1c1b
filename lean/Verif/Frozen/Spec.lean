import Verif.Frozen.Model

namespace Verif.Frozen.Spec
open Verif.Frozen

/-- The field `f` of an object has the value `v`. -/
def FieldIs (x : Obj) (f : String) (v : FVal) : Prop :=
  ∃ pre post, x.fields = pre ++ (f, v) :: post ∧ ∀ p ∈ pre, p.1 ≠ f

/-- `c` is in a child field of the object: it is the value of the field, or in the sequence. -/
def Holds (x : Obj) (c : Id) : Prop :=
  ∃ f ∈ x.childFields, FieldIs x f (.child (some c)) ∨ ∃ t l, FieldIs x f (.seq t l) ∧ c ∈ l

/-- `d` is reachable from `o` through child fields. -/
inductive Descendant (h : Heap) : Id → Id → Prop
  | child (o c) : Holds (h o) c → Descendant h o c
  | trans (o c d) : Descendant h o c → Holds (h c) d → Descendant h o d

/-- The operation is an attribute assignment (or a freeze), not an in-place change of a list. -/
def Op.IsAssignment : Op → Prop
  | .append _ _ _ => False
  | _ => True

/-- No field of the object holds a (mutable) list. -/
def NoLists (x : Obj) : Prop := ∀ f l, ¬ FieldIs x f (.seq false l)

end Verif.Frozen.Spec
