import Verif.Labels.Model
import Mathlib.Logic.Relation

namespace Verif.Labels.Spec

/-- The label that an instance is put under: the configured one, or that of its group. -/
def Assigned (is : List Inst) (c l : String) : Prop :=
  ∃ i ∈ is, i.name = c ∧ (i.label = some l ∨ (i.addressSpace ≠ i.name ∧ i.addressSpace = l))

/-- Following the assignments from `c` ends at `l`. -/
def Canonical (is : List Inst) (c l : String) : Prop :=
  Relation.ReflTransGen (Assigned is) c l ∧ ∀ m, ¬ Assigned is l m

/-- Some label is put under itself, directly or indirectly. -/
def Cyclic (is : List Inst) : Prop := ∃ c, Relation.TransGen (Assigned is) c c

/-- The connection is internal to the label: it has ends, and all of them have this label. -/
def Internal (is : List Inst) (c : Conn) (l : String) : Prop := c.ends ≠ [] ∧ ∀ e ∈ c.ends, Canonical is e l

end Verif.Labels.Spec
