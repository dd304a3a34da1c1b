import Verif.Acyclic.Model

namespace Verif.Acyclic.Spec
open Verif.Acyclic

/-- Transitive closure. -/
inductive Plus {α : Type} (r : α → α → Prop) : α → α → Prop
  | one (a b) : r a b → Plus r a b
  | step (a b c) : r a b → Plus r b c → Plus r a c

/-- Component `c` directly contains an instance of component `d`, in a group or not. -/
def Contains (sp : Specification) (c d : Nat) : Prop :=
  d ∈ (sp.comp c).instances ∨ ∃ g ∈ (sp.comp c).groups, d ∈ g

/-- Struct `s` has a field of struct type `t`. -/
def HasField (sp : Specification) (s t : Nat) : Prop := some t ∈ sp.struct s

/-- All references point to declared things (guaranteed by reference resolution). -/
def Closed (sp : Specification) : Prop :=
  (∀ c d, Contains sp c d → d < sp.comps.length) ∧
  (∀ s t, HasField sp s t → t < sp.structs.length) ∧
  (∀ c s, some s ∈ (sp.comp c).attrs → s < sp.structs.length)

end Verif.Acyclic.Spec
