import Verif.Errors.Model

/-!
# Specification: error handlers of a component (C71)

Only the calls are used, the last one first.
-/

namespace Verif.Errors

/-- The last handler that was registered for an interface. -/
def lastFor (i : Nat) : List Call → Option Nat
  | [] => none
  | .registerFor j h :: cs => if j = i then some h else lastFor i cs
  | _ :: cs => lastFor i cs

/-- The last handler that was registered for the component. -/
def lastCommon : List Call → Option Nat
  | [] => none
  | .register h :: cs => some h
  | _ :: cs => lastCommon cs

/-- The handler that must be told about an error of an interface: its own one, otherwise the one of the component,
otherwise the default. -/
def Responsible (cs : List Call) (i h : Nat) : Prop :=
  (lastFor i cs = some h ∧ h ≠ 0) ∨ ((lastFor i cs = none ∨ lastFor i cs = some 0) ∧ (lastCommon cs = some h ∨ (lastCommon cs = none ∧ h = 1)))

end Verif.Errors
