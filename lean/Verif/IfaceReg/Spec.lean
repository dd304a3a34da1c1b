import Verif.IfaceReg.Model

/-!
# Specification: registered instances (C51)
-/

namespace Verif.IfaceReg

/-- The instances of a type that are registered, the last one first: those whose registration succeeded
and that have not been unregistered since. -/
def registered (type : Nat) : List (Call × Ret) → List Nat
  | [] => []
  | (.register t i _ _, .ok) :: es => if t = type then i :: registered type es else registered type es
  | (.unregister t i, .ok) :: es => if t = type then (registered type es).erase i else registered type es
  | _ :: es => registered type es

/-- A registration of this type has succeeded at some time. -/
def Known (type : Nat) (es : List (Call × Ret)) : Prop := ∃ i m1 m2, (Call.register type i m1 m2, Ret.ok) ∈ es

/-- What C51 demands of a registration of an instance that is not null, when there is memory: it succeeds
exactly if the instance is not yet registered. -/
def RegistersDistinct (null : Nat) : Prop :=
  ∀ cs type inst, inst ≠ 0 →
    ((register null (run null [] [] cs).1 type inst true true).2 = .ok ↔ inst ∉ registered type (run null [] [] cs).2)

end Verif.IfaceReg
