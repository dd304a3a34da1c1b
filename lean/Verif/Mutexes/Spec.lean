import Verif.Mutexes.Model
import Verif.CapAlloc.Spec

/-!
# Specification: mutexes made at run time (C72)

Only the events are used, the last one first.
-/

namespace Verif.Mutexes

/-- The mutex at an address is there, with this notification: it was made and has not been freed since. -/
def HasMutex : List Event → Nat → Nat → Prop
  | [], _, _ => False
  | .made a k :: es, addr, cap => (a = addr ∧ k = cap) ∨ HasMutex es addr cap
  | .freed a k :: es, addr, cap => ¬ (a = addr ∧ k = cap) ∧ HasMutex es addr cap
  | _ :: es, addr, cap => HasMutex es addr cap

/-- The calls of the allocator. -/
def capEvents : List Event → List CapAlloc.Event
  | [] => []
  | .cap e :: es => e :: capEvents es
  | _ :: es => capEvents es

end Verif.Mutexes
