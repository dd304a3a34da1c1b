import Verif.HwIrq.Model

/-!
# Specification: the thread of a hardware interrupt (C79)
-/

namespace Verif.HwIrq

/-- A registration that nothing interrupts. -/
def registration (fn data : Nat) : List Step := [.register fn data, .drv, .drv, .drv]

/-- Steps that do not register or unregister. -/
def Ordinary : Step → Prop
  | .raise => True
  | .run => True
  | .ack => True
  | _ => False

/-- Nothing is left to do: the thread waits, and all handlers that were called have acknowledged. -/
def Quiet (s : State) : Prop := s.pc = .wait ∧ s.ntfn = false ∧ s.owed = 0

/-- After every interrupt of the device there is such an event. -/
def Followed (e : Event) (events : List Event) : Prop := ∀ a b, events = a ++ .raised :: b → e ∈ b

end Verif.HwIrq
