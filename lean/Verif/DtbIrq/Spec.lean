import Verif.DtbIrq.Model

/-! # What should happen to the interrupts of a device -/

namespace Verif.DtbIrq

/-- Numbers are distinct, and each interrupt has exactly one handler. -/
structure Served (c : Cfg) : Prop where
  distinct : ∀ i < c.n, ∀ j < c.n, c.num i = c.num j → i = j
  one : ∀ i < c.n, (c.handle = true ∧ c.cb i = none) ∨ (c.handle = false ∧ c.cb i ≠ none)

/-- The handler of the interrupt is called, with the number of this interrupt. -/
def want (c : Cfg) (i : Nat) : Event := .called i (c.cb i) (c.num i)

/-- After each time that the interrupt is raised, its handler is called. -/
def Followed (c : Cfg) (i : Nat) (events : List Event) : Prop :=
  ∀ a b, events = a ++ .raised i :: b → want c i ∈ b

/-- The thread waits, and there is nothing to do. -/
def Quiet (s : State) : Prop := s.pc = .wait ∧ s.ntfn = 0

/-- The handlers acknowledge before they return. -/
def Prompt : Step → Prop
  | .raise _ => True
  | .run now => now = true
  | .ack => True

end Verif.DtbIrq
