import Verif.IrqEvents.Model

/-!
# Specification: events of an IOAPIC interrupt (C81)
-/

namespace Verif.IrqEvents

/-- How often something happened. -/
def count (p : Event → Bool) (es : List Event) : Nat := (es.filter p).length

/-- The callback of this registration is called. -/
def isCall (id : Nat) : Event → Bool
  | .called k _ => k == id
  | _ => false

/-- A callback is called. -/
def isCalled : Event → Bool
  | .called _ _ => true
  | _ => false

/-- A thread gets an event. -/
def isTaken : Event → Bool
  | .taken _ => true
  | _ => false

/-- The interrupt's thread wakes up. -/
def isRan : Event → Bool
  | .ran => true
  | _ => false

/-- No callbacks are registered in this step. -/
def NoRegistration : Step → Prop
  | .register _ => False
  | _ => True

/-- Only the device, the interrupt's thread and this thread, which is in `wait`, do something. -/
def Alone (t : Nat) : Step → Prop
  | .raise => True
  | .run => True
  | .go u => u = t
  | _ => False

/-- The next step does not disturb a registration: the interrupt's thread does not take a callback whose argument is not stored
yet, and no callback is put into the slot of a callback that is about to be called. -/
def CalmStep (s : State) : Step → Prop
  | .run => ∀ i h id, s.run = .scan i h → s.slots i = some id → ∀ t, s.threads t ≠ .arg i id
  | .go t => ∀ i id, s.threads t = .slot i id → s.slots i = none → ∀ k, s.run ≠ .call i k
  | _ => True

/-- No step does. -/
def Calm : State → List Step → Prop
  | _, [] => True
  | s, x :: xs => CalmStep s x ∧ Calm (step s x).1 xs

end Verif.IrqEvents
