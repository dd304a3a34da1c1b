import Verif.Notification.Model

/-!
# Specification: what a user of an event connector relies on (C46)
-/

namespace Verif.Notification

/-- How many events have arrived, and how many have been used up: by a poll, a wait, a callback, or by
being dropped. -/
def arrived (tr : List Event) : Nat := tr.countP (fun e => match e with | .received => true | _ => false)
def dropped (tr : List Event) : Nat := tr.countP (fun e => match e with | .dropped => true | _ => false)
def consumed (tr : List Event) : Nat :=
  tr.countP (fun e => match e with | .polled | .waited | .called _ _ | .direct _ _ => true | _ => false)

/-- The callbacks that were put into the slot, and those that the event thread called, in order, each
with its argument. -/
def registrations (tr : List Event) : List (Nat × Nat) :=
  tr.filterMap (fun e => match e with | .registered cb arg => some (cb, arg) | _ => none)
def calls (tr : List Event) : List (Nat × Nat) :=
  tr.filterMap (fun e => match e with | .called cb arg => some (cb, arg) | _ => none)

/-- Inside the lock: the stretches of code between `lock()` and `unlock()`. -/
def RunPc.inside : RunPc → Bool
  | .waiting | .locking | .calling _ _ => false
  | _ => true
def AppPc.inside : AppPc → Bool
  | .idle | .blocked | .regLock _ _ | .calling _ _ => false
  | _ => true

/-- How many threads are inside the lock. -/
def State.inside (s : State) : Nat := (if s.run.inside then 1 else 0) + s.apps.countP AppPc.inside

/-- Nobody is in the middle of anything: the event thread waits for an event and every other thread is
outside or blocked in `wait`. -/
def State.Quiescent (s : State) : Prop := s.run = .waiting ∧ ∀ a ∈ s.apps, a = .idle ∨ a = .blocked

end Verif.Notification
