import Verif.Drivers.Model

/-!
# Specification: initialising device drivers (C65)

No memory, no linked lists: who is called, and in which order.
-/

namespace Verif.Drivers

/-- The driver of a device: the first module, in the order of the modules, that has a string that is compatible; none
if a check fails before. -/
def chosen (e : Env) (p : Nat) : Option Nat :=
  match (e.mods.flatMap fun m => m.strings.map fun s => (m, s)).find? fun x => decide (e.check p x.2 ≤ 0) with
  | some (m, s) => if e.check p s = 0 then some m.id else none
  | none => none

/-- The devices with their drivers. -/
def devices (e : Env) (paths : List Nat) : List Token :=
  paths.filterMap fun p => if e.known p then (chosen e p).map fun m => ⟨p, m⟩ else none

/-- One round: every driver of the list is called once; the result is who has deferred, and what has happened. -/
def round (e : Env) : List Token → Trace → List Token × Trace
  | [], tr => ([], tr)
  | t :: ts, tr =>
    let r := e.ret tr t
    let out := round e ts (⟨t, r⟩ :: tr)
    (if r = e.DEFER then t :: out.1 else out.1, out.2)

/-- Rounds until nobody defers. -/
def rounds (e : Env) : Nat → List Token → Trace → Option Trace
  | _, [], tr => some tr
  | 0, _ :: _, _ => none
  | k + 1, ts, tr => rounds e k (round e ts tr).1 (round e ts tr).2

/-- The allocator never fails. -/
def Enough (e : Env) : Prop := ∀ tr, e.token tr = true ∧ e.node tr = true

/-- How often a driver has given a final answer for a device. -/
def answers (e : Env) (tr : Trace) (t : Token) : Nat := tr.countP fun x => decide (x.token = t ∧ x.ret ≠ e.DEFER)

end Verif.Drivers
