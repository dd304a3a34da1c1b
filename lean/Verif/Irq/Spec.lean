import Verif.Irq.Model

/-!
# Specification: interrupts (C52)
-/

namespace Verif.Irq

/-- The comment at irq.c:49-51: an interrupt without a trigger or a processor is the one with trigger and
processor zero. -/
def norm : Irq → Irq
  | .interrupt n => .perCpu n 0 0
  | .trigger n t => .perCpu n t 0
  | i => i

/-- Two descriptions of the same interrupt. -/
def Same (a b : Irq) : Prop := norm a = norm b ∧ a ≠ .none

/-- An interrupt has everything that a description says of it. -/
inductive Described : Irq → Irq → Prop
  | ioapic (i p l o v : Nat) : Described (.ioapic i p l o v) (.ioapic i p l o v)
  | msi (s d f h v : Nat) : Described (.msi s d f h v) (.msi s d f h v)
  | interrupt (a : Irq) (n t c : Nat) : norm a = .perCpu n t c → Described a (.interrupt n)
  | trigger (a : Irq) (n t c : Nat) : norm a = .perCpu n t c → Described a (.trigger n t)
  | perCpu (a : Irq) (n t c : Nat) : norm a = .perCpu n t c → Described a (.perCpu n t c)

/-- The callback that is registered with an id, as far as the caller knows. -/
def active (id : Nat) : List (Call × Ret) → Option Nat
  | [] => none
  | (.register _ cb, .id n) :: es => if n = id then some cb else active id es
  | (.unregister n, .id _) :: es => if n = id then none else active id es
  | _ :: es => active id es

/-- The table when the component starts: nothing is allocated, and handlers are different. -/
def Fresh (xs : List Entry) : Prop := (∀ x ∈ xs, x.allocated = false ∧ x.callback = none) ∧ (xs.map (·.handler)).Nodup

/-- All bits of a badge are set. -/
def BitsSet (badge registered : Nat) : Prop := ∀ k, registered.testBit k = true → badge.testBit k = true

end Verif.Irq
