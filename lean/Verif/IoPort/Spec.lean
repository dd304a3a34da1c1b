import Verif.IoPort.Model

/-!
# Specification: I/O ports of a device (C70)
-/

namespace Verif.IoPort

/-- The regions of a component: ports are 16 bits wide, no port is in two regions. -/
structure Proper (rs : List Region) : Prop where
  small : ∀ r ∈ rs, r.last < 2 ^ 16
  apart : ∀ r ∈ rs, ∀ q ∈ rs, ∀ p, r.first ≤ p → p ≤ r.last → q.first ≤ p → p ≤ q.last → r = q

/-- The kernel lets a capability be used for the ports of its region only. `device` is the hardware. -/
structure Kernel (e : Env) (device : Sys → Nat) : Prop where
  inside : ∀ r ∈ e.regions, ∀ s : Sys, s.cap = r.cap → r.first ≤ s.port → s.port + s.size ≤ r.last + 1 → e.kernel s = some (device s)
  outside : ∀ r ∈ e.regions, ∀ s : Sys, s.cap = r.cap → ¬ (r.first ≤ s.port ∧ s.port + s.size ≤ r.last + 1) → e.kernel s = none

/-- Widths that exist, in bytes. -/
def Width (size : Nat) : Prop := size = 1 ∨ size = 2 ∨ size = 4

end Verif.IoPort
