import Verif.VqAlloc.Model

/-!
# Specification: virtqueue buffers (C53)
-/

namespace Verif.VqAlloc

/-- The buffers that are allocated and not freed. -/
def live : List Event → List Nat
  | [] => []
  | .allocated p :: es => p :: live es
  | .refused _ :: es => live es
  | .freed p :: es => (live es).erase p

/-- Only buffers that are allocated are freed. -/
def Legal : List Event → Prop
  | [] => True
  | .freed p :: es => p ∈ live es ∧ Legal es
  | _ :: es => Legal es

/-- A block of the memory of an allocator that was set up with `base`, `len` and `bs`. -/
def Block (base len bs p : Nat) : Prop := ∃ i, p = base + bs * i ∧ p + bs ≤ base + len

/-- The pool fits in the address space, and its blocks can be counted by an `int`. -/
def Fits (m : Machine) (base len bs : Nat) : Prop := 0 < bs ∧ base + len ≤ m.W ∧ 2 * (len / bs) < m.U

end Verif.VqAlloc
