import Verif.CNodeSize.Model

/-! # The right size of a CNode -/

namespace Verif.CNodeSize

/-- The smallest size of at least two bits that has all slots up to the last one. -/
structure Right (maxSlot bits : Nat) : Prop where
  two : 2 ≤ bits
  fits : maxSlot < 2 ^ bits
  least : ∀ b, 2 ≤ b → maxSlot < 2 ^ b → bits ≤ b

end Verif.CNodeSize
