import Verif.UntypedAddr.Model

/-! # What a component should be told about its memory -/

namespace Verif.UntypedAddr

/-- Before: nothing has been made in the memories of the component, their sizes are as the template says, and the
slot is empty. -/
structure Fresh (g : Verif.Simple.Gen) (w : World) : Prop where
  slot : w.slot = none
  children : ∀ u ∈ g.untypeds, w.children u.1 = 0
  bits : ∀ u ∈ g.untypeds, w.bits u.1 = u.2

/-- The memories are where they were, no more and no less is free in each, and the slot is as it was. -/
structure Same (w w' : World) : Prop where
  slot : w'.slot = w.slot
  base : w'.base = w.base
  bits : w'.bits = w.bits
  children : w'.children = w.children
  free : ∀ u, w'.free u = w.free u

end Verif.UntypedAddr
