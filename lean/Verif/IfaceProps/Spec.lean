import Verif.IfaceProps.Model

/-! # What registering with properties should do -/

namespace Verif.IfaceProps

/-- All memory that is asked for is there. -/
def Plenty (a : Alloc) : Prop := a.outer = true ∧ a.node = true ∧ a.array = true ∧ ∀ i, a.string i = true

/-- An array of strings in memory: as many addresses as strings, none of them NULL, and the first string
does not lie at the very end of memory. -/
structure Proper (word : Nat) (c : Caller) : Prop where
  same : c.addrs.length = c.strings.length
  nonnull : ∀ p ∈ c.addrs, 0 < p
  room : ∀ p ∈ c.addrs, p + c.addrs.length < word

/-- Copies are put at addresses of memory, not one byte apart and not at its end. -/
structure Placed (word : Nat) (a : Alloc) : Prop where
  nonnull : ∀ i, 0 < a.addr i
  room : ∀ i, a.addr i + 1 < word
  apart : ∀ i j, a.addr i + 1 ≠ a.addr j

/-- Wanted: with enough memory, an interface is registered with its properties, and later searches are
given these. -/
def Registers (word : Nat) (a : Alloc) (inst : Nat) (c : Caller) : Prop :=
  (register word a inst false (some c)).out = .ok ∧ (register word a inst false (some c)).given = some c.strings

/-- Wanted: a registration that is refused leaves no memory allocated. -/
def CleansUp (e : End) : Prop := e.out ≠ .ok → e.live = []

end Verif.IfaceProps
