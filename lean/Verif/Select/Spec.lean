import Verif.Select.Model

/-!
# Specification: waiting for sockets (C67)
-/

namespace Verif.Select

/-- The sockets of a set of descriptors. -/
def Sockets (sock : Nat → Option Nat) (fds : FdSet) (s : Nat) : Prop := ∃ i, fds i = true ∧ sock i = some s

/-- The set asks for sockets only, below `nfds`. -/
def Asks (sock : Nat → Option Nat) (first nfds : Nat) (fds : FdSet) : Prop := ∀ i, fds i = true → first ≤ i ∧ i < nfds ∧ sock i ≠ none

/-- The server answers only about sockets that it was asked about. -/
def Within (answer question : FdSet) : Prop := ∀ s, answer s = true → question s = true

/-- The numbers of sockets are not numbers of descriptors, and no two descriptors have the same socket. -/
structure Separate (sock : Nat → Option Nat) (first nfds : Nat) : Prop where
  outside : ∀ i s, first ≤ i → i < nfds → sock i = some s → s < first ∨ nfds ≤ s
  inj : ∀ i j s, first ≤ i → i < nfds → first ≤ j → j < nfds → sock i = some s → sock j = some s → i = j

end Verif.Select
