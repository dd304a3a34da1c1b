import Verif.CapAlloc.Model

/-!
# Specification: who has a capability (C49)

Only what a component can observe is used: the events, the last one first.
-/

namespace Verif.CapAlloc

/-- A capability is handed out: it was returned by an allocation and has not been freed since. -/
def HandedOut : List Event → Nat → Prop
  | [], _ => False
  | .allocated _ _ _ q :: es, p => (q = p ∧ p ≠ 0) ∨ HandedOut es p
  | .freed q :: es, p => q ≠ p ∧ HandedOut es p
  | _ :: es, p => HandedOut es p

/-- A capability that was provided is one that an allocation asks for. -/
def Fits (es : List Event) (p type size flags : Nat) : Prop :=
  ∃ s a, .provided type p s a ∈ es ∧ (size = 0 ∨ size = s) ∧ a &&& flags = flags

/-- The capabilities that were provided. -/
def providedPtrs : List Event → List Nat
  | [] => []
  | .provided _ p _ _ :: es => p :: providedPtrs es
  | _ :: es => providedPtrs es

/-- Capabilities are provided once, and they are not null. -/
def ProvidedOnce (es : List Event) : Prop := (providedPtrs es).Nodup ∧ 0 ∉ providedPtrs es

end Verif.CapAlloc
