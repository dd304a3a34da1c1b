import Verif.BootFrames.Model

/-!
# Specification: boot information (C93)
-/

namespace Verif.BootFrames

/-- What the loader has for a type that was asked for. -/
def Provided (xs : Extra) (type : Nat) (piece : Option (List Nat)) : Prop := (type, piece) ∈ xs

/-- The list says the same of a type that it has twice: there is one loader. -/
def OneLoader (xs : Extra) : Prop := ∀ t p q, (t, p) ∈ xs → (t, q) ∈ xs → p = q

end Verif.BootFrames
