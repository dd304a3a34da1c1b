import Verif.DevMem.Model

/-!
# Specification for C86
-/

namespace Verif.DevMem.Spec

/-- The number that cells of 32 bits write, the most significant first. -/
def number (cells : List Nat) : Nat := cells.foldl (fun acc c => acc * 2 ^ 32 + c) 0

/-- The byte at virtual offset `off` is the byte at physical address `a`. -/
def Shows (fs : List Frame) (off a : Nat) : Prop :=
  ∃ f ∈ fs, f.offset ≤ off ∧ off < f.offset + f.size ∧ a = f.paddr + (off - f.offset)

/-- Frames can be mapped only at addresses that are multiples of their size. -/
def Mappable (fs : List Frame) : Prop := ∀ f ∈ fs, f.size ∣ f.paddr

/-- The least multiple of the page size that is not less than `n` and not zero. -/
def pages (p n : Nat) : Nat := p * max 1 ((n + p - 1) / p)

end Verif.DevMem.Spec
