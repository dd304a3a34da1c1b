import Verif.CakeFfi.Model

/-!
# Specification: files, arguments and the start of a component in CakeML
-/

namespace Verif.CakeFfi

open Marshal (Byte)

/-- The number that bytes stand for, the highest byte first. -/
def number : List Byte → Nat
  | [] => 0
  | b :: bs => b.toNat * 256 ^ bs.length + number bs

/-- What a descriptor of a file is. -/
def Descriptor (fd : Int) : Prop := 0 ≤ fd ∧ fd < 2 ^ 31

/-- The eight bytes are a handle of the file. -/
def Handle (h : List Byte) (fd : Int) : Prop := h.length = 8 ∧ (number h : Int) = fd

end Verif.CakeFfi
