import Verif.GdbPacket.Model

/-!
# Specification: packets of the debugger (C74)

The remote serial protocol: a packet is `$`, the data, `#` and two hexadecimal digits for the sum of the data modulo 256.
The data contain neither `$` nor `#`.
-/

namespace Verif.GdbPacket

/-- A packet on the line. -/
def frame (data : List Nat) (c1 c2 : Nat) : List Nat := 36 :: data ++ [35, c1, c2]

/-- Data that need no escape. -/
def Plain (data : List Nat) : Prop := 36 ∉ data ∧ 35 ∉ data

instance (data : List Nat) : Decidable (Plain data) := inferInstanceAs (Decidable (_ ∧ _))

/-- `0123456789abcdef`, and in upper case. -/
def lowerDigits : List Nat := [48, 49, 50, 51, 52, 53, 54, 55, 56, 57, 97, 98, 99, 100, 101, 102]
def upperDigits : List Nat := [48, 49, 50, 51, 52, 53, 54, 55, 56, 57, 65, 66, 67, 68, 69, 70]

/-- `c` is a digit with the value `d`. -/
def Digit (d c : Nat) : Prop := lowerDigits[d]? = some c ∨ upperDigits[d]? = some c

/-- The two digits say the number `v`. -/
def Says (c1 c2 v : Nat) : Prop := ∃ a b, Digit a c1 ∧ Digit b c2 ∧ v = 16 * a + b

/-- The sum in a packet. -/
def sumOf (data : List Nat) : Nat := data.sum % 256

end Verif.GdbPacket
