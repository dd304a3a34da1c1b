import Verif.GdbMem.Model

/-!
# Specification: memory in the debugger (C75)

The remote serial protocol: addresses, lengths and (for `m` and `M`) bytes are hexadecimal numbers.
-/

namespace Verif.GdbMem

/-- `0123456789abcdef` -/
def lowerDigits : List Nat := [48, 49, 50, 51, 52, 53, 54, 55, 56, 57, 97, 98, 99, 100, 101, 102]

/-- How a number with these digits is written. -/
def text (ds : List Nat) : List Nat := ds.map fun d => lowerDigits.getD d 0

/-- The number with these digits, the first one first. -/
def number (base : Nat) (ds : List Nat) : Nat := ds.foldl (fun n d => base * n + d) 0

/-- Digits of a number. -/
structure Digits (ds : List Nat) : Prop where
  some_digit : ds ≠ []
  small : ∀ d ∈ ds, d < 16

/-- Bytes, two digits each. -/
def hexBytes (bytes : List Nat) : List Nat := bytes.flatMap fun b => text [b / 16, b % 16]

/-- `m<address>,<length>` -/
def readCommand (as ns : List Nat) : List Nat := 109 :: text as ++ 44 :: text ns

/-- `M<address>,<length>:<bytes>` -/
def writeCommand (as ns bytes : List Nat) : List Nat := 77 :: text as ++ 44 :: text ns ++ 58 :: hexBytes bytes

/-- `X<address>,<length>:<bytes>`, the bytes as they are on the line -/
def binaryCommand (as ns raw : List Nat) : List Nat := 88 :: text as ++ 44 :: text ns ++ 58 :: raw

/-- The bytes in memory. -/
def Memory.bytes (m : Memory) (addr n : Nat) : List Nat := (List.range n).map fun i => m.byte (addr + i)

/-- All addresses of a range have a property. -/
def Range (p : Nat → Bool) (addr n : Nat) : Prop := ∀ i < n, p (addr + i) = true

/-- `m'` differs from `m` in the bytes from `addr` on, which are `bytes`. -/
def Stored (m m' : Memory) (addr : Nat) (bytes : List Nat) : Prop :=
  m'.bytes addr bytes.length = bytes ∧ (∀ x, x < addr ∨ addr + bytes.length ≤ x → m'.byte x = m.byte x) ∧
  m'.readable = m.readable ∧ m'.writable = m.writable

/-- What the digits say in base 10, up to the first letter. -/
def decimal (ns : List Nat) : Nat := number 10 (ns.takeWhile (· < 10))

end Verif.GdbMem
