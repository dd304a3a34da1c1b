import Mathlib.Data.Nat.Log

/-! # Sizes of CNodes

tools/cnode-size-playground.c: two programs compute the size of a CNode from the last slot in use, the one that writes the
CapDL specification (python-capdl) and the one that the specification is checked with (l4v). The tool compares them. -/

namespace Verif.CNodeSize

/-- `calculate_cnode_size`, tools/cnode-size-playground.c:36-44. The logarithm is taken to be exact; `floor` of it is the
logarithm of natural numbers. -/
def calculate (maxSlot : Nat) : Nat :=
  let s := if maxSlot < 2 then 2 else maxSlot
  Nat.log 2 s + 1

/-- The loop of `cnode_size_bits`, tools/cnode-size-playground.c:53-56: `n` rounds from `i` on; `none` is -1. -/
def loop (s : Nat) : Nat → Nat → Option Nat
  | 0, _ => none
  | n + 1, i => if 2 ^ i > s then some i else loop s n (i + 1)

/-- `cnode_size_bits`, tools/cnode-size-playground.c:49-57. -/
def sizeBits (maxSlot : Nat) : Option Nat :=
  let s := if maxSlot < 3 then 3 else maxSlot
  loop s 29 0

/-- The loop of `main`, tools/cnode-size-playground.c:60-70, `n` rounds from `i` on: what it returns; `none` is 0,
otherwise the slot it failed for. -/
def compare : Nat → Nat → Option Nat
  | 0, _ => none
  | n + 1, i => if sizeBits i = some (calculate i) then compare n (i + 1) else some i

/-- `main`, tools/cnode-size-playground.c:59-72. -/
def main : Option Nat := compare (2 ^ 28 - 1) 0

end Verif.CNodeSize
