import Verif.Macros.Model

namespace Verif.Macros.Spec

/-- The least multiple of `y` that is not below `x`. -/
def IsRoundUp (x y r : Int) : Prop := y ∣ r ∧ x ≤ r ∧ ∀ m, y ∣ m → x ≤ m → r ≤ m

/-- The greatest multiple of `y` that is not above `x`. -/
def IsRoundDown (x y r : Int) : Prop := y ∣ r ∧ r ≤ x ∧ ∀ m, y ∣ m → m ≤ x → m ≤ r

/-- Number of trailing zero bits of positive numbers. -/
def IsCtz (ctz : Nat → Nat) : Prop := ∀ n, 0 < n → 2 ^ ctz n ∣ n ∧ ¬ 2 ^ (ctz n + 1) ∣ n

/-- The byte belongs to the block of `2^bits` bytes. -/
def InBlock (b : Nat × Nat) (byte : Nat) : Prop := b.1 ≤ byte ∧ byte < b.1 + 2 ^ b.2

/-- The blocks are naturally aligned, ascending and disjoint, and make up exactly the range. -/
structure Tiles (start size : Nat) (blocks : List (Nat × Nat)) : Prop where
  aligned : ∀ b ∈ blocks, 2 ^ b.2 ∣ b.1
  ascending : blocks.Pairwise (fun a b => a.1 + 2 ^ a.2 ≤ b.1)
  exact : ∀ byte, (start ≤ byte ∧ byte < start + size) ↔ ∃ b ∈ blocks, InBlock b byte

/-- No block could be replaced by one of twice its size at the same address. -/
def Largest (start size : Nat) (blocks : List (Nat × Nat)) : Prop :=
  ∀ b ∈ blocks, ¬ (2 ^ (b.2 + 1) ∣ b.1 ∧ b.1 + 2 ^ (b.2 + 1) ≤ start + size)

/-- An unsigned type of that width holds all method indices. -/
def Holds (width methods : Nat) : Prop := ∀ i < methods, i < 2 ^ width

end Verif.Macros.Spec
