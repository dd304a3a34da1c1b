import Verif.NumExpr.Model

/-!
# Specification: what the operators mean

`Means o a b v` says that applying the binary operator `o` to the mathematical integers
`a` and `b` gives `v`. Division and remainder are pinned down by inequalities, bit
operations bit by bit in infinite two's complement, so none of this mentions the
functions the model computes with.
-/

namespace Verif.NumExpr.Spec

/-- Bit `i` of an integer in infinite two's complement. -/
def bit (i : Nat) (x : Int) : Prop := x / 2 ^ i % 2 = 1

/-- 1 for a true comparison, 0 for a false one. -/
def truth (p : Prop) (v : Int) : Prop := (p ∧ v = 1) ∨ (¬ p ∧ v = 0)

/-- `v` is the floor of the exact quotient `a / b`. -/
def IsFloorQuot (a b v : Int) : Prop :=
  (0 < b ∧ v * b ≤ a ∧ a < (v + 1) * b) ∨ (b < 0 ∧ v * b ≥ a ∧ a > (v + 1) * b)

/-- Meaning of each binary operator. -/
def Means : Op → Int → Int → Int → Prop
  | .add, a, b, v => v = a + b
  | .sub, a, b, v => v = a - b
  | .mul, a, b, v => v = a * b
  | .div, a, b, v => IsFloorQuot a b v
  | .mod, a, b, v => ∃ q, IsFloorQuot a b q ∧ v = a - q * b
  | .pow, a, b, v => ∃ n : Nat, b = n ∧ v = a ^ n
  | .ls, a, b, v => ∃ n : Nat, b = n ∧ v = a * 2 ^ n
  | .rs, a, b, v => ∃ n : Nat, b = n ∧ IsFloorQuot a (2 ^ n) v
  | .band, a, b, v => ∀ i, bit i v ↔ (bit i a ∧ bit i b)
  | .bor, a, b, v => ∀ i, bit i v ↔ (bit i a ∨ bit i b)
  | .xor, a, b, v => ∀ i, bit i v ↔ ¬ (bit i a ↔ bit i b)
  | .eq, a, b, v => truth (a = b) v
  | .neq, a, b, v => truth (a ≠ b) v
  | .lt, a, b, v => truth (a < b) v
  | .lte, a, b, v => truth (a ≤ b) v
  | .gt, a, b, v => truth (b < a) v
  | .gte, a, b, v => truth (b ≤ a) v
  -- As implemented: short-circuit value of the *operands*, see `logical_or_not_boolean`.
  | .land, a, b, v => (a = 0 ∧ v = 0) ∨ (a ≠ 0 ∧ v = b)
  | .lor, a, b, v => (a ≠ 0 ∧ v = a) ∨ (a = 0 ∧ v = b)

mutual
/-- Value of an expression: every operand is evaluated (even in untaken branches and on
the right of `&&`), and a chain `e₀ o₁ e₁ o₂ e₂ …` groups to the left. -/
inductive Evals : Tree → Int → Prop
  | number (n) : Evals (.number n) n
  | true_ : Evals (.boolean "true") 1
  | True_ : Evals (.boolean "True") 1
  | false_ (s) : s ≠ "true" → s ≠ "True" → Evals (.boolean s) 0
  | minus (e v) : Evals e v → Evals (.unaryMinus e) (-v)
  | not (e v w) : Evals e v → truth (v = 0) w → Evals (.logicalNot e) w
  | bnot (e v w) : Evals e v → (∀ i, bit i w ↔ ¬ bit i v) → Evals (.bitwiseNot e) w
  | chain (e a rest v) : Evals e a → EvalsChain a rest v → Evals (.chain e rest) v
  | condTrue (c t f vc vt vf) : Evals c vc → Evals t vt → Evals f vf → vc ≠ 0 →
      Evals (.ternary c t f) vt
  | condFalse (c t f vt vf) : Evals c 0 → Evals t vt → Evals f vf →
      Evals (.ternary c t f) vf
/-- Left-to-right evaluation of the rest of a chain from the accumulated value. -/
inductive EvalsChain : Int → List (Op × Tree) → Int → Prop
  | nil (a) : EvalsChain a [] a
  | cons (a o e b m rest v) : Evals e b → Means o a b m → EvalsChain m rest v →
      EvalsChain a ((o, e) :: rest) v
end

end Verif.NumExpr.Spec
