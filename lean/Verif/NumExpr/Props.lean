import Verif.NumExpr.Lemmas

/-!
# C03, C04: numeric expressions
-/

namespace Verif.NumExpr
open Spec

/-- **C03.** Lifting an integer expression succeeds with `v` exactly when `v` is its value:
operators of one precedence level group to the left, integer division floors, and
every operand (also in an untaken conditional branch) must have a value. -/
theorem lift_eq_value (t : Tree) (v : Int) : lift t = .ok v ↔ Evals t v := lift_evals t v

/-- **C03 (failures).** Expressions without an integer value are exactly the ones that do
not lift to an integer, so no such expression is silently given a number. -/
theorem lift_error_iff (t : Tree) : (∃ e, lift t = .error e) ↔ ∀ v, ¬ Evals t v := by
  constructor
  · rintro ⟨e, he⟩ v hv
    rw [(lift_eq_value t v).mpr hv] at he; cases he
  · intro h
    cases ht : lift t with
    | error e => exact ⟨e, rfl⟩
    | ok v => exact absurd ((lift_eq_value t v).mp ht) (h v)

/-- **C03.** The value of an expression is unique. -/
theorem value_unique (t : Tree) (v w : Int) (hv : Evals t v) (hw : Evals t w) : v = w := by
  have := (lift_eq_value t v).mpr hv
  rw [(lift_eq_value t w).mpr hw] at this
  exact (Except.ok.inj this).symm

/-- **C03.** Division or remainder by zero and shifts by a negative amount are reported as
parse errors, wherever they sit in a chain, if everything to their left has a value. -/
theorem undefined_operation_rejected (t : Tree) (pre : List (Op × Tree)) (o : Op) (e : Tree)
    (a b : Int) (ht : ∃ x, Evals t x ∧ EvalsChain x pre a) (he : Evals e b)
    (hbad : ((o = .div ∨ o = .mod) ∧ b = 0) ∨ ((o = .ls ∨ o = .rs) ∧ b < 0)) :
    lift (.chain t (pre ++ [(o, e)])) = .error .parseError := by
  obtain ⟨x, hx, hc⟩ := ht
  have key : ∀ (pre : List (Op × Tree)) (x : Int), EvalsChain x pre a →
      ∃ vs, liftRest (pre ++ [(o, e)]) = .ok vs ∧ foldOps x vs = .error .parseError := by
    intro pre
    induction pre with
    | nil =>
      intro x h
      cases h
      refine ⟨[(o, b)], ?_, ?_⟩
      · simp [liftRest, (lift_eq_value e b).mpr he]
      · have : applyOp o a b = .error .parseError := by
          rcases hbad with ⟨rfl | rfl, hb⟩ | ⟨rfl | rfl, hb⟩ <;> simp [applyOp, hb]
        simp [foldOps, this]
    | cons p pre ih =>
      intro x h
      cases h with
      | cons _ o' e' b' m _ _ h1 h2 h3 =>
        obtain ⟨vs, h4, h5⟩ := ih m h3
        refine ⟨(o', b') :: vs, ?_, ?_⟩
        · simp [liftRest, (lift_eq_value e' b').mpr h1, h4]
        · simp [foldOps, (applyOp_iff _ _ _ _).mpr h2, h5]
  obtain ⟨vs, h1, h2⟩ := key pre x hc
  simp only [lift, (lift_eq_value t x).mpr hx, h1, h2]

/-- Non-vacuity: `7 - 2 - 1`, `-7 / 2` and `1 << 0 - 1` behave as the theorems say. -/
example : Evals (.chain (.number 7) [(.sub, .number 2), (.sub, .number 1)]) 4 := by
  rw [← lift_eq_value]; rfl
example : Evals (.chain (.unaryMinus (.number 7)) [(.div, .number 2)]) (-4) := by
  rw [← lift_eq_value]; rfl
example : lift (.chain (.number 1) ([] ++ [(.ls, .unaryMinus (.number 1))])) = .error .parseError :=
  undefined_operation_rejected _ _ _ _ 1 (-1)
    ⟨1, (lift_eq_value _ _).mp rfl, .nil _⟩ ((lift_eq_value _ _).mp rfl) (by decide)

/-- A value that stands for a truth value. -/
def IsBoolean (v : Int) : Prop := v = 0 ∨ v = 1

/-- **C04 is false of the code.** `2 && 3` lifts to 3 and `2 || 3` lifts to 2: the logical
operators do not yield 0 or 1. -/
theorem logical_not_boolean :
    (∃ a b v, lift (.chain (.number a) [(.land, .number b)]) = .ok v ∧ ¬ IsBoolean v) ∧
    (∃ a b v, lift (.chain (.number a) [(.lor, .number b)]) = .ok v ∧ ¬ IsBoolean v) :=
  ⟨⟨2, 3, 3, rfl, by unfold IsBoolean; decide⟩, ⟨2, 3, 2, rfl, by unfold IsBoolean; decide⟩⟩

/-- **C04 (what does hold).** A `&&` or `||` of two operands is nonzero exactly when the
conjunction or disjunction of the operands' truth holds, and it is 0 or 1 when both
operands are. Missing from C04: the result is 0 or 1 for all operands, which
`logical_not_boolean` refutes. -/
theorem logical_truth_partial (e f : Tree) (a b : Int) (he : Evals e a) (hf : Evals f b) :
    ∃ v w, lift (.chain e [(.land, f)]) = .ok v ∧ lift (.chain e [(.lor, f)]) = .ok w ∧
      (v ≠ 0 ↔ a ≠ 0 ∧ b ≠ 0) ∧ (w ≠ 0 ↔ a ≠ 0 ∨ b ≠ 0) ∧
      (IsBoolean a → IsBoolean b → IsBoolean v ∧ IsBoolean w) := by
  refine ⟨if a = 0 then a else b, if a = 0 then b else a, ?_, ?_, ?_, ?_, ?_⟩
  · simp [lift, liftRest, (lift_eq_value _ _).mpr he, (lift_eq_value _ _).mpr hf, foldOps, applyOp]
  · simp [lift, liftRest, (lift_eq_value _ _).mpr he, (lift_eq_value _ _).mpr hf, foldOps, applyOp]
  · split <;> simp_all
  · split <;> simp_all
  · intro ha hb; constructor <;> split <;> assumption

/-- **C04.** Comparisons and `!` always yield 0 or 1. -/
theorem comparison_boolean (o : Op) (ho : o = .eq ∨ o = .neq ∨ o = .lt ∨ o = .lte ∨ o = .gt ∨ o = .gte)
    (e f : Tree) (pre : List (Op × Tree)) (v : Int)
    (h : lift (.chain e (pre ++ [(o, f)])) = .ok v) : IsBoolean v := by
  rw [lift_eq_value] at h
  cases h with
  | chain _ a _ _ _ hc =>
    have key : ∀ (pre : List (Op × Tree)) (a : Int), EvalsChain a (pre ++ [(o, f)]) v → IsBoolean v := by
      intro pre
      induction pre with
      | nil =>
        intro a h
        cases h with
        | cons _ _ _ b m _ _ h1 h2 h3 =>
          cases h3
          rcases ho with rfl | rfl | rfl | rfl | rfl | rfl <;>
            (rcases h2 with ⟨_, h⟩ | ⟨_, h⟩ <;> simp [IsBoolean, h])
      | cons p pre ih =>
        intro a h
        cases h with
        | cons _ _ _ b m _ _ h1 h2 h3 => exact ih m h3
    exact key pre a hc

theorem not_boolean (e : Tree) (v : Int) (h : lift (.logicalNot e) = .ok v) : IsBoolean v := by
  rw [lift_eq_value] at h
  cases h with
  | not _ w _ _ ht => rcases ht with ⟨_, h⟩ | ⟨_, h⟩ <;> simp [IsBoolean, h]

example : lift (.chain (.number 5) ([(.add, .number 2)] ++ [(.gt, .number 3)])) = .ok 1 := rfl
example : ∃ v w, lift (.chain (.number 0) [(.land, .number 7)]) = .ok v ∧
    lift (.chain (.number 0) [(.lor, .number 7)]) = .ok w ∧ v = 0 ∧ w = 7 := ⟨_, _, rfl, rfl, rfl, rfl⟩

end Verif.NumExpr
