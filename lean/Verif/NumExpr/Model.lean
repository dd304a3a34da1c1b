import Mathlib.Data.Int.Bitwise

/-!
# Model: numeric expressions (camkes/parser/stage3.py, camkes/parser/camkes.g)

Simplification for the whole area: only integer operands are modelled (Python `int`,
unbounded). Floating point literals are not modelled; the only way an integer expression
leaves the integers is `**` with a negative exponent, which gives the outcome
`.notInteger`. Memory exhaustion on huge shifts and powers is not modelled.
-/

namespace Verif.NumExpr

/-- The operator nodes of the grammar (camkes.g:182-210), named as the `head` strings
tested in camkes/parser/stage3.py:588-630. -/
inductive Op
  | add | band | bor | div | eq | gt | gte | land | lor | ls | lt | lte | mod | mul | neq
  | pow | rs | sub | xor
  deriving DecidableEq, Repr

/-- Parse tree of a numeric expression (camkes.g:180-216). A `chain` is one of the
`precedence1`..`precedence10` nodes: a first operand and (operator, operand) pairs.
`ternary` is `precedence11` with three children; with one child that rule is transparent,
and so are parentheses and `unary_plus` (rules marked `@`). -/
inductive Tree
  | number (n : Int)
  | boolean (text : String)
  | unaryMinus (e : Tree)
  | logicalNot (e : Tree)
  | bitwiseNot (e : Tree)
  | chain (first : Tree) (rest : List (Op × Tree))
  | ternary (c t f : Tree)

/-- Outcomes other than an integer. `parseError` is `ParseError` raised at stage3.py:631-632
(zero division, negative shift). `notInteger` is a successful float result (negative
exponent), which this model does not follow further. -/
inductive Err
  | parseError
  | notInteger
  deriving DecidableEq, Repr

/-- Python's `acc <op>= op` on two `int`s as dispatched by `_lift_numeric_expr`,
camkes/parser/stage3.py:587-632. `int(acc and op)` returns `op` when `acc` is nonzero and
`int(acc or op)` returns `acc` when `acc` is nonzero. -/
def applyOp (o : Op) (acc op : Int) : Except Err Int :=
  match o with
  | .add => .ok (acc + op)
  | .band => .ok (Int.land acc op)
  | .bor => .ok (Int.lor acc op)
  | .div => if op = 0 then .error .parseError else .ok (acc.fdiv op)
  | .eq => .ok (if acc = op then 1 else 0)
  | .gt => .ok (if acc > op then 1 else 0)
  | .gte => .ok (if acc ≥ op then 1 else 0)
  | .land => .ok (if acc = 0 then acc else op)
  | .lor => .ok (if acc = 0 then op else acc)
  | .ls => if op < 0 then .error .parseError else .ok (acc * 2 ^ op.toNat)
  | .lt => .ok (if acc < op then 1 else 0)
  | .lte => .ok (if acc ≤ op then 1 else 0)
  | .mod => if op = 0 then .error .parseError else .ok (acc.fmod op)
  | .mul => .ok (acc * op)
  | .neq => .ok (if acc ≠ op then 1 else 0)
  | .pow =>
    if op < 0 then (if acc = 0 then .error .parseError else .error .notInteger)
    else .ok (acc ^ op.toNat)
  | .rs => if op < 0 then .error .parseError else .ok (acc.fdiv (2 ^ op.toNat))
  | .sub => .ok (acc - op)
  | .xor => .ok (Int.xor acc op)

/-- The loop over `pairwise(ops[1:])`, camkes/parser/stage3.py:585-633 (`pairwise` 53-55). -/
def foldOps (acc : Int) : List (Op × Int) → Except Err Int
  | [] => .ok acc
  | (o, x) :: rest =>
    match applyOp o acc x with
    | .error e => .error e
    | .ok a => foldOps a rest

mutual
/-- `lift_raw` (camkes/parser/stage3.py:110-138) on a numeric expression: all children are
lifted first, left to right, then the node's lifter runs: `_lift_number` 572-575 (the value
of the literal is given), `_lift_boolean_literal` 201-204, `_lift_unary_minus` 744-745,
`_lift_logical_not` 545-546, `_lift_bitwise_not` 207-208, `_lift_numeric_expr` 578-633,
`_lift_precedence11` 636-653. -/
def lift : Tree → Except Err Int
  | .number n => .ok n
  | .boolean text => .ok (if text = "True" ∨ text = "true" then 1 else 0)
  | .unaryMinus e => match lift e with | .error x => .error x | .ok v => .ok (-v)
  | .logicalNot e => match lift e with | .error x => .error x | .ok v => .ok (if v = 0 then 1 else 0)
  | .bitwiseNot e => match lift e with | .error x => .error x | .ok v => .ok (-1 - v)
  | .chain first rest =>
    match lift first with
    | .error x => .error x
    | .ok a =>
      match liftRest rest with
      | .error x => .error x
      | .ok vs => foldOps a vs
  | .ternary c t f =>
    match lift c with
    | .error x => .error x
    | .ok vc =>
      match lift t with
      | .error x => .error x
      | .ok vt =>
        match lift f with
        | .error x => .error x
        | .ok vf => .ok (if vc = 0 then vf else vt)
/-- The children of an operator chain after the first (stage3.py:110-138 on the operand
nodes; operator nodes have no children). -/
def liftRest : List (Op × Tree) → Except Err (List (Op × Int))
  | [] => .ok []
  | (o, e) :: rest =>
    match lift e with
    | .error x => .error x
    | .ok v =>
      match liftRest rest with
      | .error x => .error x
      | .ok vs => .ok ((o, v) :: vs)
end

end Verif.NumExpr
