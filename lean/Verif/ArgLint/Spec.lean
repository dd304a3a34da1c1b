import Verif.ArgLint.Model

/-!
# Specification (C144)
-/

namespace Verif.ArgLint

/-- The assertion stands at the beginning of the function: only assertions are before it. -/
def Leading (f : Func) (t : Expr) : Prop := ∃ (before : List Expr) (after : List Stmt), f.body = before.map Stmt.assert ++ .assert t :: after

/-- `assert isinstance(l...)`, or with `x is None or` before it, and perhaps more alternatives after it. -/
def TypeCheck (t : Expr) (l : List Expr) : Prop :=
  t = .call (.name "isinstance".toList) l ∨ ∃ x more, t = .or (.isTest (.name x) .none) (.call (.name "isinstance".toList) l) more

/-- What is checked is an argument of the function, or an attribute of `self`. -/
def Subject (f : Func) (e : Expr) : Prop := (∃ x, e = .name x ∧ x ∈ f.args) ∨ ∃ a, e = .attr (.name "self".toList) a

end Verif.ArgLint
