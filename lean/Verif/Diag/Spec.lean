import Verif.Diag.Model

/-!
# Specification (C136)
-/

namespace Verif.Diag

/-- How loud the user asked the tool to be. -/
inductive Loudness
  | silent | normal | verbose | everything
  deriving DecidableEq

/-- The last flag counts. -/
inductive Asked : List Flag → Loudness → Prop
  | default : Asked [] .normal
  | quiet (fs) : Asked (fs ++ [.quiet]) .silent
  | verbose (fs) : Asked (fs ++ [.verbose]) .verbose
  | debug (fs) : Asked (fs ++ [.debug]) .everything

/-- What the user is to see at each loudness. -/
def Audible : Loudness → Level → Prop
  | .silent, _ => False
  | .normal, l => l ≠ .debug ∧ l ≠ .info
  | .verbose, l => l ≠ .debug
  | .everything, _ => True

def IsLetter (c : Char) : Prop := (97 ≤ c.toNat ∧ c.toNat ≤ 122) ∨ (65 ≤ c.toNat ∧ c.toNat ≤ 90)
def IsDigit (c : Char) : Prop := 48 ≤ c.toNat ∧ c.toNat ≤ 57

/-- A letter, and then letters, digits and underscores. -/
def Identifier (s : Text) : Prop :=
  ∃ c r, s = c :: r ∧ IsLetter c ∧ ∀ x ∈ r, IsLetter x ∨ IsDigit x ∨ x = '_'

/-- The values that belong to a type with a known meaning: a string, an integer, or a list of them for an array. -/
inductive Fits : Attr → Value → Prop
  | string {a s} : a.type = some "string".toList → a.array = false → Fits a (.str s)
  | int {a n} : a.type = some "int".toList → a.array = false → Fits a (.int n)
  | strings {a vs} : a.type = some "string".toList → a.array = true → (∀ v ∈ vs, ∃ s, v = .str s) → Fits a (.list vs)
  | ints {a vs} : a.type = some "int".toList → a.array = true → (∀ v ∈ vs, ∃ n, v = .int n) → Fits a (.list vs)

end Verif.Diag
