import Verif.KeyTable.Model

/-!
# Specification (C143)
-/

namespace Verif.KeyTable

/-- A word that could be an identifier, as far as its first character tells. -/
def CouldCollide (w : Text) : Prop :=
  ∃ c r, w = c :: r ∧ ((97 ≤ c.toNat ∧ c.toNat ≤ 122) ∨ (65 ≤ c.toNat ∧ c.toNat ≤ 90) ∨ c = '_')

/-- A word in Python, with a comma. -/
def quoted (w : Text) : Text := "'".toList ++ w ++ "',".toList

/-- A line of the table: four blanks, then words with a blank between them. -/
def line (w : Text) (more : List Text) : Text := "    ".toList ++ quoted w ++ more.flatMap fun v => " ".toList ++ quoted v

/-- The lines of a table, each with a newline at its end. -/
def lines (groups : List (Text × List Text)) : Text := groups.flatMap fun g => line g.1 g.2 ++ "\n".toList

/-- The words in a table. -/
def allWords (groups : List (Text × List Text)) : List Text := groups.flatMap fun g => g.1 :: g.2

end Verif.KeyTable
