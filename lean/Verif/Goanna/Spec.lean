import Verif.Goanna.Model

/-!
# Specification: warnings, markers and lines of a file
-/

namespace Verif.Goanna

def Blank (l : List Char) : Prop := ∀ c ∈ l, isBlank c = true

instance (l : List Char) : Decidable (Blank l) := inferInstanceAs (Decidable (∀ c ∈ l, isBlank c = true))

/-- A line that reports the check `check` at the line `digits` of the file `file`, with its parts in the order of
section 10.7 of the analyser's guide. -/
def IsWarning (line file digits check : List Char) : Prop :=
  ∃ b₁ b₂ b₃ sev b₄ msg b₅ rules,
    line = file ++ ":".toList ++ digits ++ ":".toList ++ b₁ ++ "warning:".toList ++ b₂ ++ "Goanna[".toList ++ check ++
      "]".toList ++ b₃ ++ "Severity-".toList ++ sev ++ ",".toList ++ b₄ ++ msg ++ ".".toList ++ b₅ ++ rules ∧
    (file ≠ [] ∧ ∀ c ∈ file, isBlank c = false) ∧
    (digits ≠ [] ∧ ∀ c ∈ digits, isDigit c = true) ∧
    (check ≠ [] ∧ ']' ∉ check) ∧
    (sev ≠ [] ∧ ∀ c ∈ sev, isWord c = true) ∧
    '.' ∉ msg ∧ '\n' ∉ rules ∧ Blank b₁ ∧ Blank b₂ ∧ Blank b₃ ∧ Blank b₄ ∧ Blank b₅

/-- A text that begins with a comment `/* goanna: suppress=checks */`: `checks` is what is between the equals sign
and the end of the comment, without blanks around it. -/
def MarkerAt (s checks : List Char) : Prop :=
  ∃ b₁ b₂ b₃ b₄ b₅ post,
    s = "/*".toList ++ b₁ ++ "goanna:".toList ++ b₂ ++ "suppress".toList ++ b₃ ++ "=".toList ++ b₄ ++ checks ++ b₅ ++
      "*/".toList ++ post ∧
    Blank b₁ ∧ Blank b₂ ∧ Blank b₃ ∧ Blank b₄ ∧ Blank b₅ ∧ '\n' ∉ checks ∧
    (∀ x y, checks ≠ x ++ "*/".toList ++ y) ∧
    (∀ c y, checks = c :: y → isBlank c = false) ∧ (∀ c x, checks = x ++ [c] → isBlank c = false)

/-- The first marker of a line. -/
def FirstMarker (line checks : List Char) : Prop :=
  ∃ pre s, line = pre ++ s ∧ MarkerAt s checks ∧
    ∀ x y, pre = x ++ y → y ≠ [] → ¬ ∃ checks', MarkerAt (y ++ s) checks'

/-- A name is one of those in a list that is separated by commas. -/
def Listed (checks name : List Char) : Prop :=
  ',' ∉ name ∧ ∃ x y, checks = x ++ name ++ y ∧ (x = [] ∨ ∃ x', x = x' ++ [',']) ∧ (y = [] ∨ ∃ y', y = ',' :: y')

/-- `l` is the line number `n` of a text, counted from 1, with its line feed if it has one. -/
def LineAt (text : List Char) (n : Nat) (l : List Char) : Prop :=
  ∃ pre post, text = pre ++ l ++ post ∧ pre.count '\n' + 1 = n ∧ (pre = [] ∨ ∃ x, pre = x ++ ['\n']) ∧
    l ≠ [] ∧ ((∃ body, l = body ++ ['\n'] ∧ '\n' ∉ body) ∨ (post = [] ∧ '\n' ∉ l))

/-- Digits and the number that they stand for. -/
inductive Numeral : List Char → Nat → Prop
  | nil : Numeral [] 0
  | snoc (ds : List Char) (n : Nat) (d : Char) : Numeral ds n → Numeral (ds ++ [d]) (10 * n + (d.toNat - '0'.toNat))

/-- The warning is one that the source hides. -/
def Hidden (files : List Char → Option (List Char)) (file : List Char) (n : Nat) (check : List Char) : Prop :=
  ∃ text source checks, files file = some text ∧ LineAt text n source ∧ FirstMarker source checks ∧
    Listed checks check

end Verif.Goanna
