import Mathlib.Data.List.Basic

/-!
# Model: the program that makes the table of C keywords (tools/ckeywords.c)
-/

namespace Verif.KeyTable

/-- A text. -/
abbrev Text := List Char

/-- The program's variables `newline` and `column`, ckeywords.c:104-105. -/
structure State where
  newline : Bool
  column : Nat

/-- `indent`, ckeywords.c:78. -/
def indent : Text := "    ".toList

/-- `wrap_at`, ckeywords.c:79. -/
def wrapAt : Nat := 80

/-- `[a-zA-Z_]`, ckeywords.c:109. -/
def letter (c : Char) : Bool := ('a' ≤ c ∧ c ≤ 'z') ∨ ('A' ≤ c ∧ c ≤ 'Z') ∨ c = '_'

/-- Whether the regular expression matches, ckeywords.c:109, 123: it is not anchored at the end, and the rest may be empty. -/
def matches_ : Text → Bool
  | [] => false
  | c :: _ => letter c

/-- `KEYWORD_`, ckeywords.c:63: a word of the other environments is `NULL`. -/
def entry (word : Text) (category : Nat) : Option Text := if category ≠ 0 then some word else none

/-- A word in the loop, ckeywords.c:127-143: the text and the new variables. -/
def word (s : State) (w : Text) : Text × State :=
  let wrap := s.column + w.length + 4 > wrapAt
  let s1 : State := if wrap then ⟨true, 0⟩ else s
  let t1 : Text := if wrap then ['\n'] else []
  let t2 := if s1.newline then indent else [' ']
  let c2 := if s1.newline then s1.column + indent.length else s1.column
  (t1 ++ t2 ++ ['\''] ++ w ++ ['\'', ','], ⟨false, c2 + (w.length + 4)⟩)

/-- The loop, ckeywords.c:115-144. -/
def loop (s : State) : List (Option Text) → Text
  | [] => []
  | none :: rest => loop s rest
  | some w :: rest => if matches_ w then (word s w).1 ++ loop (word s w).2 rest else loop s rest

/-- What is printed between the header and the footer, ckeywords.c:113-148; the list is what the preprocessor makes of Clang's file. -/
def table (keywords : List (Option Text)) : Text := loop ⟨true, 0⟩ keywords ++ ['\n']

end Verif.KeyTable
