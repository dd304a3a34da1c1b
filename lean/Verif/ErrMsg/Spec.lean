import Verif.ErrMsg.Model
import Verif.Location.Spec

/-!
# Specification: error messages
-/

namespace Verif.ErrMsg.Spec

open Verif.Location (Str)

/-- The line with number `n` of a text, counting from 1, is `l`, and it is ended by a line feed. -/
def HasLine (text : Str) (n : Nat) (l : Str) : Prop :=
  ∃ before after : Str, text = before ++ l ++ '\n' :: after ∧ '\n' ∉ l
    ∧ before.count '\n' + 1 = n ∧ (before = [] ∨ ∃ b, before = b ++ ['\n'])

/-- The last line of a text, with the number `n`, is `l`, which is not empty; there is no line feed
at the end. -/
def HasLastLine (text : Str) (n : Nat) (l : Str) : Prop :=
  ∃ before : Str, text = before ++ l ∧ l ≠ [] ∧ '\n' ∉ l
    ∧ before.count '\n' + 1 = n ∧ (before = [] ∨ ∃ b, before = b ++ ['\n'])

/-- `file:line:column: `. -/
def place (file : Str) (n m : Nat) : Str :=
  file ++ [':'] ++ Nat.toDigits 10 n ++ [':'] ++ Nat.toDigits 10 m ++ [':', ' ']

/-- In the line `marks` there are carets exactly under the columns `m` to `x` (counted from 1) of a
line that is printed after `indent` characters, and otherwise blanks. -/
def MarksUnder (indent m x : Nat) (marks : Str) : Prop :=
  marks.length = indent + x
    ∧ ∀ k c, marks[k]? = some c → c = if indent + m ≤ k + 1 then '^' else ' '

/-- What a terminal shows of a text with colours: sequences from `ESC` to `m` are not shown. -/
def shown : Bool → Str → Str
  | _, [] => []
  | true, c :: s => shown (c != 'm') s
  | false, c :: s => if c = '\x1b' then shown true s else c :: shown false s

/-- What is shown in colour: the characters after a sequence for red and bold and before a reset. -/
def coloured (s pre mid post : Str) : Prop :=
  s = pre ++ "\x1b[31m\x1b[1m".toList ++ mid ++ "\x1b[0m".toList ++ post

/-- The message of the parser for a token of some type at a line and a column. -/
def parserMessage (token type line col : Str) : Str :=
  "Syntax error in input at '".toList ++ token ++ "' (type ".toList ++ type ++ ") line ".toList
    ++ line ++ " col ".toList ++ col

end Verif.ErrMsg.Spec
