/-!
# Specification: the prerequisites of a make rule

The physical lines of a rule are joined (a backslash at the end of a line and the line break stand
for a blank), the target and its colon are dropped, and the rest is split at white space.
-/

namespace Verif.Makefile.Spec

/-- The non-empty pieces between white space. -/
def pieces (ws : Char → Bool) (l : List Char) : List (List Char) := (l.splitOnP ws).filter (fun w => !w.isEmpty)

/-- The text of the rule after the colon, with continuation lines joined by blanks. -/
def joined : List (List Char) → List Char
  | [] => []
  | [l] => l
  | l :: ls => l ++ [' '] ++ joined ls

/-- The physical lines: all but the last are continued by a backslash. -/
def physical : List (List Char) → List (List Char)
  | [] => []
  | [l] => [l ++ ['\n']]
  | l :: ls => (l ++ ['\\', '\n']) :: physical ls

/-- The prerequisites. -/
def prerequisites (ws : Char → Bool) (parts : List (List Char)) : List (List Char) := pieces ws (joined parts)

end Verif.Makefile.Spec
