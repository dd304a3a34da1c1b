/-!
# Model: source locations (camkes/ast/location.py)

Texts are lists of characters.
-/

namespace Verif.Location

abbrev Str := List Char

/-- `str.split('\n')` (used at camkes/ast/location.py:92). -/
def splitLines : Str → List Str
  | [] => [[]]
  | c :: cs =>
    if c = '\n' then [] :: splitLines cs
    else match splitLines cs with
      | [] => [[c]]
      | l :: ls => (c :: l) :: ls

/-- `\s` of the regular expression, restricted to ASCII white space. -/
def isSpace (c : Char) : Bool :=
  c == ' ' || c == '\t' || c == '\r' || c == '\n' || c == '\x0b' || c == '\x0c'

/-- `\d`, restricted to ASCII digits. -/
def isDigit (c : Char) : Bool := '0' ≤ c && c ≤ '9'

/-- `\s*`. -/
def skipSpaces : Str → Str
  | [] => []
  | c :: cs => if isSpace c then skipSpaces cs else c :: cs

/-- `\d+` as its longest match: digits and rest. -/
def takeDigits : Str → Str × Str
  | [] => ([], [])
  | c :: cs => if isDigit c then ((c :: (takeDigits cs).1), (takeDigits cs).2) else ([], c :: cs)

/-- `[^"]*"`: text before the closing quote, if there is one. -/
def takeQuoted : Str → Option Str
  | [] => none
  | c :: cs => if c = '"' then some [] else (takeQuoted cs).map (c :: ·)

/-- `int(digits)` for ASCII digits. -/
def toNat (ds : Str) : Nat := ds.foldl (fun n c => 10 * n + (c.toNat - '0'.toNat)) 0

/-- `LINE_DIRECTIVE.match`, camkes/ast/location.py:18-20:
`\s*#\s*(?:line)?\s*(\d+)(?:\s+"([^"]*)")?.*$`. Greedy matching never needs to backtrack here:
the pieces before `\d+` start with disjoint characters, and the file name group is optional
and followed by `.*`. Simplification: ASCII white space and digits only. -/
def directive (line : Str) : Option (Nat × Option Str) :=
  match skipSpaces line with
  | '#' :: r1 =>
    let r2 := skipSpaces r1
    let r3 := match r2 with
      | 'l' :: 'i' :: 'n' :: 'e' :: r => skipSpaces r
      | r => r
    match takeDigits r3 with
    | ([], _) => none
    | (ds, r4) =>
      let file := match r4 with
        | c :: _ =>
          if isSpace c then
            match skipSpaces r4 with
            | '"' :: r5 => takeQuoted r5
            | _ => none
          else none
        | [] => none
      some (toNat ds, file)
  | _ => none

/-- The loop of `SourceLocation._locate`, camkes/ast/location.py:90-111. `k` is
`line_index + 1`; `none` is the assertion failure of the `else` branch. -/
def scan (target : Nat) : List Str → (k : Nat) → (file : Option Str) → (lineno : Nat) →
    Option (Option Str × Nat)
  | [], _, _, _ => none
  | l :: ls, k, file, lineno =>
    if k = target then some (file, lineno)
    else match directive l with
      | some (n, some f) => scan target ls (k + 1) (some f) n
      | some (n, none) => scan target ls (k + 1) file n
      | none => scan target ls (k + 1) file (lineno + 1)

/-- `SourceLocation._locate`, camkes/ast/location.py:78-111, given the line reported by the
parser (`plyplus_line`) and the optional full source. The outer `Option` is the assertion;
the inner line is `none` if the parser reported no line. -/
def locate (filename : Option Str) (parserLine : Option Nat) (source : Option Str) :
    Option (Option Str × Option Nat) :=
  match parserLine with
  | none => some (filename, none)
  | some n =>
    match source with
    | none => some (filename, some n)
    | some src => (scan n (splitLines src) 1 filename 1).map fun p => (p.1, some p.2)

end Verif.Location
