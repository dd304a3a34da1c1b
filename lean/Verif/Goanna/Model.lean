/-!
# Model: the wrapper that hides chosen warnings of the analyser (tools/goanna_wrapper.py)

Text is a list of characters. The regular expressions of the script are data (`Item`), and matching is the
backtracking search of Python's `re` for the constructs that are used. Simplification: `\s`, `\d` and `\w` are
those of ASCII text.
-/

namespace Verif.Goanna

/-- `\s` of Python's `re` for ASCII text. -/
def isBlank (c : Char) : Bool := c == ' ' || (9 ≤ c.toNat && c.toNat ≤ 13) || (28 ≤ c.toNat && c.toNat ≤ 31)

/-- `\d`. -/
def isDigit (c : Char) : Bool := 48 ≤ c.toNat && c.toNat ≤ 57

/-- `\w`. -/
def isWord (c : Char) : Bool :=
  isDigit c || (65 ≤ c.toNat && c.toNat ≤ 90) || (97 ≤ c.toNat && c.toNat ≤ 122) || c == '_'

/-- Parts of a regular expression: one character; at least `min` characters of a class, as many as possible
(`greedy`) or as few as possible, with or without a group around them; and `$` (no line given to the expression
has a line feed in it, so that it is the end of the text). -/
inductive Item where
  | chr (c : Char)
  | many (min : Nat) (p : Char → Bool) (greedy cap : Bool)
  | eol

/-- The numbers of characters that a repetition tries, in its order. -/
def lengths (min max : Nat) (greedy : Bool) : List Nat :=
  let l := (List.range (max + 1)).filter (fun n => decide (min ≤ n))
  if greedy then l.reverse else l

/-- Matching at the beginning of a text: the groups. Python's `re.match`, as used at tools/goanna_wrapper.py:63. -/
def matchSeq : List Item → List Char → Option (List (List Char))
  | [], _ => some []
  | .chr _ :: _, [] => none
  | .chr c :: is, x :: s => if x = c then matchSeq is s else none
  | .many min p greedy cap :: is, s =>
    (lengths min (s.takeWhile p).length greedy).findSome? fun n =>
      match matchSeq is (s.drop n) with
      | none => none
      | some caps => some (if cap then s.take n :: caps else caps)
  | .eol :: is, s => if s = [] then matchSeq is s else none

/-- Matching at the first place where it is possible: Python's `re.search`, as used at
tools/goanna_wrapper.py:91. -/
def searchSeq (is : List Item) : List Char → Option (List (List Char))
  | [] => matchSeq is []
  | x :: s =>
    match matchSeq is (x :: s) with
    | some caps => some caps
    | none => searchSeq is s

/-- Literal text in an expression. -/
def lit (w : List Char) : List Item := w.map Item.chr

def blanks : Item := .many 0 isBlank true false

/-- `warning_line`, tools/goanna_wrapper.py:51-53. -/
def warningLine : List Item :=
  .many 1 (fun c => !isBlank c) true true :: .chr ':' :: .many 1 isDigit true true :: .chr ':' :: blanks ::
    lit "warning:".toList ++ blanks :: lit "Goanna[".toList ++ .many 1 (fun c => c != ']') true true :: .chr ']' ::
    blanks :: lit "Severity-".toList ++ .many 1 isWord true true :: .chr ',' :: blanks ::
    .many 0 (fun c => c != '.') true true :: .chr '.' :: blanks :: .many 0 (fun c => c != '\n') true true :: [.eol]

/-- `suppression_mark`, tools/goanna_wrapper.py:56-57. -/
def suppressionMark : List Item :=
  lit "/*".toList ++ blanks :: lit "goanna:".toList ++ blanks :: lit "suppress".toList ++ blanks :: .chr '=' ::
    blanks :: .many 0 (fun c => c != '\n') false true :: blanks :: lit "*/".toList

/-- `int` of digits, tools/goanna_wrapper.py:69. -/
def value (ds : List Char) : Nat := ds.foldl (fun n c => n * 10 + (c.toNat - 48)) 0

/-- A warning: file, line and check, tools/goanna_wrapper.py:63-70. -/
def parseWarning (line : List Char) : Option (List Char × Nat × List Char) :=
  match matchSeq warningLine line with
  | some (relfile :: lineno :: checkname :: _) => some (relfile, value lineno, checkname)
  | _ => none

/-- `s.split(sep)`. -/
def split (sep : Char) : List Char → List (List Char)
  | [] => [[]]
  | c :: cs =>
    if c = sep then [] :: split sep cs
    else match split sep cs with
      | [] => [[c]]
      | l :: ls => (c :: l) :: ls

/-- The lines of an open file, with their line feeds, tools/goanna_wrapper.py:80. -/
def fileLines : List Char → List (List Char)
  | [] => []
  | c :: cs =>
    if c = '\n' then ['\n'] :: fileLines cs
    else match fileLines cs with
      | [] => [[c]]
      | l :: ls => (c :: l) :: ls

/-- The line with a number, counted from 1, tools/goanna_wrapper.py:77-86: `enumerate` counts from `index`. -/
def findLine (lineno : Nat) : Nat → List (List Char) → Option (List Char)
  | _, [] => none
  | index, l :: ls => if index + 1 = lineno then some l else findLine lineno (index + 1) ls

/-- Whether a line of the analyser is passed on, tools/goanna_wrapper.py:61-102. `files` gives the contents of the
files that can be opened. -/
def keep (files : List Char → Option (List Char)) (line : List Char) : Bool :=
  match parseWarning line with
  | none => true
  | some (relfile, lineno, checkname) =>
    match files relfile with
    | none => true
    | some text =>
      match findLine lineno 0 (fileLines text) with
      | none => true
      | some source =>
        match searchSeq suppressionMark source with
        | some (checks :: _) => !((split ',' checks).contains checkname)
        | _ => true

/-- `main`, tools/goanna_wrapper.py:36-104: the status and what is written to the standard error. `run` is the exit
status of the analyser and its error output, or `none` if it cannot be run. -/
def main (run : Option (Int × List Char)) (files : List Char → Option (List Char)) : Int × List Char :=
  match run with
  | none => (-1, "goannacc not found\n".toList)
  | some (ret, stderr) =>
    if ret ≠ 0 then (ret, stderr)
    else (0, ((split '\n' stderr).dropLast.filter (keep files)).flatMap (fun l => l ++ ['\n']))

end Verif.Goanna
