import Verif.Location.Model

/-!
# Model: error messages (camkes/internal/exception.py, camkes/parser/exception.py, and the parts of
camkes/ast/location.py and camkes/parser/stage1.py that read the messages of the parser)

Texts are lists of characters; files are read through a function.
-/

namespace Verif.ErrMsg

open Verif.Location (Str splitLines isSpace skipSpaces takeDigits toNat locate)

/-- The lines that iterating over a file gives, each with its line feed (internal/exception.py:22).
Simplification: line feeds are the only ends of lines. -/
def fileLines : Str → List Str
  | [] => []
  | c :: cs =>
    if c = '\n' then ['\n'] :: fileLines cs
    else match fileLines cs with
      | [] => [[c]]
      | l :: ls => (c :: l) :: ls

/-- `_get_line`, internal/exception.py:16-28. -/
def getLine (fs : Str → Option Str) (file : Str) (n : Nat) : Option Str :=
  match fs file, n with
  | none, _ => none
  | _, 0 => none
  | some text, n + 1 => (fileLines text)[n]?

/-- `str(n)`. -/
def number (n : Nat) : Str := Nat.toDigits 10 n

/-- A blank after the place, if there is one, internal/exception.py:60-61. -/
def spaced (s : Str) : Str := if s.isEmpty then [] else s ++ [' ']

/-- The beginning of the message, internal/exception.py:46-61. -/
def heading (file : Option Str) (lineno col : Option Nat) : Str :=
  spaced ((match file with | some f => f ++ [':'] | none => []) ++
    (match lineno with
    | some n => number n ++ [':'] ++ (match col with | some m => number m ++ [':'] | none => [])
    | none => []))

/-- `line[:m-1]`; -1 is the last character. -/
def sliceTo (l : Str) (m : Nat) : Str := if m = 0 then l.dropLast else l.take (m - 1)

/-- `line[m-1:x]`. -/
def sliceMid (l : Str) (m x : Nat) : Str :=
  if m = 0 then (l.take x).drop (l.length - 1) else (l.take x).drop (m - 1)

/-- The terminal sequences of internal/terminal.py:25-27. -/
def redBold : Str := "\x1b[31m\x1b[1m".toList

def reset : Str := "\x1b[0m".toList

/-- The source line with its mark, internal/exception.py:67-85. `indent` is the length of the heading. -/
def quoted (colour : Bool) (indent : Nat) (line : Str) (m x : Option Nat) : Str :=
  (match m, x with
  | some m, some x =>
    sliceTo line m ++ (if colour then redBold else []) ++ sliceMid line m x
      ++ (if colour then reset else []) ++ line.drop x
  | _, _ => line) ++
  (match m with
  | some m => List.replicate (indent + m - 1) ' ' ++ ['^']
      ++ (match x with | some x => List.replicate (x - m) '^' | none => []) ++ ['\n']
  | none => [])

/-- `CAmkESError._format_message`, internal/exception.py:37-88. -/
def format (colour : Bool) (fs : Str → Option Str) (message : Str) (file : Option Str)
    (lineno m x : Option Nat) : List Str :=
  let head := heading file lineno m
  let line := match file, lineno with
    | some f, some n => getLine fs f n
    | _, _ => none
  splitLines (head ++ (match line with | some l => quoted colour head.length l m x | none => [])
    ++ message)

/-! ### Messages of the parser -/

/-- A literal part of a regular expression. -/
def literal : Str → Str → Option Str
  | [], s => some s
  | _ :: _, [] => none
  | c :: p, d :: s => if c = d then literal p s else none

/-- `[^c]*c`: what is before the first `c`, and what is after it. -/
def upTo (c : Char) : Str → Option (Str × Str)
  | [] => none
  | d :: s => if d = c then some ([], s) else (upTo c s).map fun p => (d :: p.1, p.2)

/-- `\s+`. -/
def spaces : Str → Option Str
  | c :: s => if isSpace c then some (skipSpaces s) else none
  | [] => none

/-- `$`, with `re.MULTILINE`. -/
def atEnd : Str → Bool
  | [] => true
  | c :: _ => c = '\n'

/-- `\d+`. -/
def digits (s : Str) : Option (Nat × Str) :=
  match takeDigits s with
  | ([], _) => none
  | (ds, r) => some (toNat ds, r)

/-- `(?:\s+col\s+(\d+))$`. -/
def colPart (s : Str) : Option Nat :=
  match spaces s with
  | none => none
  | some r => match literal "col".toList r with
    | none => none
    | some r => match spaces r with
      | none => none
      | some r => match digits r with
        | none => none
        | some (n, r) => if atEnd r then some n else none

/-- What is found in a message: the token, the line and perhaps the column. -/
structure Found where
  token : Str
  line : Nat
  col : Option Nat
  deriving DecidableEq

/-- The end of the regular expression, after the token, location.py:66-68. -/
def matchRest (token s : Str) : Option Found :=
  match literal " (type ".toList s with
  | none => none
  | some r => match upTo ')' r with
    | none => none
    | some (_, r) => match literal " line".toList r with
      | none => none
      | some r => match spaces r with
        | none => none
        | some r => match digits r with
          | none => none
          | some (n, r) => match colPart r with
            | some c => some ⟨token, n, some c⟩
            | none => if atEnd r then some ⟨token, n, none⟩ else none

/-- The regular expression at one position, location.py:66-68. No part can match in two ways that
matter: each ends where the next begins with a character that it does not contain.  Simplification:
ASCII white space and digits. -/
def matchError (s : Str) : Option Found :=
  match literal "Syntax error in input at '".toList s with
  | none => none
  | some r => match upTo '\'' r with
    | none => none
    | some (token, r) => matchRest token r

/-- `re.search` with `^` and `re.MULTILINE`: the first position at the start of a line. -/
def search : Bool → Str → Option Found
  | _, [] => none
  | start, c :: s =>
    match (if start then matchError (c :: s) else none) with
    | some r => some r
    | none => search (c == '\n') s

/-- Line and columns of an error of the parser, location.py:62-78. -/
def errorPlace (message : Str) : Option Nat × Option Nat × Option Nat :=
  match search true message with
  | none => (none, none, none)
  | some r => (some r.line, r.col,
      r.col.bind fun c => if r.token.length > 0 then some (c + r.token.length - 1) else none)

/-- `augment_exception`, stage1.py:61-74. -/
def augment (message : Str) : Str :=
  if message = "Syntax error in input (details unknown): None\nCould not create parse tree!".toList
  then message ++ " (missing closing brace?)".toList else message

/-- The lines of the error that `Parse1.parse_file` and `parse_string` raise when the parser fails
with a message, stage1.py:40-59, parser/exception.py:18-31.  `none` is a failed assertion.
Assumption: the text of a plyplus error is its message. -/
def parseFailure (colour : Bool) (fs : Str → Option Str) (file : Option Str) (processed message : Str) :
    Option (List Str) :=
  let p := errorPlace message
  match locate file p.1 (some processed) with
  | none => none
  | some (f, n) => some (format colour fs (augment message) f n p.2.1 p.2.2)

end Verif.ErrMsg
