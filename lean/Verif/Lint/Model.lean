/-!
# The linter of templates

Model of `tools/jinja_lint.py`: the two tokenisers and the checks of `main`.
-/

namespace Verif.Lint

/-- Text.  Simplification: Python strings are lists of characters. -/
abbrev Str := List Char

/-- The options of the command line, `jinja_lint.py:92-98`: the texts that begin and end blocks,
variables and comments. -/
structure Opts where
  blockStart : Str
  blockEnd : Str
  variableStart : Str
  variableEnd : Str
  commentStart : Str
  commentEnd : Str
  deriving DecidableEq, Repr

/-- The six texts in the order in which they are tried, `jinja_lint.py:25-30`. -/
def Opts.all (o : Opts) : List Str :=
  [o.blockStart, o.blockEnd, o.variableStart, o.variableEnd, o.commentStart, o.commentEnd]

/-! ### Tokens -/

/-- The tokens of a line, `jinja_lint.py:22-36`: `skip` is the number of characters that still
belong to the last token.  Where one of the texts is empty Python does not come to an end; here it
is passed over by the next character. -/
def lowLine (o : Opts) : Nat → Str → List Str
  | _, [] => []
  | k + 1, _ :: l => lowLine o k l
  | 0, c :: l => match o.all.find? (fun t => t.isPrefixOf (c :: l)) with
    | some t => t :: lowLine o (t.length - 1) l
    | none => lowLine o 0 l

/-- Iterating over a file gives its lines, each with its line end. -/
def lines : Str → List Str
  | [] => []
  | c :: l =>
    if c = '\n' then [c] :: lines l
    else match lines l with
      | [] => [[c]]
      | m :: ms => (c :: m) :: ms

/-- The tokens of lines, from the line with number `n` on, `jinja_lint.py:22-36`. -/
def lowLines (o : Opts) : Nat → List Str → List (Nat × Str)
  | _, [] => []
  | n, l :: ls => (lowLine o 0 l).map (fun t => (n, t)) ++ lowLines o (n + 1) ls

/-- `low_tokeniser`, `jinja_lint.py:18-36`. -/
def lowTokens (o : Opts) (file : Str) : List (Nat × Str) := lowLines o 1 (lines file)

/-- `str.find`: what comes before the first occurrence, and what follows from there on. -/
def findSub (pat : Str) : Str → Option (Str × Str)
  | [] => if pat = [] then some ([], []) else none
  | c :: l =>
    if pat.isPrefixOf (c :: l) then some ([], c :: l)
    else (findSub pat l).map fun r => (c :: r.1, r.2)

/-- `\s`.  Simplification: white space of ASCII only. -/
def isSpace (c : Char) : Bool := c = ' ' || c = '\t' || c = '\n' || c = '\r' || c.toNat = 11 || c.toNat = 12

/-- `\w`.  Simplification: letters and digits of ASCII only. -/
def isWord (c : Char) : Bool := c.isAlphanum || c = '_'

/-- `str.strip`. -/
def strip (s : Str) : Str := ((s.dropWhile isSpace).reverse.dropWhile isSpace).reverse

/-- `… in ('-', '+')`, `jinja_lint.py:59,71`. -/
def isCtl (c : Char) : Bool := c = '-' || c = '+'

/-- The character of white space control after the start of a block is left out,
`jinja_lint.py:58-60`. -/
def dropCtl : Str → Str
  | [] => []
  | c :: l => if isCtl c then l else c :: l

/-- The one before the end of a block is left out, `jinja_lint.py:70-72`. -/
def dropLastCtl (s : Str) : Str :=
  match s.getLast? with
  | some c => if isCtl c then s.dropLast else s
  | none => s

/-- A directive: its word and what follows in the block. -/
structure Dir where
  line : Nat
  word : Str
  content : Str
  deriving DecidableEq, Repr

/-- The directive of a block, `jinja_lint.py:74-82`. -/
def directive (line : Nat) (s : Str) : Option Dir :=
  let w := (s.dropWhile isSpace).takeWhile isWord
  if w = [] then none
  else some ⟨line, w, strip ((s.dropWhile isSpace).dropWhile isWord)⟩

/-- The number of line ends. -/
def newlines (s : Str) : Nat := s.count '\n'

/-- `high_tokeniser`, `jinja_lint.py:38-85`, from a place in the content on; `fuel` bounds the
number of blocks, and the length of the content is enough (`Lint.high_fuel`). -/
def high (o : Opts) : Nat → Nat → Str → List Dir
  | 0, _, _ => []
  | fuel + 1, line, s =>
    match findSub o.blockStart s with
    | none => []
    | some (before, rest) =>
      let line1 := line + newlines before
      let inside := dropCtl (rest.drop o.blockStart.length)
      match findSub o.blockEnd inside with
      | none => []
      | some (body, rest2) =>
        let after := rest2.drop o.blockEnd.length
        let line2 := line1 + newlines (rest.take (rest.length - after.length))
        (directive line1 (dropLastCtl body)).toList ++ high o fuel line2 after

/-- `high_tokeniser`, `jinja_lint.py:38-85`. -/
def highTokens (o : Opts) (file : Str) : List Dir := high o (file.length + 1) 1 file

/-! ### Checks -/

/-- The errors, with the number of the line (none at the end of the file). -/
inductive Err
  | openingInside (line : Nat) (token last : Str)
  | closingOutside (line : Nat) (token : Str)
  | closingWrong (line : Nat) (token last : Str)
  | notInside (line : Nat) (word : Str)
  | endInside (line : Nat) (word context : Str)
  | trailing (line : Nat) (word content : Str)
  | notInIf (line : Nat) (word : Str)
  | notInIfFor (line : Nat) (word : Str)
  | notInFor (line : Nat) (word : Str)
  | badDo (line : Nat) (content : Str)
  | badSet (line : Nat) (content : Str)
  | unknown (line : Nat) (word : Str)
  | openAtEnd (word : Str)
  deriving DecidableEq, Repr

/-- `is_starter`, `jinja_lint.py:109-111`. -/
def isStarter (o : Opts) (t : Str) : Bool :=
  t = o.blockStart || t = o.variableStart || t = o.commentStart

/-- `paired`, `jinja_lint.py:117-124`. -/
def paired (o : Opts) (s e : Str) : Bool :=
  (s = o.blockStart && e = o.blockEnd) || (s = o.variableStart && e = o.variableEnd)
    || (s = o.commentStart && e = o.commentEnd)

/-- The first loop of `main`, `jinja_lint.py:127-145`: the error, if there is one.  The assertions
are left out: they cannot fail. -/
def lowCheck (o : Opts) : Option Str → List (Nat × Str) → Option Err
  | _, [] => none
  | last, (n, t) :: rest =>
    if isStarter o t then
      match last with
      | some s => some (.openingInside n t s)
      | none => lowCheck o (some t) rest
    else match last with
      | none => some (.closingOutside n t)
      | some s => if paired o s t then lowCheck o none rest else some (.closingWrong n t s)

/-- `DO_WORD_MATCH.match(content)`, `jinja_lint.py:154,236`: the content is one word (or nothing).
It has no line end at its end, because it is stripped. -/
def oneWord (s : Str) : Bool := s.all isWord

/-- `\S\s*=\s*\S` at the beginning of the text, `jinja_lint.py:155`. -/
def setHere : Str → Bool
  | [] => false
  | c :: l => !isSpace c && (match l.dropWhile isSpace with
    | d :: r => d = '=' && decide (r.dropWhile isSpace ≠ [])
    | [] => false)

/-- `SET_MATCH.match(content)`, `jinja_lint.py:155,240`: `.` is not a line end. -/
def setOk : Str → Bool
  | [] => false
  | c :: l => setHere (c :: l) || (decide (c ≠ '\n') && setOk l)

/-- An `end…` directive, `jinja_lint.py:160-170,188-220`: `k` is the word of the block it ends.
The result is the stack after it. -/
def endDir (k : Str) (d : Dir) (stack : List Str) : Except Err (List Str) :=
  match stack with
  | [] => .error (.notInside d.line d.word)
  | c :: st =>
    if c ≠ k then .error (.endInside d.line d.word c)
    else if d.content ≠ [] then .error (.trailing d.line d.word d.content)
    else .ok st

/-- One directive, `jinja_lint.py:158-248`.  The stack has its top first.  The warning of `else` in
a `for` block is left out. -/
def dirStep (stack : List Str) (d : Dir) : Except Err (List Str) :=
  if d.word ∈ ["if".toList, "for".toList, "macro".toList, "call".toList] then .ok (d.word :: stack)
  else if d.word = "endif".toList then endDir "if".toList d stack
  else if d.word = "elif".toList then
    if stack.head? = some "if".toList then .ok stack else .error (.notInIf d.line d.word)
  else if d.word = "else".toList then
    if stack.head? = some "if".toList ∨ stack.head? = some "for".toList then
      if d.content ≠ [] then .error (.trailing d.line d.word d.content) else .ok stack
    else .error (.notInIfFor d.line d.word)
  else if d.word = "endfor".toList then endDir "for".toList d stack
  else if d.word = "endmacro".toList then endDir "macro".toList d stack
  else if d.word = "endcall".toList then endDir "call".toList d stack
  else if d.word = "break".toList ∨ d.word = "continue".toList then
    if "for".toList ∉ stack then .error (.notInFor d.line d.word)
    else if d.content ≠ [] then .error (.trailing d.line d.word d.content)
    else .ok stack
  else if d.word = "do".toList then
    if oneWord d.content then .error (.badDo d.line d.content) else .ok stack
  else if d.word = "set".toList then
    if setOk d.content then .ok stack else .error (.badSet d.line d.content)
  else if d.word ∈ ["import".toList, "include".toList, "from".toList] then .ok stack
  else .error (.unknown d.line d.word)

/-- The second loop of `main` and the check at the end of the file, `jinja_lint.py:152-252`. -/
def highCheck : List Str → List Dir → Option Err
  | [], [] => none
  | w :: _, [] => some (.openAtEnd w)
  | stack, d :: rest => match dirStep stack d with
    | .error e => some e
    | .ok st => highCheck st rest

/-- `main`, `jinja_lint.py:87-254`: `none` if the file passes. -/
def lint (o : Opts) (file : Str) : Option Err :=
  match lowCheck o none (lowTokens o file) with
  | some e => some e
  | none => highCheck [] (highTokens o file)

end Verif.Lint
