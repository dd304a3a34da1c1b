import Verif.Lint.Model

/-!
# Specification: templates whose directives are nested
-/

namespace Verif.Lint.Spec

/-- The kinds of blocks. -/
inductive Kind | if_ | for_ | macro_ | call_
  deriving DecidableEq, Repr

/-- The word that begins a block. -/
def Kind.word : Kind → String
  | .if_ => "if" | .for_ => "for" | .macro_ => "macro" | .call_ => "call"

/-- The word that ends it. -/
def Kind.endWord : Kind → String
  | .if_ => "endif" | .for_ => "endfor" | .macro_ => "endmacro" | .call_ => "endcall"

/-- A text with a non-space, spaces, `=`, spaces and a non-space, in that order and next to each
other, of which the first is in the first line. -/
def Assignment (s : Str) : Prop :=
  ∃ a x sp1 sp2 y b, s = a ++ x :: sp1 ++ '=' :: sp2 ++ y :: b
    ∧ '\n' ∉ a ∧ isSpace x = false ∧ isSpace y = false
    ∧ (∀ c ∈ sp1, isSpace c = true) ∧ ∀ c ∈ sp2, isSpace c = true

/-- A directive that neither begins nor ends a block, and that may stand directly in a block of
kind `cur` (none: outside all blocks), `loop` being whether there is a `for` block around. -/
inductive Single (loop : Bool) (cur : Option Kind) (d : Dir) : Prop
  | elif_ : d.word = "elif".toList → cur = some .if_ → Single loop cur d
  | else_ : d.word = "else".toList → cur = some .if_ ∨ cur = some .for_ → d.content = [] →
      Single loop cur d
  | jump : d.word = "break".toList ∨ d.word = "continue".toList → loop = true → d.content = [] →
      Single loop cur d
  | do_ : d.word = "do".toList → (∃ c ∈ d.content, isWord c = false) → Single loop cur d
  | set_ : d.word = "set".toList → Assignment d.content → Single loop cur d
  | load : d.word = "import".toList ∨ d.word = "include".toList ∨ d.word = "from".toList →
      Single loop cur d

/-- Directives that are nested, in a block of kind `cur`. -/
inductive Nested : Bool → Option Kind → List Dir → Prop
  | nil {loop cur} : Nested loop cur []
  | single {loop cur} (d : Dir) (rest : List Dir) : Single loop cur d → Nested loop cur rest →
      Nested loop cur (d :: rest)
  | block {loop cur} (k : Kind) (b : Dir) (body : List Dir) (e : Dir) (rest : List Dir) :
      b.word = k.word.toList → Nested (loop || k == .for_) (some k) body →
      e.word = k.endWord.toList → e.content = [] → Nested loop cur rest →
      Nested loop cur (b :: body ++ e :: rest)

/-- The three pairs of texts. -/
def pairs (o : Opts) : List (Str × Str) :=
  [(o.blockStart, o.blockEnd), (o.variableStart, o.variableEnd), (o.commentStart, o.commentEnd)]

/-- Starts and ends that take turns and belong together. -/
inductive Paired (o : Opts) : List Str → Prop
  | nil : Paired o []
  | pair (p : Str × Str) (rest : List Str) : p ∈ pairs o → Paired o rest →
      Paired o (p.1 :: p.2 :: rest)

/-- Paired starts and ends; the last start may be without its end. -/
def Alternate (o : Opts) (ts : List Str) : Prop :=
  Paired o ts ∨ ∃ a p, Paired o a ∧ p ∈ pairs o ∧ ts = a ++ [p.1]

/-- What a message of the first part says of the token at which it is given: `a` are the tokens
before it. -/
inductive SaysLow (o : Opts) (a : List Str) (n : Nat) (t : Str) : Err → Prop
  | openingInside (b : List Str) (p q : Str × Str) : Paired o b → p ∈ pairs o → q ∈ pairs o →
      a = b ++ [p.1] → t = q.1 → SaysLow o a n t (.openingInside n t p.1)
  | closingOutside (q : Str × Str) : Paired o a → q ∈ pairs o → t = q.2 →
      SaysLow o a n t (.closingOutside n t)
  | closingWrong (b : List Str) (p q : Str × Str) : Paired o b → p ∈ pairs o → q ∈ pairs o → p ≠ q →
      a = b ++ [p.1] → t = q.2 → SaysLow o a n t (.closingWrong n t p.1)

/-- Directives in which blocks are open, the innermost first, and which are nested apart from
that. -/
inductive Opened : List Dir → List Kind → Prop
  | none (ds : List Dir) : Nested false none ds → Opened ds []
  | block (ds : List Dir) (ks : List Kind) (k : Kind) (b : Dir) (body : List Dir) : Opened ds ks →
      b.word = k.word.toList → Nested (decide (Kind.for_ ∈ k :: ks)) (some k) body →
      Opened (ds ++ b :: body) (k :: ks)

/-- What a message of the second part says of the directive at which it is given: `ks` are the
blocks that are open there. -/
def Says (ks : List Kind) (d : Dir) : Err → Prop
  | .notInside n w => n = d.line ∧ w = d.word ∧ ks = [] ∧ ∃ k : Kind, w = k.endWord.toList
  | .endInside n w c => n = d.line ∧ w = d.word ∧ ∃ k k' : Kind, k ≠ k' ∧ w = k.endWord.toList
      ∧ ks.head? = some k' ∧ c = k'.word.toList
  | .trailing n w c => n = d.line ∧ w = d.word ∧ c = d.content ∧ c ≠ []
      ∧ ((∃ k : Kind, w = k.endWord.toList)
        ∨ w ∈ ["else".toList, "break".toList, "continue".toList])
  | .notInIf n w => n = d.line ∧ w = d.word ∧ w = "elif".toList ∧ ks.head? ≠ some .if_
  | .notInIfFor n w => n = d.line ∧ w = d.word ∧ w = "else".toList ∧ ks.head? ≠ some .if_
      ∧ ks.head? ≠ some .for_
  | .notInFor n w => n = d.line ∧ w = d.word ∧ w ∈ ["break".toList, "continue".toList]
      ∧ Kind.for_ ∉ ks
  | .badDo n c => n = d.line ∧ d.word = "do".toList ∧ c = d.content ∧ ∀ x ∈ c, isWord x = true
  | .badSet n c => n = d.line ∧ d.word = "set".toList ∧ c = d.content ∧ ¬ Assignment c
  | .unknown n w => n = d.line ∧ w = d.word ∧ (∀ k : Kind, w ≠ k.word.toList ∧ w ≠ k.endWord.toList)
      ∧ w ∉ ["elif", "else", "break", "continue", "do", "set", "import", "include", "from"].map
        String.toList
  | _ => False

/-- The texts are different and not empty, and none begins with another. -/
structure Usable (o : Opts) : Prop where
  distinct : o.all.Nodup
  nonempty : ∀ t ∈ o.all, t ≠ []
  apart : ∀ t ∈ o.all, ∀ u ∈ o.all, t <+: u → t = u

/-- The tokens of a line from left to right: between them no token begins. -/
inductive Tokens (o : Opts) : Str → List Str → Prop
  | nil : Tokens o [] []
  | other (c : Char) (l : Str) (ts : List Str) : (∀ t ∈ o.all, ¬ t <+: c :: l) → Tokens o l ts →
      Tokens o (c :: l) ts
  | token (t l : Str) (ts : List Str) : t ∈ o.all → Tokens o l ts → Tokens o (t ++ l) (t :: ts)

/-- The lines of a file, each with its line end, which the last may be without. -/
inductive Lines : Str → List Str → Prop
  | nil : Lines [] []
  | last (l : Str) : l ≠ [] → '\n' ∉ l → Lines l [l]
  | line (l rest : Str) (ls : List Str) : '\n' ∉ l → Lines rest ls →
      Lines (l ++ '\n' :: rest) ((l ++ ['\n']) :: ls)

/-- The tokens of lines with the numbers of the lines, which begin with `n`. -/
inductive Numbered (o : Opts) : Nat → List Str → List (Nat × Str) → Prop
  | nil (n : Nat) : Numbered o n [] []
  | line (n : Nat) (l : Str) (ls : List Str) (ts : List Str) (rest : List (Nat × Str)) :
      Tokens o l ts → Numbered o (n + 1) ls rest →
      Numbered o n (l :: ls) (ts.map (fun t => (n, t)) ++ rest)

/-! ### Templates -/

/-- A piece of a template: text, and a block with its characters of white space control. -/
structure Piece where
  text : Str
  pre : Option Char
  body : Str
  post : Option Char
  deriving DecidableEq, Repr

/-- A piece as it is written. -/
def Piece.write (o : Opts) (p : Piece) : Str :=
  p.text ++ o.blockStart ++ p.pre.toList ++ p.body ++ p.post.toList ++ o.blockEnd

/-- `pat` occurs in `s ++ pat` at the end only. -/
def OnlyAtEnd (pat s : Str) : Prop := ∀ j, j < s.length → ¬ pat <+: (s ++ pat).drop j

/-- A piece that can be read in one way only: blocks begin and end where they seem to. -/
structure Piece.Clear (o : Opts) (p : Piece) : Prop where
  text : OnlyAtEnd o.blockStart p.text
  body : OnlyAtEnd o.blockEnd (p.body ++ p.post.toList)
  pre : ∀ c, p.pre = some c → c = '-' ∨ c = '+'
  noPre : p.pre = none → ∀ c, (p.body ++ p.post.toList ++ o.blockEnd).head? = some c →
    c ≠ '-' ∧ c ≠ '+'
  post : ∀ c, p.post = some c → c = '-' ∨ c = '+'
  noPost : p.post = none → ∀ c, p.body.getLast? = some c → c ≠ '-' ∧ c ≠ '+'

/-- The block has the directive `d`: after white space a word, and the rest without white space
around it. -/
structure HasDir (s : Str) (d : Dir) : Prop where
  shape : ∃ sp rest, s = sp ++ d.word ++ rest ∧ (∀ c ∈ sp, isSpace c = true)
    ∧ (∀ c, rest.head? = some c → isWord c = false)
    ∧ ∃ l r, rest = l ++ d.content ++ r ∧ (∀ c ∈ l, isSpace c = true) ∧ ∀ c ∈ r, isSpace c = true
  word : d.word ≠ [] ∧ ∀ c ∈ d.word, isWord c = true
  content : (∀ c, d.content.head? = some c → isSpace c = false)
    ∧ ∀ c, d.content.getLast? = some c → isSpace c = false

/-- The block has no directive: after white space there is no word. -/
def NoDir (s : Str) : Prop :=
  ∃ sp rest, s = sp ++ rest ∧ (∀ c ∈ sp, isSpace c = true)
    ∧ ∀ c, rest.head? = some c → isSpace c = false ∧ isWord c = false

/-- The directives of a template, from line `n` on: one for each piece that has one, in the line
where its block begins. -/
inductive Directives (o : Opts) : Nat → List Piece → List Dir → Prop
  | nil (n : Nat) : Directives o n [] []
  | piece (n : Nat) (p : Piece) (ps : List Piece) (d : Dir) (ds : List Dir) :
      HasDir p.body d → d.line = n + p.text.count '\n' →
      Directives o (n + (p.write o).count '\n') ps ds → Directives o n (p :: ps) (d :: ds)
  | skip (n : Nat) (p : Piece) (ps : List Piece) (ds : List Dir) : NoDir p.body →
      Directives o (n + (p.write o).count '\n') ps ds → Directives o n (p :: ps) ds

/-- The template as it is written; `tail` is the text after the last block. -/
def written (o : Opts) (ps : List Piece) (tail : Str) : Str := ps.flatMap (Piece.write o) ++ tail

end Verif.Lint.Spec
