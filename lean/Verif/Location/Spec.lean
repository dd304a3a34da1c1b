import Verif.Location.Model

/-!
# Specification: line directives (C07)

Nothing here refers to the functions that recognise directives.
-/

namespace Verif.Location.Spec

/-- A text made of the given lines. -/
def joinLines : List Str → Str
  | [] => []
  | [l] => l
  | l :: ls => l ++ '\n' :: joinLines ls

/-- Blank characters. -/
def Blank (c : Char) : Prop := c ∈ [' ', '\t', '\r', '\n', '\x0b', '\x0c']

/-- A list of decimal digits and the number that they write. -/
inductive Decimal : Str → Nat → Prop
  | nil : Decimal [] 0
  | snoc {ds n c} (d : Nat) : Decimal ds n → "0123456789".toList[d]? = some c → Decimal (ds ++ [c]) (10 * n + d)

/-- What follows the number names the file `f`: blanks, then `f` in quotes. -/
def Names (tail f : Str) : Prop :=
  ∃ sp rest, sp ≠ [] ∧ (∀ c ∈ sp, Blank c) ∧ '"' ∉ f ∧ tail = sp ++ '"' :: (f ++ '"' :: rest)

/-- The line is a directive with number `n` and (perhaps) a file: `# n`, `#line n`, `# n "file"`,
with blanks anywhere between, and anything at the end. -/
def IsDirective (line : Str) (n : Nat) (file : Option Str) : Prop :=
  ∃ sp1 sp2 kw sp3 ds tail, line = sp1 ++ '#' :: (sp2 ++ (kw ++ (sp3 ++ (ds ++ tail)))) ∧
    (∀ c ∈ sp1, Blank c) ∧ (∀ c ∈ sp2, Blank c) ∧ (kw = [] ∨ kw = ['l', 'i', 'n', 'e']) ∧ (∀ c ∈ sp3, Blank c) ∧
    ds ≠ [] ∧ Decimal ds n ∧ (∀ c m, tail.head? = some c → ¬ Decimal [c] m) ∧
    (match file with | some f => Names tail f | none => ∀ f, ¬ Names tail f)

/-- The number a reader expects for the line after `before`: one more than the lines since
the last directive, counting from the number that directive gives. -/
inductive LineOf : List Str → Nat → Prop
  | noDirective (before) : (∀ l ∈ before, ∀ n f, ¬ IsDirective l n f) → LineOf before (before.length + 1)
  | after (pre d post n f) : IsDirective d n f → (∀ l ∈ post, ∀ n f, ¬ IsDirective l n f) →
      LineOf (pre ++ d :: post) (n + post.length)

/-- The file a reader expects for the line after `before`: the one named by the last
directive that names a file, else the file being parsed. -/
inductive FileOf (base : Option Str) : List Str → Option Str → Prop
  | noFile (before) : (∀ l ∈ before, ∀ n f, ¬ IsDirective l n (some f)) →
      FileOf base before base
  | after (pre d post n f) : IsDirective d n (some f) →
      (∀ l ∈ post, ∀ n f, ¬ IsDirective l n (some f)) →
      FileOf base (pre ++ d :: post) (some f)

end Verif.Location.Spec
