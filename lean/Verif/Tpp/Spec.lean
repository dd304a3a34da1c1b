import Verif.Tpp.Model

/-!
# Specification: only whitespace is changed
-/

namespace Verif.Tpp.Spec

/-- Whitespace. -/
def Space (c : Char) : Prop := c ∈ [' ', '\t', '\n', '\r', '\x0b', '\x0c']
instance : DecidablePred Space := fun c => by unfold Space; infer_instance

/-- What is visible of a text. -/
def ink (t : List Char) : List Char := t.filter fun c => ¬ Space c

def Blank (t : List Char) : Prop := ∀ c ∈ t, Space c
instance : DecidablePred Blank := fun t => by unfold Blank; infer_instance

/-- The line is a directive for the property with the text of its value: `(** TPP: name = value *)`, with any
space around. -/
def Directive (l : Line) (name value : List Char) : Prop :=
  ∃ s0 s1 s2 s3 s4 s5, Blank s0 ∧ Blank s1 ∧ Blank s2 ∧ Blank s3 ∧ Blank s4 ∧ Blank s5 ∧ s1 ≠ [] ∧
    name ≠ [] ∧ (∀ c ∈ name, c.isAlphanum ∨ c = '_') ∧ (∀ c, value.head? = some c → ¬ Space c) ∧
    l = s0 ++ "(**".toList ++ s1 ++ "TPP:".toList ++ s2 ++ name ++ s3 ++ "=".toList ++ s4 ++ value ++ "*)".toList ++ s5

/-- The lines that are no directives. -/
noncomputable def plain (inp : List Line) : List Line :=
  open Classical in inp.filter fun l => ¬ ∃ k v, Directive l k v

/-- The text of a file. -/
def text (ls : List Line) : List Char := ls.flatMap fun l => l ++ ['\n']

/-- The longest runs of characters of a class. -/
def runs (P : Char → Prop) [DecidablePred P] : List Char → List (List Char)
  | [] => []
  | [c] => if P c then [[c]] else []
  | c :: d :: r =>
    if P c then
      if P d then
        match runs P (d :: r) with
        | w :: ws => (c :: w) :: ws
        | [] => [[c]]
      else [c] :: runs P (d :: r)
    else runs P (d :: r)

/-- What `textwrap.wrap` guarantees: the same visible characters, in lines that have some. -/
structure Wraps (wrap : List Char → Nat → List Line) : Prop where
  ink : ∀ t i, ink (text (wrap t i)) = Spec.ink t
  inked : ∀ t i, ∀ l ∈ wrap t i, ¬ Blank l

/-- What it guarantees if each word fits on a line: only hyphens break words. -/
def Fits (wrap : List Char → Nat → List Line) : Prop :=
  ∀ t i, (∀ w ∈ runs (fun c => ¬ Space c) t, w.length + i ≤ 80) →
    ∀ (P : Char → Prop) [DecidablePred P], (∀ c, P c → ¬ Space c ∧ c ≠ '-') → runs P (text (wrap t i)) = runs P t

/-- Among the lines there is no text that would be a directive if it came to stand on a line of its own. -/
def NoneHidden (inp : List Line) : Prop := ¬ ∃ a b, ink (text (plain inp)) = a ++ "(**TPP:".toList ++ b

/-- The lines are narrow: words have at most `w` characters, and lines and directives at most an indentation of `i`,
so that all fits on a line of 80. -/
structure Narrow (eval : List Char → Option Val) (inp : List Line) (w i : Nat) : Prop where
  pos : 1 ≤ i
  width : w + i + 2 ≤ 80
  words : ∀ l ∈ inp, ∀ x ∈ runs (fun c => ¬ Space c) l, x.length ≤ w
  indents : ∀ l ∈ inp, ∀ s r, l = s ++ r → Blank s → s.length ≤ i ∨ Blank r
  locks : ∀ l ∈ inp, ∀ v n, Directive l "lock_indent".toList v → eval v = some (.int n) → n ≤ i

/-- Blank lines: none at the start, and none after another. -/
def squeeze (drop : Bool) : List (List Char) → List (List Char)
  | [] => []
  | x :: xs => if x = [] then if drop then squeeze true xs else [] :: squeeze true xs else x :: squeeze false xs

/-- No two blank lines follow each other. -/
def NoDouble (ls : List Line) : Prop := ∀ a b x y, ls = a ++ x :: y :: b → ¬ (Blank x ∧ Blank y)

/-- A space between visible characters that is to be removed: after an opening bracket, before a closing one or a comma. -/
def Loose (l : Line) : Prop :=
  ∃ a b x y, l = a ++ [x, ' ', y] ++ b ∧ x ≠ ' ' ∧ y ≠ ' ' ∧ (x ∈ ['(', '{'] ∨ y ∈ [')', '}', ','])

/-- Two opening brackets of a kind, two closing ones or two commas, with a space between them. -/
def Twice (l : Line) : Prop :=
  ∃ a b x, l = a ++ [x, ' ', x] ++ b ∧ x ∈ ['(', '{', ')', '}', ',']

/-- The visible lines of a file: blank lines are left out where `condense` is on. -/
inductive Visible (eval : List Char → Option Val) : Bool → List Line → List (List Char) → Prop
  | nil (c) : Visible eval c [] []
  | line (c l ls out) : (¬ ∃ k v, Directive l k v) → ¬ (c = true ∧ Blank l) → Visible eval c ls out →
      Visible eval c (l :: ls) (ink l :: out)
  | left (l ls out) : (¬ ∃ k v, Directive l k v) → Blank l → Visible eval true ls out → Visible eval true (l :: ls) out
  | set (c c' l v x ls out) : Directive l "condense".toList v → eval v = some x →
      (c' = true ↔ x = .bool true ∨ x = .other true ∨ ∃ n, n ≠ 0 ∧ x = .int n) → Visible eval c' ls out → Visible eval c (l :: ls) out
  | bad (c l k v ls out) : Directive l k v → eval v = none → Visible eval c ls out → Visible eval c (l :: ls) out
  | other (c l k v ls out) : Directive l k v → k ≠ "condense".toList → Visible eval c ls out → Visible eval c (l :: ls) out

end Verif.Tpp.Spec
