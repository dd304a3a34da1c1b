import Verif.Deps.Model

/-!
# Specification: when a change cannot matter

Two states of the file system, `fs` at the time of a run and `fs'` later.
-/

namespace Verif.Deps.Spec

open Imports (Path)

/-- The listed files are as they were. -/
def Untouched (fs fs' : FS) (files : List Path) : Prop := ∀ p ∈ files, fs' p = fs p

/-- No file and no directory has been created, removed or replaced by one of the other kind. Contents may differ. -/
def SameNames (fs fs' : FS) : Prop :=
  ∀ p, (fs p = none ↔ fs' p = none) ∧ (fs p = some .dir ↔ fs' p = some .dir)

/-- The preprocessor reports what it reads: while the file and the files named by the rule that it wrote are as they were, and no file
appears or disappears, it does the same again. -/
def Honest (ws : Char → Bool) (cpp : FS → Path → Option (Bytes × List (List Char))) : Prop :=
  ∀ fs fs' p out rule names, cpp fs p = some (out, rule) → Makefile.parseRule ws false rule = .ok names →
    SameNames fs fs' → fs' p = fs p → Untouched fs fs' (names.map String.ofList) → cpp fs' p = some (out, rule)

/-- The files given for queries can be read, whether they are asked about or not. -/
def Loadable (fs : FS) (classes : List QueryClass) : Prop :=
  ∀ c ∈ classes, ∀ p, c.file = some p → ∃ b r, fs p = some (.file b) ∧ c.load b = some r

/-- A name that survives in a rule: not empty, no white space, no backslash. -/
def Plain (ws : Char → Bool) (p : Path) : Prop := p.toList ≠ [] ∧ ∀ c ∈ p.toList, ws c = false ∧ c ≠ '\\'

/-- `text` is a rule that lists exactly the files in `files`, each once and in order. -/
def Lists (ws : Char → Bool) (text : List Char) (files : List Path) : Prop :=
  ∃ names : List Path, Makefile.parseRule ws false (linesOf text) = .ok (names.map String.toList) ∧
    names.Pairwise (· < ·) ∧ ∀ p, p ∈ names ↔ p ∈ files

/-- What a tool that only looks at the rule sees: some listed file differs. -/
def Noticed (ws : Char → Bool) (text : List Char) (fs fs' : FS) : Prop :=
  ∃ names p, Makefile.parseRule ws false (linesOf text) = .ok names ∧ p.toList ∈ names ∧ fs' p ≠ fs p

/-- `p` holds the template `name`: it is in the first of the directories that has it. -/
def Holds (join : Path → String → Option Path) (dirs : List Path) (fs : FS) (name : String) (p : Path) : Prop :=
  ∃ before d after, dirs = before ++ d :: after ∧ join d name = some p ∧ (∃ b, fs p = some (.file b)) ∧
    ∀ e ∈ before, ∀ q, join e name = some q → ∀ b, fs q ≠ some (.file b)

end Verif.Deps.Spec
