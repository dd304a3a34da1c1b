import Verif.Imports.Model

/-!
# Specification vocabulary for import resolution

Written from the documentation of `import`, without reference to the work-list
loop: what a file stands for once its imports have been replaced, depth first.
-/

namespace Verif.Imports.Spec
open Verif.Imports

/-- The text between the quotes / angle brackets of an import. -/
def content : Item σ → Option String
  | .quoted lits => some (String.join (lits.map fun s => String.ofList ((s.toList.drop 1).dropLast)))
  | .angle lit => some (String.ofList ((lit.toList.drop 1).dropLast))
  | _ => none

/-- `Names env file i t`: the import `i`, occurring in `file`, denotes the existing file `t`.
A quoted import is taken relative to the importing file; an angle import is
looked up in the *first* import path entry that has it. -/
inductive Names (env : Env σ) (file : Option Path) : Item σ → Path → Prop
  | quoted (lits : List String) (c : String) :
      content (σ := σ) (.quoted lits) = some c →
      env.exists_ (env.absFrom file c) = true →
      Names env file (.quoted lits) (env.absFrom file c)
  | angle (lit c : String) (before after : List Path) (dir : Path) :
      content (σ := σ) (.angle lit) = some c →
      env.importpath = before ++ dir :: after →
      (∀ d ∈ before, env.exists_ (env.absIn d c) = false) →
      env.exists_ (env.absIn dir c) = true →
      Names env file (.angle lit) (env.absIn dir c)

/-- Result of expanding a sequence of items: either the flat list of
statements (tagged with the file they stand in) and the set of files read so
far, or an error. -/
abbrev Res (σ : Type) := Except Err (List (Option Path × σ) × List Path)

/-- Depth-first meaning of a sequence of items standing in `file`, when the
files in `seen` have been read already. -/
inductive Expands (env : Env σ) : Option Path → List Path → List (Item σ) → Res σ → Prop
  | nil : Expands env file seen [] (.ok ([], seen))
  | empty : Expands env file seen is r → Expands env file seen (.empty :: is) r
  | stmt : Expands env file seen is (.ok (out, seen')) →
      Expands env file seen (.stmt s :: is) (.ok ((file, s) :: out, seen'))
  | stmtErr : Expands env file seen is (.error e) →
      Expands env file seen (.stmt s :: is) (.error e)
  /-- an import that denotes no existing file -/
  | missing : content i = some c → (∀ t, ¬ Names env file i t) →
      Expands env file seen (i :: is) (.error (.notFound c))
  /-- an import of a file already read stands for nothing -/
  | again : Names env file i t → t ∈ seen → Expands env file seen is r →
      Expands env file seen (i :: is) r
  /-- an imported file that cannot be read or parsed -/
  | unreadable : Names env file i t → t ∉ seen → env.parse1 t = none →
      Expands env file seen (i :: is) (.error (.unreadable t))
  /-- the first import of a file stands for the expansion of that file -/
  | first : Names env file i t → t ∉ seen → env.parse1 t = some (js, r) →
      Expands env (some t) (t :: (r ++ seen)) js (.ok (out₁, seen₁)) →
      Expands env file seen₁ is (.ok (out₂, seen₂)) →
      Expands env file seen (i :: is) (.ok (out₁ ++ out₂, seen₂))
  | firstErrIn : Names env file i t → t ∉ seen → env.parse1 t = some (js, r) →
      Expands env (some t) (t :: (r ++ seen)) js (.error e) →
      Expands env file seen (i :: is) (.error e)
  | firstErrAfter : Names env file i t → t ∉ seen → env.parse1 t = some (js, r) →
      Expands env (some t) (t :: (r ++ seen)) js (.ok (out₁, seen₁)) →
      Expands env file seen₁ is (.error e) →
      Expands env file seen (i :: is) (.error e)

/-- The statements a file contains itself, in source order. -/
def ownStmts (is : List (Item σ)) : List σ :=
  is.filterMap fun | .stmt s => some s | _ => none

/-- The statements of `out` that stand in `f`, in the order of `out`. -/
def stmtsFrom (f : Option Path) (out : List (Option Path × σ)) : List σ :=
  out.filterMap fun p => if p.1 = f then some p.2 else none

/-- Only finitely many files exist. -/
def FiniteFS (env : Env σ) : Prop := ∃ files : List Path, ∀ p, env.exists_ p = true → p ∈ files

end Verif.Imports.Spec
