import Verif.VerNames.Model
import Verif.Diag.Spec

/-!
# Specification (C141)
-/

namespace Verif.VerNames

open Verif.Diag (Text IsLetter)

/-- The path of a file whose name is `stem`, up to the first dot. -/
def Stem (path stem : Text) : Prop :=
  ∃ dir ext, path = dir ++ stem ++ ext ∧ (dir = [] ∨ ∃ d, dir = d ++ ['/']) ∧ '/' ∉ stem ∧ '.' ∉ stem ∧
    (ext = [] ∨ ∃ e, ext = '.' :: e ∧ '/' ∉ e)

/-- A name that begins with a letter. -/
def Begins (s : Text) : Prop := ∃ c r, s = c :: r ∧ IsLetter c

/-- The theory `name` of a session is looked for in `file`, next to the file `root` of the session. -/
def LooksFor (root name file : Text) : Prop := ∃ d, root = d ++ "ROOT".toList ∧ file = d ++ name ++ ".thy".toList

end Verif.VerNames
