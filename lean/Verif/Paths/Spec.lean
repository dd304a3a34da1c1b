import Verif.Paths.Model

/-!
# Specification: files and directories, and how the operating system follows a path
-/

namespace Verif.Paths

/-- A place in the tree of directories: the names from the root. -/
abbrev Loc := List Text

/-- A file system: which places are directories, and the symbolic links, each with the place that it stands for. -/
structure Fs where
  isDir : Loc → Bool
  link : Loc → Option Loc

/-- The place that a name in a directory stands for. -/
def Fs.enter (fs : Fs) (d : Loc) (n : Text) : Loc := (fs.link (d ++ [n])).getD (d ++ [n])

/-- Names of files. -/
def Name (n : Text) : Prop := n ≠ [] ∧ '/' ∉ n ∧ n ≠ ['.'] ∧ n ≠ ['.', '.']

/-- The end of a path, or of one of its components. -/
def Ends (p : Text) : Prop := p = [] ∨ ∃ r, p = '/' :: r

/-- The operating system gets from `d` to `l` along `p`. -/
inductive Walk (fs : Fs) : Loc → Text → Loc → Prop
  | here (d) : Walk fs d [] d
  | slash {d p l} : fs.isDir d = true → Walk fs d p l → Walk fs d ('/' :: p) l
  | dot {d p l} : fs.isDir d = true → Ends p → Walk fs d p l → Walk fs d ('.' :: p) l
  | up {d p l} : fs.isDir d = true → Ends p → Walk fs d.dropLast p l → Walk fs d ('.' :: '.' :: p) l
  | name {d p l} (n) : fs.isDir d = true → Name n → Ends p → Walk fs (fs.enter d n) p l → Walk fs d (n ++ p) l

/-- What a path names, for a process that works in `cwd`. -/
def Finds (fs : Fs) (cwd : Loc) (p : Text) (l : Loc) : Prop :=
  p ≠ [] ∧ Walk fs (if p.head? = some '/' then [] else cwd) p l

/-- The usual way to write a place. -/
def render (l : Loc) : Text := if l = [] then ['/'] else l.flatMap fun n => '/' :: n

/-- A tree: the root is a directory, what has something in it is a directory, and names are names. -/
structure Tree (fs : Fs) : Prop where
  root : fs.isDir [] = true
  parent : ∀ l n, fs.isDir (l ++ [n]) = true → fs.isDir l = true ∧ Name n

/-- There are no symbolic links. -/
def NoLinks (fs : Fs) : Prop := ∀ l, fs.link l = none

/-- The path begins with two slashes, and not with three. -/
def TwoSlashes (p : Text) : Prop := ∃ r, p = '/' :: '/' :: r ∧ r.head? ≠ some '/'

end Verif.Paths
