import Verif.Imports.Model

/-!
# Model: how the text of an import becomes the path of a file

`camkes/parser/stage2.py:56-77`, with the functions of Python's `posixpath` that it calls (`os.path.join`, `dirname`,
`normpath` and `abspath`). A path is a list of characters.
-/

namespace Verif.Paths

abbrev Text := List Char

/-- `s.split('/')`. -/
def split : Text → List Text
  | [] => [[]]
  | c :: s =>
    if c = '/' then [] :: split s
    else
      match split s with
      | [] => [[c]]
      | w :: ws => (c :: w) :: ws

/-- `'/'.join(ws)`. -/
def joinSep : List Text → Text
  | [] => []
  | [w] => w
  | w :: v :: ws => w ++ '/' :: joinSep (v :: ws)

/-- `posixpath.join(a, b)`. -/
def join (a b : Text) : Text :=
  if b.head? = some '/' then b
  else if a = [] ∨ a.getLast? = some '/' then a ++ b
  else a ++ '/' :: b

/-- `posixpath.dirname(p)`: up to the last slash, and without slashes at the end if there is anything else. -/
def dirname (p : Text) : Text :=
  let head := (p.reverse.dropWhile (· ≠ '/')).reverse
  if head.all (· = '/') then head else (head.reverse.dropWhile (· = '/')).reverse

/-- The loop of `posixpath.normpath`; `st` are the components so far, the last one first, and `rooted` tells whether the path
begins with a slash. -/
def normLoop (rooted : Bool) : List Text → List Text → List Text
  | st, [] => st
  | st, comp :: comps =>
    if comp = [] ∨ comp = ['.'] then normLoop rooted st comps
    else if comp ≠ ['.', '.'] ∨ (rooted = false ∧ st = []) ∨ st.head? = some ['.', '.'] then normLoop rooted (comp :: st) comps
    else normLoop rooted st.tail comps

/-- The number of slashes that `normpath` keeps at the start: exactly two are kept. -/
def initialSlashes : Text → Nat
  | '/' :: '/' :: '/' :: _ => 1
  | '/' :: '/' :: _ => 2
  | '/' :: _ => 1
  | _ => 0

/-- `posixpath.normpath(p)`. -/
def normpath (p : Text) : Text :=
  if p = [] then ['.']
  else
    let k := initialSlashes p
    let r := List.replicate k '/' ++ joinSep (normLoop (k ≠ 0) [] (split p)).reverse
    if r = [] then ['.'] else r

/-- `posixpath.abspath(p)`; `cwd` is the answer of `os.getcwd()`. -/
def abspath (cwd p : Text) : Text := normpath (if p.head? = some '/' then p else join cwd p)

/-- Where a quoted import leads, `camkes/parser/stage2.py:60-64`: `file` is the file that has the import, `none` for input that
is no file. -/
def quotedTarget (cwd : Text) (file : Option Text) (c : Text) : Text :=
  match file with
  | none => abspath cwd c
  | some f => abspath cwd (join (dirname f) c)

/-- Where an import in angle brackets leads for one directory of the import path, `camkes/parser/stage2.py:72-73`. -/
def angleTarget (cwd dir c : Text) : Text := abspath cwd (join dir c)

/-- The parser of stage 2 with these functions. -/
def stage2 {σ : Type} (cwd : Text) (exists_ : Imports.Path → Bool) (importpath : List Imports.Path)
    (parse1 : Imports.Path → Option (List (Imports.Item σ) × List Imports.Path)) : Imports.Env σ where
  exists_ := exists_
  absFrom f c := String.ofList (quotedTarget cwd (f.map String.toList) c.toList)
  absIn d c := String.ofList (angleTarget cwd d.toList c.toList)
  importpath := importpath
  parse1 := parse1

end Verif.Paths
