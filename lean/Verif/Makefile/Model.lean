/-!
# Model: reading make rules (camkes/parser/stage0.py)

A file is the list of its lines; a line is a list of characters with its line end. Which characters
count as white space for `strip` and `split` is a parameter (Python decides this by a Unicode table).
-/

namespace Verif.Makefile

abbrev Text := List Char

/-- `str.strip()`. -/
def strip (ws : Char → Bool) (l : Text) : Text := ((l.dropWhile ws).reverse.dropWhile ws).reverse

/-- `str.split()`, with the characters of the current word. -/
def wordsAux (ws : Char → Bool) : Text → Text → List Text
  | cur, [] => if cur = [] then [] else [cur]
  | cur, c :: cs =>
    if ws c then (if cur = [] then wordsAux ws [] cs else cur :: wordsAux ws [] cs)
    else wordsAux ws (cur ++ [c]) cs

/-- `str.split()`: the words separated by white space. -/
def words (ws : Char → Bool) (l : Text) : List Text := wordsAux ws [] l

/-- Group 1 of the match of `.*?:(.*)$`, camkes/parser/stage0.py:129: what follows the first colon. -/
def afterColon : Text → Option Text
  | [] => none
  | c :: cs => if c = ':' then some cs else afterColon cs

/-- `parse_makefile_rule`, camkes/parser/stage0.py:118-138. The generator is modelled by the list of
what it yields; the error occurs before anything is yielded. The first argument is `in_deps`. -/
def parseRule (ws : Char → Bool) : Bool → List Text → Except String (List Text)
  | _, [] => .ok []
  | inDeps, l :: ls =>
    let line := strip ws l
    if line = [] then parseRule ws inDeps ls
    else
      match (if inDeps then some line else afterColon line) with
      | none => .error "unexpected dependency line"
      | some body =>
        let deps := (words ws body).filter (fun d => !decide (d = ['\\']))
        if body.getLast? = some '\\' then
          match parseRule ws true ls with
          | .ok rest => .ok (deps ++ rest)
          | .error e => .error e
        else .ok deps

/-- The lines of the rule that the runner writes, `'%s: \\\n  %s\n' % (target, ' \\\n  '.join(files))`,
camkes/runner/__main__.py:308-310 (without line ends, which `strip` removes). -/
def writeRule (target : Text) (files : List Text) : List Text :=
  (target ++ [':', ' ', '\\', '\n']) ::
  match files with
  | [] => [[' ', ' ', '\n']]
  | f :: fs => lines f fs
where
  /-- The lines of the files that remain. -/
  lines : Text → List Text → List Text
    | f, [] => [' ' :: ' ' :: f ++ ['\n']]
    | f, g :: gs => (' ' :: ' ' :: f ++ [' ', '\\', '\n']) :: lines g gs

end Verif.Makefile
