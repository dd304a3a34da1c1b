/-!
# Model: the checker of dependencies (C128)

tools/check_deps.py. What other programs answer is a parameter (`Env`). The text that is written is a list of events
instead of characters, without colours.
-/

namespace Verif.DepCheck

abbrev Text := List Char

/-- What `importlib.import_module` does: it gives a module with some attributes, raises `ImportError`, or raises something
else (a syntax error in the module, say). -/
inductive Import
  | module (attr : Text → Bool)
  | importError
  | otherError

/-- What the checker finds on the machine. A call is `none` when it raises: the program cannot be started or, for
`check_output`, its status is not zero. -/
structure Env where
  /-- the status of `which <name>`, check_deps.py:52 -/
  which : Text → Option Int
  /-- the output of `pylint --version`, check_deps.py:65 -/
  pylint : Option Text
  /-- check_deps.py:79 and 93 -/
  imp : Text → Import
  /-- the status of `pkg-config --cflags <name>`, check_deps.py:103 -/
  pkgConfig : Text → Option Int
  /-- whether gcc compiles the program for CUnit, check_deps.py:134 -/
  cunit : Option Bool

/-- The texts of `CheckDepException`, check_deps.py:68, 71-72, 95-96, 250. The numbers in the text about the version are rounded
to one digit after the point, which is left out. -/
inductive Msg
  | notFound
  | noVersion
  | tooOld (major minor : Text)
  | noAttr (name attr : Text)
  deriving DecidableEq

/-- How `exists()` ends: with an answer, with `CheckDepException`, or with another exception. -/
inductive Outcome
  | answer (b : Bool)
  | refuse (m : Msg)
  | crash
  deriving DecidableEq

/-- The subclasses of `Package`, check_deps.py:33-140, but for `Or`. The least version of pylint is the digits before and
after the point of the number in the program. -/
inductive Simple
  | binary (name desc : Text)
  | pylint (name desc major minor : Text)
  | module (name desc : Text)
  | moduleWith (name desc attr : Text)
  | library (name desc : Text)
  | cunit (name desc : Text)

/-- A `Package`; the members of an `Or` are not themselves an `Or` (as in check_deps.py:181-227). -/
inductive Package
  | one (p : Simple)
  | or (ps : List Simple)

def Simple.name : Simple → Text
  | .binary n _ | .pylint n _ _ _ | .module n _ | .moduleWith n _ _ | .library n _ | .cunit n _ => n

def Simple.desc : Simple → Text
  | .binary _ d | .pylint _ d _ _ | .module _ d | .moduleWith _ d _ | .library _ d | .cunit _ d => d

/-- `' or '.join`, check_deps.py:109. -/
def joinOr : List Text → Text
  | [] => []
  | [t] => t
  | t :: u :: r => t ++ [' ', 'o', 'r', ' '] ++ joinOr (u :: r)

def Package.name : Package → Text
  | .one p => p.name
  | .or ps => joinOr (ps.map Simple.name)

/-- check_deps.py:110. -/
def Package.desc : Package → Text
  | .one p => p.desc
  | .or _ => ['.', '.', '.']

/-! ## The version of pylint -/

/-- `\d`, for ASCII. -/
def isDigit (c : Char) : Bool := '0' ≤ c ∧ c ≤ '9'

/-- `\s`, for ASCII. -/
def isSpace (c : Char) : Bool := c = ' ' ∨ c = '\t' ∨ c = '\n' ∨ c = '\r' ∨ c = '\x0b' ∨ c = '\x0c'

/-- The digits of the version at this place: `\d+\.\d+`, check_deps.py:66. -/
def digitsAt (t : Text) : Option (Text × Text) :=
  let a := t.takeWhile isDigit
  match t.dropWhile isDigit with
  | '.' :: r =>
    let b := r.takeWhile isDigit
    if a = [] ∨ b = [] then none else some (a, b)
  | _ => none

/-- `pylint\s+(\d+\.\d+)` at this place, check_deps.py:66. A shorter match of the spaces or digits cannot be continued, so
there is nothing to go back to. -/
def versionAt : Text → Option (Text × Text)
  | 'p' :: 'y' :: 'l' :: 'i' :: 'n' :: 't' :: c :: r => if isSpace c then digitsAt (r.dropWhile isSpace) else none
  | _ => none

/-- `re.search` with `^` and `re.MULTILINE`, check_deps.py:66: the first match at the beginning of the text or behind a
line feed. `start` is whether this place is one of these. -/
def search : Bool → Text → Option (Text × Text)
  | _, [] => none
  | start, c :: r =>
    match (if start then versionAt (c :: r) else none) with
    | some v => some v
    | none => search (c = '\n') r

/-- The number that digits stand for. -/
def number (t : Text) : Nat := t.foldl (fun n c => 10 * n + (c.toNat - '0'.toNat)) 0

/-- `float(m.group(1)) < self.min_version`, check_deps.py:69-70, for decimal numbers; that floats are rounded is left
out. -/
def older (v w : Text × Text) : Bool :=
  number (v.1 ++ v.2) * 10 ^ w.2.length < number (w.1 ++ w.2) * 10 ^ v.2.length

/-! ## Whether a package exists -/

/-- `subprocess.call(...) == 0`, check_deps.py:50-53 and 101-104. -/
def called (status : Option Int) : Outcome :=
  match status with
  | none => .crash
  | some s => .answer (s = 0)

/-- `Pylint.exists`, check_deps.py:61-73. -/
def pylintExists (env : Env) (name major minor : Text) : Outcome :=
  match called (env.which name) with
  | .answer true =>
    match env.pylint with
    | none => .crash
    | some out =>
      match search true out with
      | none => .refuse .noVersion
      | some v => if older v (major, minor) then .refuse (.tooOld v.1 v.2) else .answer true
  | o => o

/-- `exists()` of each class, check_deps.py:49-140. -/
def Simple.exists (env : Env) : Simple → Outcome
  | .binary n _ => called (env.which n)
  | .pylint n _ a b => pylintExists env n a b
  | .module n _ =>
    match env.imp n with
    | .module _ => .answer true
    | .importError => .answer false
    | .otherError => .crash
  | .moduleWith n _ attr =>
    match env.imp n with
    | .module has => if has attr then .answer true else .refuse (.noAttr n attr)
    | .importError => .answer false
    | .otherError => .crash
  | .library n _ => called (env.pkgConfig n)
  | .cunit _ _ =>
    match env.cunit with
    | none => .crash
    | some b => .answer b

/-- `any(p.exists() for p in self.packages)`, check_deps.py:113-114. -/
def anyExists (env : Env) : List Simple → Outcome
  | [] => .answer false
  | p :: r =>
    match p.exists env with
    | .answer true => .answer true
    | .answer false => anyExists env r
    | o => o

def Package.exists (env : Env) : Package → Outcome
  | .one p => p.exists env
  | .or ps => anyExists env ps

/-! ## The checker -/

/-- What is written, check_deps.py:243-265. -/
inductive Event
  | header (component : Text)
  | checking (name desc : Text)
  | found
  | message (m : Msg)
  | cannot
  | blank
  | suggestions
  | suggest (name desc note : Text)
  deriving DecidableEq

/-- The state of `main`: what was written, and `ret`. A run that ends early is `none`. -/
structure St where
  out : List Event
  ret : Int

/-- The loop over the dependencies of a component, check_deps.py:242-254. The answer has the value of `ok`; without it, an
exception has left the loop. -/
def depLoop (env : Env) : St → Bool → List Package → St × Option Bool
  | s, ok, [] => (s, some ok)
  | s, ok, p :: r =>
    let s := { s with out := s.out ++ [.checking p.name p.desc] }
    match p.exists env with
    | .answer true => depLoop env { s with out := s.out ++ [.found] } ok r
    | .answer false => depLoop env { out := s.out ++ [.message .notFound], ret := -1 } false r
    | .refuse m => depLoop env { out := s.out ++ [.message m], ret := -1 } false r
    | .crash => (s, none)

/-- The loop over the components, check_deps.py:239-257. -/
def componentLoop (env : Env) (chosen : Option (List Text)) : St → List (Text × List Package) → St × Bool
  | s, [] => (s, true)
  | s, (k, ps) :: r =>
    if chosen.any (fun l => !l.contains k) then componentLoop env chosen s r
    else
      match depLoop env { s with out := s.out ++ [.header k] } true ps with
      | (s, none) => (s, false)
      | (s, some ok) =>
        componentLoop env chosen { s with out := s.out ++ (if ok then [] else [.cannot]) ++ [.blank] } r

/-- The loop over the extras, check_deps.py:259-265; `printed` is `printed_header`. -/
def extraLoop (env : Env) : St → Bool → List (Package × Text) → St × Bool
  | s, _, [] => (s, true)
  | s, printed, (p, note) :: r =>
    match p.exists env with
    | .answer true => extraLoop env s printed r
    | .answer false =>
      extraLoop env { s with out := s.out ++ (if printed then [] else [.suggestions]) ++ [.suggest p.name p.desc note] } true r
    | _ => (s, false)

/-- The order of Python strings. -/
def leText : Text → Text → Bool
  | [], _ => true
  | _ :: _, [] => false
  | a :: r, b :: t => if a = b then leText r t else a.toNat < b.toNat

def insert (x : Text × List Package) : List (Text × List Package) → List (Text × List Package)
  | [] => [x]
  | y :: r => if leText x.1 y.1 then x :: y :: r else y :: insert x r

/-- `sorted(DEPENDENCIES.items())`, check_deps.py:239. The keys of a dictionary are different, so the values are not
compared. -/
def sortItems (l : List (Text × List Package)) : List (Text × List Package) := l.foldr insert []

/-- How the program ends: the value that `main` returns, a usage error of `argparse`, or an exception. -/
inductive End
  | returns (ret : Int)
  | usage
  | crash
  deriving DecidableEq

/-- `main`, check_deps.py:230-267, with the options as parsed: the components that were given with `--component`. -/
def main (env : Env) (deps : List (Text × List Package)) (extras : List (Package × Text)) (chosen : Option (List Text)) :
    List Event × End :=
  if chosen.any (fun l => l.any (fun k => !(deps.map (·.1)).contains k)) then ([], .usage)
  else
    match componentLoop env chosen { out := [], ret := 0 } (sortItems deps) with
    | (s, false) => (s.out, .crash)
    | (s, true) =>
      match extraLoop env s false extras with
      | (s, false) => (s.out, .crash)
      | (s, true) => (s.out, .returns s.ret)

end Verif.DepCheck
