/-!
# Model of the stage-2 parser: import resolution

Source: `/repo/camkes/parser/stage2.py` (class `Parse2`), together with the
contract of stages 0 and 1 it relies on (`/repo/camkes/parser/stage0.py`,
`/repo/camkes/parser/stage1.py`).
-/

namespace Verif.Imports

/-- A path on the host, as the string the Python code manipulates. -/
abbrev Path := String

/-- One child of a stage-1 `start` node, as far as stage 2 looks at it
(`stage2.py` 41-56, 69):
* `empty`  – a token without a `head` attribute, i.e. an empty statement;
* `quoted` – `import "a" "b";`: a `multi_string`, the literals still quoted;
* `angle`  – `import <a>;`: an `angle_string`, still in its angle brackets;
* `stmt`   – anything else; its contents (`σ`) are opaque to this stage. -/
inductive Item (σ : Type) where
  | empty
  | quoted (literals : List String)
  | angle (literal : String)
  | stmt (s : σ)
deriving Repr, DecidableEq

/-- The two ways stage 2 can fail: line 82 (`import '...' not found`), or an
exception coming out of stage 0/1 while reading the named file. -/
inductive Err where
  | notFound (content : String)
  | unreadable (file : Path)
deriving Repr, DecidableEq

/-- Everything stage 2 gets from its surroundings.
* `exists_`     – `os.path.exists` (lines 65, 74);
* `absFrom`     – lines 60-64: `os.path.abspath(os.path.join(os.path.dirname(f), c))`
                  for `some f`, `os.path.abspath(c)` for `none` (input from a string);
* `absIn`       – lines 72-73: `os.path.abspath(os.path.join(prefix, c))`;
* `importpath`  – line 28;
* `parse1`      – `Parse1.parse_file` (`stage1.py` 43-51): the children of the
                  `start` node and the set of files read *besides the file itself*
                  (stage 0 always adds the file itself: `stage0.py` 67 and
                  `Reader.parse_file`); `none` when reading or parsing raises.
Simplification: the source text, which is only carried along, is left out; the
file system does not change during a run. -/
structure Env (σ : Type) where
  exists_ : Path → Bool
  absFrom : Option Path → String → Path
  absIn : Path → String → Path
  importpath : List Path
  parse1 : Path → Option (List (Item σ) × List Path)

/-- `x[1:-1]`, lines 58 and 69. -/
def strip (s : String) : String := String.ofList ((s.toList.drop 1).dropLast)

/-- Lines 56-66: the target of a quoted import. -/
def quotedTarget (env : Env σ) (file : Option Path) (content : String) : Option Path :=
  let target := env.absFrom file content
  if env.exists_ target then some target else none

/-- Lines 71-77: the `for … else` loop over the import path. -/
def angleTarget (env : Env σ) (content : String) : List Path → Option Path
  | [] => none
  | pre :: rest =>
    let target := env.absIn pre content
    if env.exists_ target then some target else angleTarget env content rest

/-- State of the `while` loop at lines 38-97. The queue entries are the pairs
(`filename`, `item`). -/
structure St (σ : Type) where
  queue : List (Option Path × Item σ)
  seen : List Path
  final : List (Option Path × σ)

/-- Lines 79-94, common to both kinds of import. -/
def doImport (env : Env σ) (content : String) (target : Option Path)
    (rest : List (Option Path × Item σ)) (s : St σ) : Except Err (St σ) :=
  match target with
  | none => .error (.notFound content)
  | some t =>
    if t ∈ s.seen then
      .ok { s with queue := rest }
    else
      match env.parse1 t with
      | none => .error (.unreadable t)
      | some (items, r) =>
        .ok { s with
          queue := items.map (fun i => (some t, i)) ++ rest
          seen := t :: (r ++ s.seen) }

/-- One iteration of the loop body (lines 39-97), the queue being non-empty. -/
def body (env : Env σ) (file : Option Path) (item : Item σ)
    (rest : List (Option Path × Item σ)) (s : St σ) : Except Err (St σ) :=
  match item with
  | .empty => .ok { s with queue := rest }
  | .quoted lits =>
    let content := String.join (lits.map strip)
    doImport env content (quotedTarget env file content) rest s
  | .angle lit =>
    let content := strip lit
    doImport env content (angleTarget env content env.importpath) rest s
  | .stmt x => .ok { s with queue := rest, final := s.final ++ [(file, x)] }

/-- The `while` loop with a step budget; `none` means the budget ran out. -/
def loop (env : Env σ) : Nat → St σ → Option (Except Err (List (Option Path × σ) × List Path))
  | 0, _ => none
  | n + 1, s =>
    match s.queue with
    | [] => some (.ok (s.final, s.seen))
    | (file, item) :: rest =>
      match body env file item rest s with
      | .error e => some (.error e)
      | .ok s' => loop env n s'

/-- `_resolve` (lines 30-99) started on the children `items` of a file's `start` node. -/
def resolve (env : Env σ) (fuel : Nat) (file : Option Path) (items : List (Item σ))
    (seen : List Path) : Option (Except Err (List (Option Path × σ) × List Path)) :=
  loop env fuel { queue := items.map (fun i => (file, i)), seen := seen, final := [] }

/-- `parse_file`, lines 101-103. -/
def parseFile (env : Env σ) (fuel : Nat) (file : Path) :
    Option (Except Err (List (Option Path × σ) × List Path)) :=
  match env.parse1 file with
  | none => some (.error (.unreadable file))
  | some (items, r) => resolve env fuel (some file) items (file :: r)

/-- `parse_string`, lines 105-107. Stage 0's read set of a string is empty, or
the included headers when the preprocessor is used. -/
def parseString (env : Env σ) (fuel : Nat) (items : List (Item σ)) (r : List Path) :
    Option (Except Err (List (Option Path × σ) × List Path)) :=
  resolve env fuel none items r

end Verif.Imports
