import Verif.Imports.Model
import Verif.Queries.Model
import Verif.Makefile.Model

/-!
# Model: the files a run depends on (camkes/parser, camkes/runner, camkes/templates/camkes-gen.cmake)

What a run of the parser and of the runner reads from the file system, what it reports in the rule that it writes for make, and what the
build does with that rule. The parsing of a text, the stages that look at no files, the preprocessor, the answers of queries and the
evaluation of templates are parameters.
-/

namespace Verif.Deps

open Imports (Path Item)

/-- The contents of a file. -/
abbrev Bytes := List UInt8

/-- What a path names. -/
inductive Node
  | file (b : Bytes)
  | dir
  deriving DecidableEq, Repr

/-- The file system, which does not change during a run. -/
abbrev FS := Path → Option Node

/-- `query.resolve`. -/
abbrev Resolver := List (List (QueryKeys.Key × Queries.Val)) → Except Queries.Err (List (QueryKeys.Key × Queries.Val))

/-- A class of queries and its option, camkes/parser/fdtQueryEngine.py:621-642, camkes/parser/gpioQueryEngine.py:37-59:
the file given on the command line, and what becomes of its contents (`none`: no such format). -/
structure QueryClass where
  name : String
  file : Option Path
  load : Bytes → Option Resolver

/-- What is not modelled. `σ`: statements, `β`: what is known after stage 7, `α`: the AST.
* `ws`, `isWord`: white space and word characters.
* `decode`: reading bytes as text.
* `absFrom`, `absIn`, `importpath`: as in `Imports.Env`.
* `cpp`: with `--cpp`, the preprocessor: the output and the lines of the file written because of `-MD -MF`.
* `grammar`: stage 1, camkes/parser/stage1.py:43-51.
* `front`: stages 3 to 7, which pass on the set of files; `back`: stages 8 to 10.
* `queries`: the classes of queries with their options. -/
structure World (σ β α : Type) where
  ws : Char → Bool
  isWord : Char → Bool
  decode : Bytes → Option String
  absFrom : Option Path → String → Path
  absIn : Path → String → Path
  importpath : List Path
  cpp : Option (FS → Path → Option (Bytes × List (List Char)))
  grammar : String → Option (List (Item σ))
  front : List (Option Path × σ) → Option (β × List Queries.Setting)
  back : β → List Queries.Setting → Option α
  queries : List QueryClass

/-- `parse_file` of `Reader` and of `CPP`, camkes/parser/stage0.py:40-69, 110-112: the text and the files besides the file itself. -/
def readFile (w : World σ β α) (fs : FS) (p : Path) : Option (String × List Path) :=
  match w.cpp with
  | none =>
    match fs p with
    | some (.file b) => (w.decode b).map fun t => (t, [])
    | _ => none
  | some run =>
    match run fs p with
    | none => none
    | some (out, rule) =>
      match w.decode out with
      | none => none
      | some t =>
        match Makefile.parseRule w.ws false rule with
        | .error _ => none
        | .ok deps => some (t, deps.map String.ofList)

/-- Stages 0 and 1, camkes/parser/stage1.py:43-51. -/
def parse1 (w : World σ β α) (fs : FS) (p : Path) : Option (List (Item σ) × List Path) :=
  match readFile w fs p with
  | none => none
  | some (t, deps) => (w.grammar t).map fun items => (items, deps)

/-- The surroundings of stage 2, camkes/parser/parser.py:29-50. -/
def env (w : World σ β α) (fs : FS) : Imports.Env σ where
  exists_ p := (fs p).isSome
  absFrom := w.absFrom
  absIn := w.absIn
  importpath := w.importpath
  parse1 := parse1 w fs

/-- `check_options`, camkes/parser/fdtQueryEngine.py:628-635, camkes/parser/gpioQueryEngine.py:45-52. A file that cannot be read ends the
run: the handler itself fails, as a `str` has no `name`. Without a file each query fails, as there is nothing to ask. -/
def loadQuery (fs : FS) (c : QueryClass) : Option Queries.Engine :=
  match c.file with
  | none => some ⟨fun _ => .error .attr, []⟩
  | some p =>
    match fs p with
    | some (.file b) => (c.load b).map fun r => ⟨r, [p]⟩
    | _ => none

/-- `parse_query_parser_args`, camkes/parser/query.py:74-83. -/
def loadQueries (fs : FS) : List QueryClass → Option (List (String × Queries.Engine))
  | [] => some []
  | c :: cs =>
    match loadQuery fs c with
    | none => none
    | some e => (loadQueries fs cs).map fun es => (c.name, e) :: es

/-- `main` of the parser without its outputs, camkes/parser/__main__.py:86-94, camkes/parser/parser.py:29-96: the AST and the set of files
that were read. `none` if it fails (or if the budget `n` of stage 2 runs out). -/
def parserMain (w : World σ β α) (fs : FS) (n : Nat) (file : Path) : Option (α × List Path) :=
  match loadQueries fs w.queries with
  | none => none
  | some queries =>
    match Imports.parseFile (env w fs) n file with
    | some (.ok (stmts, seen)) =>
      match w.front stmts with
      | none => none
      | some (mid, settings) =>
        match Queries.resolve w.isWord queries seen settings with
        | .error _ => none
        | .ok (settings, seen) => (w.back mid settings).map fun a => (a, seen)
    | _ => none

/-- Insertion in a sorted list without repetitions. -/
def insert (p : Path) : List Path → List Path
  | [] => [p]
  | q :: qs => if p = q then q :: qs else if p < q then p :: q :: qs else q :: insert p qs

/-- `sorted` of a set. -/
def sortedSet (l : List Path) : List Path := l.foldr insert []

/-- What is written to the file of `--makefile-dependencies`, camkes/parser/__main__.py:100-102, camkes/runner/__main__.py:305-309. -/
def ruleText (target : List Char) (read_ : List Path) : List Char :=
  (Makefile.writeRule target ((sortedSet read_).map String.toList)).flatten

/-- `dd bs=${strlen} skip=1`, camkes/templates/camkes-gen.cmake:114-115, 140: the text without as many characters as the name of the
build directory and one more. -/
def truncated (binDir text : List Char) : List Char := text.drop (binDir.length + 1)

/-- Iterating over the lines of an open file. -/
def linesOf : List Char → List (List Char)
  | [] => []
  | c :: cs =>
    if c = '\n' then ['\n'] :: linesOf cs
    else match linesOf cs with | [] => [[c]] | l :: ls => (c :: l) :: ls

/-! ### Rendering -/

/-- The evaluation of a template: `include`, `import` and `extends` ask for the source of another template and are told if there is none. -/
inductive Prog (γ : Type)
  | done (g : γ)
  | fail
  | load (name : String) (k : Option String → Prog γ)

/-- What is not modelled of the runner. `ι`: what is rendered, `ρ`: the state that is shared between templates.
* `join`: the path of a template in a directory (`none` for names with `..`).
* `render`: evaluating the source of a template, with the options of the run. -/
structure Tool (ι ρ : Type) where
  decode : Bytes → Option String
  dirs : List Path
  join : Path → String → Option Path
  render : ι → String → ρ → Prog (String × ρ)

/-- What a loader answers. -/
inductive Found
  | missing
  | broken
  | found (p : Path) (s : String)

/-- `get_source` of one loader, camkes/runner/Renderer.py:55-59. A directory counts as missing. -/
def inDir (t : Tool ι ρ) (fs : FS) (d : Path) (name : String) : Found :=
  match t.join d name with
  | none => .missing
  | some p =>
    match fs p with
    | some (.file b) => match t.decode b with | some s => .found p s | none => .broken
    | _ => .missing

/-- `jinja2.ChoiceLoader` over the directories of templates, camkes/runner/Renderer.py:66-73. -/
def find (t : Tool ι ρ) (fs : FS) (name : String) : List Path → Found
  | [] => .missing
  | d :: ds => match inDir t fs d name with | .missing => find t fs name ds | r => r

/-- The cache of the environment (`auto_reload=False`, camkes/runner/Renderer.py:81) and the files that the loaders have logged,
camkes/runner/Renderer.py:53, 58, 101-105. -/
structure Log where
  cache : List (String × String)
  files : List Path

/-- `env.get_template`, camkes/runner/Renderer.py:89: the source, or that there is none. `none` if the file cannot be decoded. -/
def getTemplate (t : Tool ι ρ) (fs : FS) (name : String) (l : Log) : Option (Option String × Log) :=
  match l.cache.lookup name with
  | some s => some (some s, l)
  | none =>
    match find t fs name t.dirs with
    | .missing => some (none, l)
    | .broken => none
    | .found p s => some (some s, ⟨(name, s) :: l.cache, p :: l.files⟩)

/-- `t.render(context)`, camkes/runner/Renderer.py:91. -/
def eval (t : Tool ι ρ) (fs : FS) : Prog γ → Log → Option (γ × Log)
  | .done g, l => some (g, l)
  | .fail, _ => none
  | .load name k, l =>
    match getTemplate t fs name l with
    | none => none
    | some (s, l) => eval t fs (k s) l

/-- The loop over the items, camkes/runner/__main__.py:274-298: an item and its template. -/
def renderAll (t : Tool ι ρ) (fs : FS) : List (ι × String) → ρ → Log → Option (List String × ρ × Log)
  | [], s, l => some ([], s, l)
  | (i, name) :: rest, s, l =>
    match getTemplate t fs name l with
    | none => none
    | some (none, _) => none
    | some (some src, l) =>
      match eval t fs (t.render i src s) l with
      | none => none
      | some ((out, s), l) =>
        match renderAll t fs rest s l with
        | none => none
        | some (outs, s, l) => some (out :: outs, s, l)

/-- `main` of the runner without its outputs, camkes/runner/__main__.py:239-305: the texts of the files, the state that is saved, and the
files that were used. The AST, the options and the state at the start are given. -/
def runnerMain (t : Tool ι ρ) (fs : FS) (jobs : List (ι × String)) (s : ρ) : Option (List String × ρ × List Path) :=
  match renderAll t fs jobs s ⟨[], []⟩ with
  | none => none
  | some (outs, s, l) => some (outs, s, l.files)

end Verif.Deps
