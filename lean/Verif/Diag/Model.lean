/-!
# Model: what the tools say, and the checks that they make before they start

Text is a list of characters. Standard error is the list of the messages that reach it.
-/

namespace Verif.Diag

abbrev Text := List Char

/-! ## Messages -/

/-- `-q`, `-v`, `-D`: runner/__main__.py:70-75, parser/__main__.py:51-56. -/
inductive Flag
  | quiet | verbose | debug
  deriving DecidableEq

/-- The constant that a flag stores. -/
def Flag.const : Flag → Nat
  | .quiet => 0
  | .verbose => 2
  | .debug => 3

/-- `options.verbosity`: the default is 1, and each flag overwrites what is there (`store_const`). -/
def verbosity (fs : List Flag) : Nat := fs.foldl (fun _ f => f.const) 1

/-- The functions of camkes/internal/log.py:32-37. -/
inductive Level
  | debug | info | warning | error | exception | critical
  deriving DecidableEq

/-- The numbers that Python's `logging` gives to the levels; `exception` logs as an error. -/
def Level.number : Level → Nat
  | .debug => 10
  | .info => 20
  | .warning => 30
  | .error => 40
  | .exception => 40
  | .critical => 50

/-- `set_verbosity`, log.py:21-29. -/
def threshold (v : Nat) : Nat :=
  if v = 0 then Level.critical.number + 1
  else if v = 2 then Level.info.number
  else if v = 3 then Level.debug.number
  else Level.warning.number

/-- A message reaches standard error if its level is not below the threshold. -/
def shown (v : Nat) (l : Level) : Bool := threshold v ≤ l.number

/-- What was logged. -/
abbrev Log := List (Level × Text)

/-- What is seen of it. -/
def seen (v : Nat) (log : Log) : List Text := (log.filter (fun m => shown v m.1)).map (·.2)

/-- The traceback of `die`, runner/__main__.py:62-63. -/
def traceback (tb : Text) : Text :=
  "\n --- Python traceback ---\n".toList ++ tb ++ " ------------------------\n".toList

/-- `_die`, runner/__main__.py:54-64, and `die`, parser/__main__.py:23-34: the messages; the program then
exits with -1. A single message is a list of one. -/
def die (lines : List Text) (tb : Text) : Log := lines.map (fun l => (.error, l)) ++ [(.debug, traceback tb)]

/-- What a program did. -/
structure Outcome (α : Type) where
  /-- the argument of `sys.exit` -/
  code : Int
  /-- standard error -/
  err : List Text
  /-- what was saved -/
  saved : Option α
  deriving DecidableEq

/-- `main` of the parser, parser/__main__.py:85-104; `parse` is the result of `parse_file`, or the arguments of
the exception and its traceback. Writing the rule for make is C42. -/
def parserMain {α : Type} (fs : List Flag) (parse : Except (List Text × Text) α) : Outcome α :=
  match parse with
  | .error e => ⟨-1, seen (verbosity fs) (die e.1 e.2), none⟩
  | .ok ast => ⟨0, [], some ast⟩

/-- `rendering_error`, runner/__main__.py:167-171; `tb` are the lines of the traceback. -/
def renderingError (item : Text) (args tb : List Text) : List Text :=
  args.map (fun l => "While rendering ".toList ++ item ++ ": ".toList ++ l) ++ tb

/-! ## Names of theories -/

/-- `[a-zA-Z]`. -/
def letter (c : Char) : Bool := ('a' ≤ c && c ≤ 'z') || ('A' ≤ c && c ≤ 'Z')

/-- `[a-zA-Z0-9_]`. -/
def word (c : Char) : Bool := letter c || ('0' ≤ c && c ≤ '9') || c = '_'

/-- The check of `--verification-base-name`, runner/__main__.py:157-162: `re.match(r'[a-zA-Z][a-zA-Z0-9_]*$', name)`.
The star takes all that it can; giving some of it back would not help, as the end must follow. `$` matches at the
end and also before a newline at the end. -/
def baseNameOk : Text → Bool
  | [] => false
  | c :: r => letter c && (r.dropWhile word = [] || r.dropWhile word = ['\n'])

/-- `os.path.basename`. -/
def baseName (p : Text) : Text := (p.reverse.takeWhile (· ≠ '/')).reverse

/-- The name without a `.thy` at its end, macros.py:446-447. -/
def withoutThy (b : Text) : Text :=
  if ".thy".toList.isSuffixOf b then b.take (b.length - 4) else b

/-- `check_isabelle_outfile`, macros.py:441-449: whether the assertion holds. -/
def outfileOk (thy outfile : Text) : Bool := thy = withoutThy (baseName outfile)

/-! ## The types of attributes -/

/-- The value of an attribute, as Python has it. -/
inductive Value
  | none
  | str (s : Text)
  | int (n : Int)
  | bool (b : Bool)
  /-- a float; which one does not matter -/
  | float
  | list (vs : List Value)
  | dict

/-- `isinstance(value, six.string_types)`. -/
def Value.isStr : Value → Bool
  | .str _ => true
  | _ => false

/-- `isinstance(value, numbers.Number)`: Python's booleans are integers. -/
def Value.isNumber : Value → Bool
  | .int _ => true
  | .bool _ => true
  | .float => true
  | _ => false

def Value.isNone : Value → Bool
  | .none => true
  | _ => false

/-- An attribute of a component: its name, its type (`none` for a structure) and whether it is an array. -/
structure Attr where
  name : Text
  type : Option Text
  array : Bool

/-- An instance and the attributes of its type. -/
structure Inst where
  name : Text
  attributes : List Attr

/-- The two messages, runner/__main__.py:230-237. -/
def notString (i a : Text) : Text :=
  "attribute ".toList ++ i ++ ".".toList ++ a ++ " has type string but is set to a value that is not a string".toList
def notInt (i a : Text) : Text :=
  "attribute ".toList ++ i ++ ".".toList ++ a ++ " has type int but is set to a value that is not an integer".toList

/-- The test of one attribute, runner/__main__.py:226-237. -/
def warnAttr (conf : Text → Text → Value) (i : Inst) (a : Attr) : Log :=
  let v := conf i.name a.name
  if v.isNone then []
  else if a.type = some "string".toList && !v.isStr then [(.warning, notString i.name a.name)]
  else if a.type = some "int".toList && !v.isNumber then [(.warning, notInt i.name a.name)]
  else []

/-- The checks for verbose output, runner/__main__.py:216-237; `conf` is `assembly.configuration`. -/
def warnTypes (v : Nat) (is : List Inst) (conf : Text → Text → Value) : Log :=
  if 2 ≤ v then is.flatMap fun i => i.attributes.flatMap (warnAttr conf i) else []

/-! ## The runner -/

/-- What the runner renders, in order: the text of an item, or the name of what was being rendered with the
arguments of the `TemplateError`, the lines of its traceback and the traceback as a whole. -/
abbrev Rendered := Except (Text × List Text × List Text × Text) Text

/-- The loop over the items, runner/__main__.py:266-301: the texts that were written and, if rendering failed,
what is logged. -/
def renderAll : List Rendered → List Text × Option Log
  | [] => ([], none)
  | .ok t :: rs => let q := renderAll rs; (t :: q.1, q.2)
  | .error (item, args, lines, tb) :: _ => ([], some (die (renderingError item args lines) tb))

/-- `main` of the runner, runner/__main__.py:174-315, once its arguments are parsed and checked (C60): the message
about the locale is written whatever the verbosity. `saved` are the texts that were written. -/
def runnerMain (encoding : Text) (fs : List Flag) (is : List Inst) (conf : Text → Text → Value) (rs : List Rendered) :
    Outcome (List Text) :=
  if encoding.map Char.toLower = "utf-8".toList ∨ encoding.map Char.toLower = "utf8".toList then
    let v := verbosity fs
    let ws := warnTypes v is conf
    match renderAll rs with
    | (ts, none) => ⟨0, seen v ws, some ts⟩
    | (ts, some log) => ⟨-1, seen v (ws ++ log), some ts⟩
  else
    ⟨-1, ["CAmkES uses UTF-8 encoding, but your locale's preferred encoding is ".toList ++ encoding.map Char.toLower ++
      ". You can override your locale with the LANG environment variable.\n".toList], none⟩

end Verif.Diag
