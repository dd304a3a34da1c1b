/-!
# Model: the pre-processor of theories (tools/tpp)

The generated theories for Isabelle are piped through `tpp`, which removes superfluous whitespace. The tool goes
through the lines of its input. A line that is a directive changes a property; any other line goes through a chain
of passes, each of which gives a line or drops it.

A line is the list of its characters without the newline. Whitespace and letters are those of ASCII. `eval` of
Python and `textwrap.wrap` are parameters of the model. The pass `Cowsay` (off by default) is not modelled.
-/

namespace Verif.Tpp

/-- A line without its newline, tools/tpp:217-219. -/
abbrev Line := List Char

/-- A value of Python, as far as the passes look at it. -/
inductive Val where
  | none
  | bool (b : Bool)
  | int (n : Int)
  /-- anything else: true or not, but no number -/
  | other (truthy : Bool)
deriving DecidableEq, Repr

/-- What is taken from Python. -/
structure Env where
  /-- `eval`, tools/tpp:224; `none` is an exception -/
  eval : List Char → Option Val
  /-- `textwrap.wrap(text, 80, subsequent_indent=n * ' ')`, tools/tpp:131-132 -/
  wrap : List Char → Nat → List Line

/-- The options that switch passes on or off, tools/tpp:186-190. -/
structure Opts where
  rstrip : Bool
  dropLeading : Bool
  condense : Bool
  lockIndent : Bool
  accumulate : Bool
  brackets : Bool
  braces : Bool
  commas : Bool
  duplicates : Bool
deriving DecidableEq, Repr

/-- The defaults of the passes, tools/tpp:37, 52, 60, 73, 83, 112, 142, 152, 161. -/
def Opts.default : Opts := ⟨true, true, true, true, true, true, true, true, true⟩

/-- Why the tool stops. -/
inductive Stop where
  /-- the assertion of the pass that accumulates, tools/tpp:126 -/
  | assertion
  /-- an exception: the indentation is no number, tools/tpp:91 -/
  | noNumber
  /-- the bound on the steps of the model is reached (not in the code) -/
  | fuel
deriving DecidableEq, Repr

/-- The properties that passes look at, and the state of the passes, tools/tpp:39, 62, 115, 200. -/
structure St where
  /-- `condense` -/
  condense : Option Val := .none
  /-- `lock_indent` -/
  lock : Option Val := .none
  /-- `accumulate` -/
  acc : Option Val := .none
  lastempty : Bool := false
  initial : Bool := true
  accumulated : Option (List Char) := .none
deriving DecidableEq, Repr

/-- Whitespace of Python, ASCII only. -/
def isSpace (c : Char) : Bool := c == ' ' || c == '\t' || c == '\n' || c == '\r' || c == '\x0b' || c == '\x0c'

/-- `str.lstrip`, `str.rstrip`, `str.strip`. -/
def lstrip (l : List Char) : List Char := l.dropWhile isSpace
def rstrip (l : List Char) : List Char := (l.reverse.dropWhile isSpace).reverse
def strip (l : List Char) : List Char := rstrip (lstrip l)

/-- Whether a value counts as true, and a property that is not set as false. -/
def truthy : Option Val → Bool
  | some (.bool b) => b
  | some (.int n) => n != 0
  | some (.other b) => b
  | _ => false

/-- `\w` in ASCII, tools/tpp:198. -/
def isWord (c : Char) : Bool := c.isAlphanum || c == '_'

/-- The characters after the given ones, if the text begins with these. -/
def after : List Char → List Char → Option (List Char)
  | [], l => some l
  | p :: ps, c :: cs => if c = p then after ps cs else none
  | _ :: _, [] => none

/-- `directive_syntax.match(line.strip())`, tools/tpp:198, 221: the name and the text of the value. The greedy `.*`
takes all up to the `*)` at the end. -/
def directive (line : Line) : Option (List Char × List Char) :=
  match after ['(', '*', '*'] (strip line) with
  | none => none
  | some r =>
    match r with
    | [] => none
    | c :: _ =>
      if isSpace c then
        match after ['T', 'P', 'P', ':'] (lstrip r) with
        | none => none
        | some r =>
          let r := lstrip r
          let name := r.takeWhile isWord
          if name = [] then none
          else
            match after ['='] (lstrip (r.dropWhile isWord)) with
            | none => none
            | some r =>
              match after [')', '*'] (lstrip r).reverse with
              | none => none
              | some v => some (name, v.reverse)
      else none

/-- `RemoveDuplicateNewlines`, tools/tpp:40-48. -/
def removeDuplicates (st : St) (l : Line) : St × Option Line :=
  if strip l = [] then if st.lastempty then (st, none) else ({ st with lastempty := true }, some l)
  else ({ st with lastempty := false }, some l)

/-- `DropLeadingBlankLines`, tools/tpp:63-69. -/
def dropLeading (st : St) (l : Line) : St × Option Line :=
  if !st.initial then (st, some l)
  else if strip l = [] then (st, none)
  else ({ st with initial := false }, some l)

/-- `Condense`, tools/tpp:76-79. -/
def condense (st : St) (l : Line) : Option Line :=
  if truthy st.condense ∧ strip l = [] then none else some l

/-- `LockIndent`, tools/tpp:86-92. A negative number gives no spaces, `True` gives one. -/
def lockIndent (st : St) (l : Line) : Except Stop Line :=
  if strip l = [] then .ok l
  else
    match st.lock with
    | none => .ok l
    | some .none => .ok l
    | some (.bool b) => .ok (List.replicate b.toNat ' ' ++ lstrip l)
    | some (.int n) => .ok (List.replicate n.toNat ' ' ++ lstrip l)
    | some (.other _) => .error .noNumber

/-- `Accumulate.__call__`, tools/tpp:116-127. -/
def accumulate (st : St) (l : Line) : Except Stop (St × Option Line) :=
  if truthy st.acc then
    match st.accumulated with
    | none => if strip l = [] then .ok (st, none) else .ok ({ st with accumulated := some (l ++ [' ']) }, none)
    | some a => .ok ({ st with accumulated := some (a ++ (strip l ++ [' '])) }, none)
  else
    match st.accumulated with
    | some _ => .error .assertion
    | none => .ok (st, some l)

/-- `Accumulate.notify`, tools/tpp:128-135. -/
def notify (env : Env) (o : Opts) (st : St) : St × List Line :=
  if o.accumulate then
    match st.accumulated with
    | some a =>
      if truthy st.acc then (st, [])
      else
        let l := rstrip a
        ({ st with accumulated := none }, env.wrap l (l.length - (lstrip l).length + 2))
    | none => (st, [])
  else (st, [])

/-- `re.sub('([^ ]) X', '\1X', line)`, tools/tpp:138, 148, 158: matches from left to right that do not overlap. -/
def before (x : Char) : List Char → List Char
  | a :: b :: d :: r => if a ≠ ' ' ∧ b = ' ' ∧ d = x then a :: x :: before x r else a :: before x (b :: d :: r)
  | a :: r => a :: before x r
  | [] => []

/-- `re.sub('X ([^ ])', 'X\1', line)`, tools/tpp:139, 149. -/
def behind (x : Char) : List Char → List Char
  | a :: b :: d :: r => if a = x ∧ b = ' ' ∧ d ≠ ' ' then x :: d :: behind x r else a :: behind x (b :: d :: r)
  | a :: r => a :: behind x r
  | [] => []

/-- `CompressBrackets`, `CompressBraces`, `CompressCommas`, tools/tpp:144-145, 154-155, 163-164. -/
def compress (o : Opts) (l : Line) : Line :=
  let l := if o.brackets then before ')' (behind '(' l) else l
  let l := if o.braces then before '}' (behind '{' l) else l
  if o.commas then before ',' l else l

/-- The passes over a line in their order, tools/tpp:174-185, 242-250. -/
def passes (o : Opts) (st : St) (l : Line) : Except Stop (St × Option Line) :=
  let l := if o.rstrip then rstrip l else l
  match (if o.dropLeading then dropLeading st l else (st, some l)) with
  | (st, none) => .ok (st, none)
  | (st, some l) =>
    match (if o.condense then condense st l else some l) with
    | none => .ok (st, none)
    | some l =>
      match (if o.lockIndent then lockIndent st l else .ok l) with
      | .error e => .error e
      | .ok l =>
        match (if o.accumulate then accumulate st l else .ok (st, some l)) with
        | .error e => .error e
        | .ok (st, none) => .ok (st, none)
        | .ok (st, some l) =>
          let l := compress o l
          .ok (if o.duplicates then removeDuplicates st l else (st, some l))

/-- A directive sets a property if its value can be evaluated, tools/tpp:223-231. -/
def setProp (env : Env) (st : St) (name value : List Char) : St :=
  match env.eval value with
  | none => st
  | some v =>
    if name = "condense".toList then { st with condense := some v }
    else if name = "lock_indent".toList then { st with lock := some v }
    else if name = "accumulate".toList then { st with acc := some v }
    else st

/-- The loop over the lines, tools/tpp:204-253: lines that were pushed back come first. The result is what is
written and the state at the end. -/
def loop (env : Env) (o : Opts) : Nat → St → List Line → List Line → Except Stop (List Line × St)
  | 0, _, _, _ => .error .fuel
  | n + 1, st, buf, inp =>
    match buf, inp with
    | [], [] => .ok ([], st)
    | l :: buf, inp =>
      match directive l with
      | some (k, v) =>
        let r := notify env o (setProp env st k v)
        loop env o n r.1 (buf ++ r.2) inp
      | none =>
        match passes o st l with
        | .error e => .error e
        | .ok (st, none) => loop env o n st buf inp
        | .ok (st, some w) =>
          match loop env o n st buf inp with
          | .error e => .error e
          | .ok (out, st) => .ok (w :: out, st)
    | [], l :: inp =>
      match directive l with
      | some (k, v) =>
        let r := notify env o (setProp env st k v)
        loop env o n r.1 r.2 inp
      | none =>
        match passes o st l with
        | .error e => .error e
        | .ok (st, none) => loop env o n st [] inp
        | .ok (st, some w) =>
          match loop env o n st [] inp with
          | .error e => .error e
          | .ok (out, st) => .ok (w :: out, st)

/-- The tool run on the lines of a file, tools/tpp:200-253. -/
def run (env : Env) (o : Opts) (fuel : Nat) (inp : List Line) : Except Stop (List Line × St) := loop env o fuel {} [] inp

/-- Whether the tool warns at the end, tools/tpp:255-256. -/
def warns (st : St) : Bool := truthy st.condense

end Verif.Tpp
