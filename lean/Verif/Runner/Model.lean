/-!
# Model: the command line of the runner (camkes/runner/__main__.py)
-/

namespace Verif.Runner

/-- An open file: `argparse.FileType('w')` opens every argument anew, except `-`, which stands for the
standard output. Two open files are the same object only if their identities are equal; a `set` of
them goes by identity. -/
structure File where
  ident : Nat
  path : String
  deriving DecidableEq, Repr

/-- Opening the `--outfile` arguments, camkes/runner/__main__.py:76-77. `next` is a fresh identity. -/
def openAll : Nat → List String → List File
  | _, [] => []
  | next, p :: ps => if p = "-" then ⟨0, p⟩ :: openAll next ps else ⟨next, p⟩ :: openAll (next + 1) ps

/-- The number of different identities, `len(set(options.outfile))`. -/
def distinct : List Nat → Nat
  | [] => 0
  | x :: xs => if x ∈ xs then distinct xs else distinct xs + 1

/-- The checks of `main` and the loop over the items, camkes/runner/__main__.py:193-203, 270, up to
the rendering of each item: what is rendered with which template into which file. The chained
comparison `a != b != c` is `a != b and b != c`. -/
def plan (outfiles : List File) (items templates : List String) : Except String (List (String × File × String)) :=
  if outfiles.length ≠ items.length ∧ items.length ≠ templates.length then
    .error "Different number of items and outfiles. Required one outfile location per item requested."
  else if distinct (outfiles.map (·.ident)) ≠ outfiles.length then
    .error "Duplicate outfiles requrested through --outfile."
  else .ok (items.zip (outfiles.zip templates))

/-- The command line. -/
def runnerPlan (outs items templates : List String) : Except String (List (String × File × String)) :=
  plan (openAll 1 outs) items templates

/-! ## Items

Texts are lists of characters here. -/

abbrev Text := List Char

/-- An instance of the assembly. -/
structure Inst where
  name : Text
  addressSpace : Text
  deriving DecidableEq, Repr

/-- An end of a connection, told apart by `id`, and the address space of its instance. -/
structure End where
  id : Nat
  addressSpace : Text
  deriving DecidableEq, Repr

/-- A connection. -/
structure Connection where
  name : Text
  fromEnds : List End
  toEnds : List End
  deriving DecidableEq, Repr

/-- The parts of the assembly that are looked at. -/
structure Assembly where
  instances : List Inst
  connections : List Connection

/-- What is rendered. -/
inductive Entity
  | inst (i : Inst)
  | end_ (e : End)
  | assembly
  deriving DecidableEq, Repr

/-- `str.split("/")`, with the characters of the current part. -/
def splitAux : Text → Text → List Text
  | cur, [] => [cur]
  | cur, c :: cs => if c = '/' then cur :: splitAux [] cs else splitAux (cur ++ [c]) cs

/-- `item.split("/")`, camkes/runner/__main__.py:271. -/
def split (item : Text) : List Text := splitAux [] item

/-- Python's `l[i]`: negative indices count from the end; `none` is an `IndexError`. -/
def pyIndex {α : Type} (l : List α) (i : Int) : Option α :=
  if 0 ≤ i then l[i.toNat]? else if -i ≤ l.length then l[(l.length + i).toNat]? else none

/-- `c.to_ends[int(key[3])]`, camkes/runner/__main__.py:278, 280. `num` is Python's `int` of a text
(`none` is a `ValueError`). -/
def endOf (num : Text → Option Int) (ends : List End) (key : List Text) : Except String End :=
  match key[3]? with
  | none => .error "IndexError"
  | some t => match num t with
    | none => .error "ValueError"
    | some k => match pyIndex ends k with
      | none => .error "IndexError"
      | some e => .ok e

/-- The entity and the `obj_key` of an item, camkes/runner/__main__.py:271-290. An error is an
uncaught exception or a call of `die`; both end the process. -/
def resolve (num : Text → Option Int) (asm : Assembly) (item : Text) : Except String (Entity × Option Text) :=
  let key := split item
  if key[0]? = some "component".toList then
    match key[1]? with
    | none => .error "IndexError"
    | some n => match asm.instances.find? (fun x => x.name = n) with
      | none => .error "IndexError"
      | some i => .ok (.inst i, some i.addressSpace)
  else if key[0]? = some "connector".toList then
    match key[1]? with
    | none => .error "IndexError"
    | some n => match asm.connections.find? (fun c => c.name = n) with
      | none => .error "IndexError"
      | some c => match key[2]? with
        | none => .error "IndexError"
        | some d =>
          if d = "to".toList then
            match endOf num c.toEnds key with
            | .error x => .error x
            | .ok e => .ok (.end_ e, some e.addressSpace)
          else if d = "from".toList then
            match endOf num c.fromEnds key with
            | .error x => .error x
            | .ok e => .ok (.end_ e, some e.addressSpace)
          else .error "Invalid connector end"
  else if key[0]? = some "assembly".toList then .ok (.assembly, none)
  else .error "does not have the correct formatting to render"

/-- The loop that renders the items and writes the files, camkes/runner/__main__.py:270-300: what has
been written to which file (by its position on the command line), and how it ended. `render` takes the
state that the items share. -/
def renderAll {S : Type} (num : Text → Option Int) (asm : Assembly)
    (render : S → Entity → Option Text → String → Except String (Text × S)) :
    S → List (Text × Nat × String) → List (Nat × Text) × Except String S
  | s, [] => ([], .ok s)
  | s, (item, file, template) :: rest =>
    match resolve num asm item with
    | .error x => ([], .error x)
    | .ok (ent, key) =>
      match render s ent key template with
      | .error x => ([], .error x)
      | .ok (g, s') =>
        let r := renderAll num asm render s' rest
        ((file, g) :: r.1, r.2)

end Verif.Runner
