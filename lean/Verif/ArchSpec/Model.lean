/-!
# The generated formal description of an assembly

Model of `camkes/templates/arch-definitions.thy` (the template of the Isabelle theory that
describes an assembly to its proofs), of `isabelle_ident` and `isabelle_ADL_ident`
(`camkes/templates/macros.py:452-467`), of the shorthands for them and `uniq`, `flatMap`
(`camkes/runner/Context.py:192-217`) and of `interface_is_exported`
(`camkes/ast/objects.py:705-709`).

The theory is modelled as the list of its definitions and of the names that its lemmas mention,
in the order of the text; white space, comments, attributes of definitions and the proof scripts
are left out.
-/

namespace Verif.ArchSpec

/-- Names and other text.  Simplification: Python strings are lists of characters. -/
abbrev Str := List Char

/-! ### The assembly -/

/-- The direction of a parameter, `camkes/ast/objects.py:957`. -/
inductive Dir | inp | refin | out | inout
  deriving DecidableEq, Repr

/-- A parameter, `camkes/ast/objects.py:956-976`. -/
structure Param where
  name : Str
  dir : Dir
  type : Str
  array : Bool
  deriving DecidableEq, Repr

/-- A method, `camkes/ast/objects.py:887-918`. -/
structure Method where
  name : Str
  ret : Option Str
  params : List Param
  deriving DecidableEq, Repr

/-- A procedure type, `camkes/ast/objects.py:862-884`; its name is `None` where it is written in
place.  `other` stands for the members that the template does not read, which count when two
types are compared. -/
structure Proc where
  name : Option Str
  methods : List Method
  other : Nat
  deriving DecidableEq, Repr

/-- A `uses` or `provides` interface, `camkes/ast/objects.py:723-744`; `optional` is false for
`provides`, which has no such member. -/
structure ProcIface where
  name : Str
  optional : Bool
  type : Proc
  deriving DecidableEq, Repr

/-- An `emits`, `consumes` or `dataport` interface, `camkes/ast/objects.py:747-774`, whose type is
text; `optional` is false where there is no such member (`emits`). -/
structure TextIface where
  name : Str
  optional : Bool
  type : Str
  deriving DecidableEq, Repr

/-- A component type, `camkes/ast/objects.py:606-703`; its name is `None` where it is written in
place.  `exports` are the names of the interfaces its composition exports.  Attributes are given
by name and by the text their type prints as.  `other` stands for the members that the template
does not read, which count when two types are compared. -/
structure Comp where
  name : Option Str
  control : Bool
  hardware : Bool
  uses : List ProcIface
  provides : List ProcIface
  dataports : List TextIface
  emits : List TextIface
  consumes : List TextIface
  attributes : List (Str × Str)
  exports : List Str
  other : Nat
  deriving DecidableEq, Repr

/-- What a connector joins, `camkes/ast/objects.py:796-801`. -/
inductive Joins | dataport | event | procedure
  deriving DecidableEq, Repr

/-- A connector, `camkes/ast/objects.py:796-846`; `spec` is the default of its attribute
`isabelle_connector_spec`, `other` stands for the members that the template does not read, which
count when two connectors are compared. -/
structure Connector where
  name : Option Str
  fromHardware : Bool
  toHardware : Bool
  joins : Joins
  spec : Option Str
  other : Nat
  deriving DecidableEq, Repr

/-- An instance, `camkes/ast/objects.py:357-375`. -/
structure Inst where
  name : Str
  type : Comp
  deriving DecidableEq, Repr

/-- A connection; an end is the name of an instance and of an interface,
`camkes/ast/objects.py:378-500, 980-1020`. -/
structure Conn where
  name : Str
  type : Connector
  froms : List (Str × Str)
  tos : List (Str × Str)
  deriving DecidableEq, Repr

/-- The assembly the template is rendered for, `camkes/ast/objects.py:169-240`.  `holds` says that
the frozen configuration has an entry for some instance (it is what `if me.configuration` tests:
`MapLike.__len__`, `camkes/ast/base.py:273-275`), `groups` the sorted items of
`integrity_group_labels`, `policy` the sorted result of `get_policy_extra`.  Simplification:
setting values are the text they print as. -/
structure Assembly where
  name : Option Str
  compositionName : Option Str
  configurationName : Option Str
  insts : List Inst
  conns : List Conn
  holds : Bool
  settings : List (Str × Str × Str)
  groups : List (Str × Str)
  policy : List (Str × Str × Str)
  deriving Repr

/-! ### The theory -/

/-- The numerical types of the theory. -/
inductive Num | integer | unsigned | real | boolean
  deriving DecidableEq, Repr

/-- The textual types of the theory. -/
inductive Txt | char | character | string
  deriving DecidableEq, Repr

/-- The primitive types of the theory. -/
inductive Prim | num (n : Num) | txt (t : Txt)
  deriving DecidableEq, Repr

/-- The types of the theory. -/
inductive Ty | prim (p : Prim) | ctype (s : Str) | array (p : Prim)
  deriving DecidableEq, Repr

/-- The directions of the theory. -/
inductive TDir | inParam | outParam | inOutParam
  deriving DecidableEq, Repr

/-- A parameter in the theory. -/
structure TParam where
  type : Ty
  dir : TDir
  name : Str
  deriving DecidableEq, Repr

/-- A method in the theory. -/
structure TMethod where
  ret : Option Ty
  name : Str
  params : List TParam
  deriving DecidableEq, Repr

/-- A connector in the theory: text given by the connector, or a record. -/
inductive TConnector | verbatim (text : Str) | record (hardware : Bool) (joins : Joins)
  deriving DecidableEq, Repr

/-- The right side of the definition of a component type; types of interfaces are the names of
their definitions. -/
structure TComp where
  control : Bool
  hardware : Bool
  requires : List (Str × Bool × Str)
  provides : List (Str × Str)
  dataports : List (Str × Str)
  emits : List (Str × Str)
  consumes : List (Str × Bool × Str)
  attributes : List (Str × Ty)
  deriving DecidableEq, Repr

/-- The right side of a definition.  `alias` is the definition of an instance, which is the name of
the definition of its type. -/
inductive Body
  | connector (c : TConnector)
  | procedure (ms : List TMethod)
  | event (n : Nat)
  | dataport (t : Str)
  | type (c : TComp)
  | alias (ref : Str)
  | connection (type : Str) (froms tos : List (Str × Str))
  | composition (components connections : List (Str × Str)) (groups : List (Str × Str))
  | configuration (settings : Option (List (Str × Str × Str)))
  | assembly (composition configuration : Str) (policy : List (Str × Str × Str))
  deriving DecidableEq, Repr

/-- A definition, or a lemma with the names of the definitions it mentions. -/
inductive Item
  | defn (name : Str) (body : Body)
  | lemma (mentions : List Str)
  deriving DecidableEq, Repr

/-! ### Names -/

/-- The kinds of definition that get a prefix, `camkes/runner/Context.py:206-215`. -/
inductive Kind | component | instance | connector | connection | procedure | event | dataport
  deriving DecidableEq, Repr

/-- The prefixes, `camkes/runner/Context.py:206-215`. -/
def Kind.text : Kind → Str
  | .component => ['c', 'o', 'm', 'p', 'o', 'n', 'e', 'n', 't']
  | .instance => ['i', 'n', 's', 't', 'a', 'n', 'c', 'e']
  | .connector => ['c', 'o', 'n', 'n', 'e', 'c', 't', 'o', 'r']
  | .connection => ['c', 'o', 'n', 'n', 'e', 'c', 't', 'i', 'o', 'n']
  | .procedure => ['p', 'r', 'o', 'c', 'e', 'd', 'u', 'r', 'e']
  | .event => ['e', 'v', 'e', 'n', 't']
  | .dataport => ['d', 'a', 't', 'a', 'p', 'o', 'r', 't']

/-- What the pattern asserted of a name asks of its first character, `macros.py:455`
(`[a-zA-Z_]`). -/
def starts (c : Char) : Bool :=
  (decide ('a' ≤ c) && decide (c ≤ 'z')) || (decide ('A' ≤ c) && decide (c ≤ 'Z')) || c == '_'

/-- `isabelle_ident`, `macros.py:452-456`; `none` is a failed assertion.  The pattern is matched
against the start of the name and the part after the first character may be left out, so that only
the first character matters. -/
def ident (n : Str) : Option Str :=
  match n with
  | [] => none
  | c :: _ => if starts c then some (n.map fun c => if c = '.' then '\'' else c) else none

/-- `isabelle_ADL_ident`, `macros.py:463-466`. -/
def adl (k : Kind) (n : Str) : Option Str :=
  (ident n).map fun i => k.text ++ (['_', '_'] ++ i)

/-- `isabelle_ADL_ident` of a name that may be `None`: `re.match` raises. -/
def adl? (k : Kind) (n : Option Str) : Option Str := n.bind (adl k)

/-- The part of `l` before the last `)` and the part after it, if there is one: how the greedy
`(.*)\)` splits the text after an opening bracket. -/
def splitLast : Str → Option (Str × Str)
  | [] => none
  | c :: r =>
    match splitLast r with
    | some (m, p) => some (c :: m, p)
    | none => if c = ')' then some ([], r) else none

/-- `re.sub(r'\((.*)\)', r'_\1', name)`, `Context.py:215-217`.  Simplification: names with line
ends, which `.` does not match, are not considered. -/
def unsize : Str → Str
  | [] => []
  | c :: r =>
    if c = '(' then
      match splitLast r with
      | some (m, p) => '_' :: (m ++ p)
      | none => c :: r
    else c :: unsize r

/-- `isabelle_dataport`, `Context.py:213-217`. -/
def dataportName (t : Str) : Option Str := adl .dataport (unsize t)

/-- `uniq`, `Context.py:195`.  Objects are compared by content (`ASTObject.__cmp__`,
`camkes/ast/base.py:117-140`). -/
def uniq {α : Type} [DecidableEq α] (xs : List α) : List α :=
  xs.foldl (fun ys z => if z ∈ ys then ys else ys ++ [z]) []

/-- A `for` whose body may raise. -/
def each {α β : Type} (f : α → Option β) : List α → Option (List β)
  | [] => some []
  | a :: as => (f a).bind fun b => (each f as).map fun bs => b :: bs

/-! ### The parts of the theory -/

/-- The template macro `camkes_type`, `arch-definitions.thy:31-49`. -/
def camkesType (t : Str) : Ty :=
  if t = "int".toList then .prim (.num .integer)
  else if t = "unsigned int".toList then .prim (.num .unsigned)
  else if t = "real".toList then .prim (.num .real)
  else if t = "char".toList then .prim (.txt .char)
  else if t = "character".toList then .prim (.txt .character)
  else if t = "boolean".toList then .prim (.num .boolean)
  else if t = "string".toList then .prim (.txt .string)
  else .ctype t

/-- The template macro `param_type`, `arch-definitions.thy:51-73`; `none` is the error raised for
an array whose elements have another type. -/
def paramType (p : Param) : Option Ty :=
  if p.array then
    if p.type = "int".toList then some (.array (.num .integer))
    else if p.type = "unsigned int".toList then some (.array (.num .unsigned))
    else if p.type = "real".toList then some (.array (.num .real))
    else if p.type = "char".toList then some (.array (.txt .char))
    else if p.type = "character".toList then some (.array (.txt .character))
    else if p.type = "boolean".toList then some (.array (.num .boolean))
    else none
  else some (camkesType p.type)

/-- The direction of a parameter, `arch-definitions.thy:142-150`. -/
def paramDir : Dir → TDir
  | .inp => .inParam
  | .refin => .inParam
  | .out => .outParam
  | .inout => .inOutParam

/-- A parameter, `arch-definitions.thy:139-152`. -/
def param (p : Param) : Option TParam :=
  (paramType p).map fun t => ⟨t, paramDir p.dir, p.name⟩

/-- A method, `arch-definitions.thy:128-154`. -/
def method (m : Method) : Option TMethod :=
  (each param m.params).map fun ps => ⟨m.ret.map camkesType, m.name, ps⟩

/-- A connector type, `arch-definitions.thy:93-117`. -/
def connectorDef (i : Connector) : Option (List Item) :=
  (adl? .connector i.name).map fun n =>
    [.defn n (.connector (match i.spec with
      | some s => .verbatim s
      | none => .record (i.fromHardware || i.toHardware) i.joins)),
     .lemma [n]]

/-- A procedure type, `arch-definitions.thy:127-161`. -/
def procedureDef (i : Proc) : Option (List Item) :=
  (adl? .procedure i.name).bind fun n =>
    (each method i.methods).map fun ms => [.defn n (.procedure ms), .lemma [n]]

/-- The event types with their numbers, `arch-definitions.thy:164-173`. -/
def eventDef (index : Nat) (i : Str) : Option (List Item) :=
  (adl .event i).map fun n => [.defn n (.event index), .lemma [n]]

/-- `enumerate` over the event types from a given number, `arch-definitions.thy:164`. -/
def eventDefs : Nat → List Str → Option (List (List Item))
  | _, [] => some []
  | k, i :: is => (eventDef k i).bind fun d => (eventDefs (k + 1) is).map fun ds => d :: ds

/-- A dataport type, `arch-definitions.thy:177-185`. -/
def dataportDef (i : Str) : Option (List Item) :=
  (dataportName i).map fun n => [.defn n (.dataport i), .lemma [n]]

/-- The argument of `interface_is_exported`: a name, or an interface itself. -/
inductive Asked | name (n : Str) | object (i : TextIface)

/-- `interface_is_exported`, `camkes/ast/objects.py:705-709`.  Its argument is compared with the
names of the exported interfaces; an interface object is of another type than a name, and so
different from it (`ASTObject.__cmp__`, `camkes/ast/base.py:117-119`). -/
def isExported (c : Comp) : Asked → Bool
  | .name n => c.exports.any fun e => decide (n = e)
  | .object _ => false

/-- An entry of `requires`, `arch-definitions.thy:208-216`: `none` inside is one that is put in a
comment.  The name of the procedure is computed in either case. -/
def requiresEntry (c : Comp) (i : ProcIface) : Option (Option (Str × Bool × Str)) :=
  (adl? .procedure i.type.name).map fun n =>
    if isExported c (.name i.name) then none else some (i.name, i.optional, n)

/-- An entry of `provides`, `arch-definitions.thy:219-226`. -/
def providesEntry (c : Comp) (i : ProcIface) : Option (Option (Str × Str)) :=
  (adl? .procedure i.type.name).map fun n =>
    if isExported c (.name i.name) then none else some (i.name, n)

/-- An entry of `dataports`, `arch-definitions.thy:229-236`: the interface, not its name, is
asked for. -/
def dataportsEntry (c : Comp) (i : TextIface) : Option (Option (Str × Str)) :=
  (dataportName i.type).map fun n =>
    if isExported c (.object i) then none else some (i.name, n)

/-- An entry of `emits`, `arch-definitions.thy:239-246`. -/
def emitsEntry (c : Comp) (i : TextIface) : Option (Option (Str × Str)) :=
  (adl .event i.type).map fun n =>
    if isExported c (.object i) then none else some (i.name, n)

/-- An entry of `consumes`, `arch-definitions.thy:249-257`. -/
def consumesEntry (c : Comp) (i : TextIface) : Option (Option (Str × Bool × Str)) :=
  (adl .event i.type).map fun n =>
    if isExported c (.object i) then none else some (i.name, i.optional, n)

/-- The entries of a list that are not in a comment. -/
def shown {α : Type} (l : List (Option α)) : List α := l.filterMap id

/-- A component type, `arch-definitions.thy:187-269`. -/
def typeDef (c : Comp) : Option (List Item) :=
  (adl? .instance c.name).bind fun n =>
  (each (requiresEntry c) c.uses).bind fun rs =>
  (each (providesEntry c) c.provides).bind fun ps =>
  (each (dataportsEntry c) c.dataports).bind fun ds =>
  (each (emitsEntry c) c.emits).bind fun es =>
  (each (consumesEntry c) c.consumes).map fun cs =>
    [.defn n (.type ⟨c.control, c.hardware, shown rs, shown ps, shown ds, shown es, shown cs,
        c.attributes.map fun a => (a.1, camkesType a.2)⟩),
     .lemma [n]]

/-- An instance, `arch-definitions.thy:271-279`. -/
def instDef (i : Inst) : Option (List Item) :=
  (adl .component i.name).bind fun n =>
  (adl? .instance i.type.name).map fun t => [.defn n (.alias t), .lemma [n]]

/-- A connection, `arch-definitions.thy:281-300`. -/
def connDef (c : Conn) : Option (List Item) :=
  (adl .connection c.name).bind fun n =>
  (adl? .connector c.type.name).map fun t => [.defn n (.connection t c.froms c.tos), .lemma [n]]

/-- The name of the composition, `arch-definitions.thy:80-84`. -/
def compositionName (a : Assembly) : Str := a.compositionName.getD "composition'".toList

/-- The name of the configuration, `arch-definitions.thy:86-90`. -/
def configurationName (a : Assembly) : Str := a.configurationName.getD "configuration'".toList

/-- The name of the assembly, `arch-definitions.thy:74-78`. -/
def assemblyName (a : Assembly) : Str := a.name.getD "assembly'".toList

/-- The component entries of the composition, `arch-definitions.thy:306-308`. -/
def componentEntry (i : Inst) : Option (Str × Str) := (adl .component i.name).map fun n => (i.name, n)

/-- The connection entries of the composition, `arch-definitions.thy:311-313`. -/
def connectionEntry (c : Conn) : Option (Str × Str) := (adl .connection c.name).map fun n => (c.name, n)

/-- The composition, `arch-definitions.thy:302-320`. -/
def compositionDef (a : Assembly) : Option (List Item) :=
  (each componentEntry a.insts).bind fun cs =>
  (each connectionEntry a.conns).map fun ks =>
    [.defn (compositionName a) (.composition cs ks a.groups)]

/-- The lemmas that references are valid, and that the composition is well formed,
`arch-definitions.thy:337-395`. -/
def validLemmas (a : Assembly) : Option (List Item) :=
  (each (fun i : Inst => (adl .component i.name).bind fun n => (adl? .instance i.type.name).map fun t =>
    Item.lemma [n, compositionName a, t]) a.insts).bind fun is =>
  (each (fun c : Conn => (adl .connection c.name).map fun n =>
    Item.lemma [n, compositionName a]) a.conns).map fun cs =>
    is ++ cs ++ [.lemma [compositionName a]]

/-- The configuration, `arch-definitions.thy:397-424`. -/
def configurationDef (a : Assembly) : List Item :=
  [.defn (configurationName a) (.configuration (if a.holds then some a.settings else none)),
   .lemma (if a.holds then [configurationName a] else [])]

/-- The assembly, `arch-definitions.thy:426-443`.  The lemma about it mentions `assembly'` as well
as the name. -/
def assemblyDef (a : Assembly) : List Item :=
  [.defn (assemblyName a) (.assembly (compositionName a) (configurationName a) a.policy),
   .lemma [assemblyName a, "assembly'".toList, compositionName a, configurationName a]]

/-- The procedure types, `arch-definitions.thy:127`. -/
def procTypes (a : Assembly) : List Proc :=
  uniq ((a.insts.flatMap fun i => i.type.uses ++ i.type.provides).map (·.type))

/-- The event types, `arch-definitions.thy:164`. -/
def eventTypes (a : Assembly) : List Str :=
  uniq ((a.insts.flatMap fun i => i.type.emits ++ i.type.consumes).map (·.type))

/-- The dataport types, `arch-definitions.thy:177`. -/
def dataportTypes (a : Assembly) : List Str :=
  uniq ((a.insts.flatMap fun i => i.type.dataports).map (·.type))

/-- The theory, `arch-definitions.thy:12-447`; `none` where rendering the template raises. -/
def theory (a : Assembly) : Option (List Item) :=
  (each connectorDef (uniq (a.conns.map (·.type)))).bind fun d1 =>
  (each procedureDef (procTypes a)).bind fun d2 =>
  (eventDefs 0 (eventTypes a)).bind fun d3 =>
  (each dataportDef (dataportTypes a)).bind fun d4 =>
  (each typeDef (uniq (a.insts.map (·.type)))).bind fun d5 =>
  (each instDef a.insts).bind fun d6 =>
  (each connDef a.conns).bind fun d7 =>
  (compositionDef a).bind fun d8 =>
  (validLemmas a).map fun d9 =>
    d1.flatten ++ d2.flatten ++ d3.flatten ++ d4.flatten ++ d5.flatten ++ d6.flatten ++ d7.flatten
      ++ d8 ++ d9 ++ configurationDef a ++ assemblyDef a

end Verif.ArchSpec
