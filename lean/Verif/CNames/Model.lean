/-!
# What a component may declare, and the C names it gets

Model of the checks that are made when a component's declaration is frozen
(`Component.freeze`, `camkes/ast/objects.py:680-703`; `Method.freeze`, `:904-916`;
`Attribute.freeze`, `:947-953`; `Parameter.freeze`, `:968-974`; `MapLike.freeze`,
`camkes/ast/base.py:240-263`), of the list of words that are refused
(`camkes/ast/ckeywords.py`), and of the names that the header generated for a component declares
(`camkes/templates/component.template.h`).
-/

namespace Verif.CNames

/-- Names.  Simplification: Python strings are lists of characters. -/
abbrev Str := List Char

/-! ### Declarations -/

/-- A parameter, `camkes/ast/objects.py:956-966`.  Its type and direction are left out: the name
in the prototype does not depend on them. -/
structure Param where
  name : Str
  array : Bool
  deriving DecidableEq, Repr

/-- A method, `camkes/ast/objects.py:887-902`.  The return type is left out. -/
structure Method where
  name : Str
  params : List Param
  deriving DecidableEq, Repr

/-- A procedure, `camkes/ast/objects.py:863-885`: its methods and the names of its attributes. -/
structure Proc where
  methods : List Method
  attrs : List Str
  deriving DecidableEq, Repr

/-- An interface that is provided or used, `camkes/ast/objects.py:721-744`. -/
structure Iface where
  name : Str
  type : Proc
  deriving DecidableEq, Repr

/-- An event that is consumed, `camkes/ast/objects.py:756-766`. -/
structure Event where
  name : Str
  type : Str
  deriving DecidableEq, Repr

/-- An attribute of a component, `camkes/ast/objects.py:919-931`, with whether it has a value in
the configuration (`myconf.get(a.name)`, `component.template.h:38-39`). -/
structure Attr where
  name : Str
  valued : Bool
  deriving DecidableEq, Repr

/-- A component, `camkes/ast/objects.py:631-662`.  Of the composition and the configuration only
their name is kept (`none` where there is none, or it is anonymous); included headers have no
name and are left out. -/
structure Component where
  control : Bool
  hardware : Bool
  attributes : List Attr
  provides : List Iface
  uses : List Iface
  emits : List Str
  consumes : List Event
  dataports : List Str
  mutexes : List Str
  semaphores : List Str
  binarySemaphores : List Str
  composition : Option Str
  configuration : Option Str
  deriving DecidableEq, Repr

/-! ### Freezing -/

/-- `C_KEYWORDS`, `camkes/ast/ckeywords.py:19-40`. -/
def keywords : List String :=
  ["auto", "break", "case", "char", "const", "continue", "default", "do",
   "double", "else", "enum", "extern", "float", "for", "goto", "if", "inline",
   "int", "long", "register", "restrict", "return", "short", "signed",
   "sizeof", "static", "struct", "switch", "typedef", "union", "unsigned",
   "void", "volatile", "while", "_Alignas", "_Alignof", "_Atomic", "_Bool",
   "_Complex", "_Generic", "_Imaginary", "_Noreturn", "_Static_assert",
   "_Thread_local", "__func__", "__objc_yes", "__objc_no", "asm", "_Bool",
   "wchar_t", "_Decimal32", "_Decimal64", "_Decimal128", "__alignof",
   "__attribute", "__builtin_choose_expr", "__builtin_offsetof",
   "__builtin_types_compatible_p", "__builtin_va_arg", "__extension__",
   "__imag", "__int128", "__label__", "__real", "__thread", "__FUNCTION__",
   "__PRETTY_FUNCTION__", "typeof", "__private_extern__",
   "__module_private__", "__declspec", "__cdecl", "__stdcall", "__fastcall",
   "__thiscall", "__vectorcall", "__pascal", "__fp16", "__alignof__", "__asm",
   "__asm__", "__attribute__", "__complex", "__complex__", "__const",
   "__const__", "__imag__", "__inline", "__inline__", "__real__",
   "__restrict", "__restrict__", "__signed", "__signed__", "__typeof",
   "__typeof__", "__volatile", "__volatile__", "__builtin_convertvector",
   "__unknown_anytype"]

/-- `… in C_KEYWORDS`. -/
def isKeyword (n : Str) : Bool := keywords.contains (String.ofList n)

/-- The reasons for which a declaration is refused. -/
inductive Err
  | controlHardware | hardwareMutex | hardwareSemaphore
  | duplicateEntity (n : Str)
  | attributeKeyword (n : Str) | methodKeyword (n : Str) | parameterKeyword (n : Str)
  | duplicateParameter (p m : Str)
  deriving DecidableEq, Repr

/-- Freezing the children one after the other (`camkes/ast/base.py:72-83`): the first refusal is
the result. -/
def freezeAll {α : Type} (f : α → Option Err) : List α → Option Err
  | [] => none
  | a :: l => match f a with
    | some e => some e
    | none => freezeAll f l

/-- `Attribute.freeze`, `camkes/ast/objects.py:947-953`.  A `struct` type of an attribute is left
out. -/
def freezeAttribute (n : Str) : Option Err :=
  if isKeyword n then some (.attributeKeyword n) else none

/-- `Parameter.freeze`, `camkes/ast/objects.py:968-974`. -/
def freezeParameter (p : Param) : Option Err :=
  if isKeyword p.name then some (.parameterKeyword p.name) else none

/-- The loop over the parameters, `camkes/ast/objects.py:910-915`; `seen` is `params`. -/
def checkParams (m : Str) : List Str → List Param → Option Err
  | _, [] => none
  | seen, p :: l =>
    if seen.contains p.name then some (.duplicateParameter p.name m)
    else checkParams m (p.name :: seen) l

/-- `Method.freeze`, `camkes/ast/objects.py:904-917`. -/
def freezeMethod (m : Method) : Option Err :=
  if isKeyword m.name then some (.methodKeyword m.name)
  else match checkParams m.name [] m.params with
    | some e => some e
    | none => freezeAll freezeParameter m.params

/-- The mapping of names to members, `camkes/ast/base.py:246-263`: a name that is there already
is refused. -/
def addAll : List Str → List Str → Option Err
  | _, [] => none
  | seen, n :: l =>
    if seen.contains n then some (.duplicateEntity n) else addAll (n :: seen) l

/-- Freezing a procedure, `camkes/ast/base.py:240-263` with the fields of
`camkes/ast/objects.py:871`: the children are frozen first. -/
def freezeProc (p : Proc) : Option Err :=
  match freezeAll freezeMethod p.methods with
  | some e => some e
  | none => match freezeAll freezeAttribute p.attrs with
    | some e => some e
    | none => addAll [] (p.methods.map (·.name) ++ p.attrs)

/-- The named children of a component in the order of `child_fields`,
`camkes/ast/objects.py:632-634`. -/
def memberNames (c : Component) : List Str :=
  c.attributes.map (·.name) ++ c.provides.map (·.name) ++ c.uses.map (·.name) ++ c.emits
    ++ c.consumes.map (·.name) ++ c.dataports ++ c.mutexes ++ c.semaphores ++ c.binarySemaphores
    ++ c.composition.toList ++ c.configuration.toList

/-- Freezing the children of a component, in the order of `child_fields`,
`camkes/ast/objects.py:632-634`.  Only attributes and the procedures of interfaces are refused
here; the composition and the configuration are left out (their checks are in the areas
`Freeze`, `Frozen` and `Decls`). -/
def freezeChildren (c : Component) : Option Err :=
  match freezeAll freezeAttribute (c.attributes.map (·.name)) with
  | some e => some e
  | none => match freezeAll freezeProc (c.provides.map (·.type)) with
    | some e => some e
    | none => freezeAll freezeProc (c.uses.map (·.type))

/-- `Component.freeze`, `camkes/ast/objects.py:680-703`: `none` where the component is
accepted. -/
def freeze (c : Component) : Option Err :=
  if c.control && c.hardware then some .controlHardware
  else if c.hardware && decide (c.mutexes.length > 0) then some .hardwareMutex
  else if c.hardware && decide (c.semaphores.length > 0) then some .hardwareSemaphore
  else match freezeChildren c with
    | some e => some e
    | none => addAll [] (memberNames c)

/-! ### The header -/

/-- The type of a connection as far as the header looks at it, `component.template.h:124,128`. -/
inductive ConnType | hardwareInterrupt | dtbHardware | other
  deriving DecidableEq, Repr

/-- A connection: its type and its `to` ends, each with an identity of the interface
(`id(end.interface)`). -/
structure Conn where
  type : ConnType
  toEnds : List Nat
  deriving DecidableEq, Repr

/-- The flags `irq[0]` and `dtb_connector[0]` for the interface `c`,
`component.template.h:121-151`.  Simplification: where
an interrupt's connection has no `to` end the template fails; here it is passed over. -/
def wiring (c : Nat) : List Conn → Bool × Bool
  | [] => (false, false)
  | k :: rest =>
    if k.type = .hardwareInterrupt ∧ k.toEnds.head? = some c then (true, false)
    else if k.type = .dtbHardware then
      if k.toEnds.contains c then (true, true) else wiring c rest
    else wiring c rest

/-- A name in the header: the name of a member of the component and what follows it. -/
abbrev Part := Str × Str

/-- The names declared for an attribute, `component.template.h:37-44`. -/
def attrParts (a : Attr) : List Part :=
  (if a.valued then [(a.name, "_DEF".toList)] else []) ++ [(a.name, [])]

/-- The names of the methods of an interface, `component.template.h:52-63`. -/
def methodParts (i : Iface) : List Part :=
  i.type.methods.map fun m => (i.name, "_".toList ++ m.name)

/-- What the header needs of an event that is consumed: the flags and, for a device, the number of
its registers (`num_registers`, `component.template.h:190`). -/
structure Wired where
  event : Event
  irq : Bool
  dtb : Bool
  registers : Nat
  deriving DecidableEq, Repr

/-- The names declared for an event that is consumed, `component.template.h:112-206`. -/
def consumeParts (w : Wired) : List Part :=
  (if w.event.type = "Notification".toList then [(w.event.name, "_notification".toList)] else [])
    ++ [(w.event.name, "_wait".toList), (w.event.name, "_poll".toList),
        (w.event.name, "_reg_callback".toList)]
    ++ (if w.dtb then (List.range w.registers).map fun i =>
          (w.event.name, "_".toList ++ Nat.toDigits 10 i) else [])
    ++ (if w.irq && w.dtb then
          [(w.event.name, "_irq_acknowledge".toList), (w.event.name, "_irq_handle".toList)]
        else [(w.event.name, "_acknowledge".toList), (w.event.name, "_handle".toList)])

/-- The names declared for a dataport, `component.template.h:212-229`. -/
def dataportParts (d : Str) : List Part :=
  [(d, []), (d, "_cache_op".toList), (d, "_release".toList), (d, "_acquire".toList),
   (d, "_size".toList), (d, "_get_size".toList)]

/-- The names declared for every interface, `component.template.h:255-261`. -/
def initParts (i : Str) : List Part :=
  [(i, "__init".toList), (i, "_timing_get_points".toList), (i, "_timing_get_entry".toList),
   (i, "_timing_reset".toList)]

/-- `all_interfaces`, `component.template.h:250`. -/
def interfaceNames (c : Component) : List Str :=
  c.provides.map (·.name) ++ c.uses.map (·.name) ++ c.emits ++ c.consumes.map (·.name)
    ++ c.dataports

/-- The names that a header declares for members of the component, in the order of the text,
`component.template.h:37-268`.  `wires` is the list of events that are consumed, with their
wiring. -/
def parts (c : Component) (wires : List Wired) : List Part :=
  c.attributes.flatMap attrParts
    ++ c.provides.map (fun u => (u.name, "_get_sender_id".toList))
    ++ (c.uses ++ c.provides).flatMap methodParts
    ++ wires.flatMap consumeParts
    ++ c.emits.map (fun e => (e, "_emit".toList))
    ++ c.dataports.flatMap dataportParts
    ++ c.mutexes.flatMap (fun m => [(m, "_lock".toList), (m, "_unlock".toList)])
    ++ c.semaphores.flatMap
        (fun s => [(s, "_wait".toList), (s, "_trywait".toList), (s, "_post".toList)])
    ++ c.binarySemaphores.flatMap (fun b => [(b, "_wait".toList), (b, "_post".toList)])
    ++ (interfaceNames c).flatMap initParts
    ++ (interfaceNames c).map (fun i => (i, "_register_error_handler".toList))

/-- The names that every header declares, `component.template.h:25-26,248,253-254,263`. -/
def fixedNames : List Str :=
  ["get_instance_name".toList, "get_instance_affinity".toList, "run".toList, "pre_init".toList,
   "post_init".toList, "set_putchar".toList]

/-- The wiring of the events that are consumed, `component.template.h:112-151`: `ids` gives the
identity of an interface and `regs` the number of registers of its device. -/
def wires (c : Component) (conns : List Conn) (ids : Str → Nat) (regs : Str → Nat) : List Wired :=
  c.consumes.map fun e =>
    let f := wiring (ids e.name) conns
    ⟨e, f.1, f.2, regs e.name⟩

/-- All names that the header of a component declares.  Simplification: the fixed names come
first; types (`print_type_definitions`) and what is declared by included files are left out. -/
def names (c : Component) (conns : List Conn) (ids : Str → Nat) (regs : Str → Nat) : List Str :=
  fixedNames ++ (parts c (wires c conns ids regs)).map fun p => p.1 ++ p.2

/-- The names of the parameters of the prototype of a method, `component.template.h:64-107`: an
array has its size before it. -/
def prototype (m : Method) : List Str :=
  m.params.flatMap fun p => if p.array then [p.name ++ "_sz".toList, p.name] else [p.name]

end Verif.CNames
