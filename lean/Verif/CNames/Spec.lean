import Verif.CNames.Model

/-!
# Specification: legal declarations and their C names

None of the functions of the model is used here, only its data types and the list of words.
-/

namespace Verif.CNames.Spec

/-- The keywords of C (ISO/IEC 9899:2011, 6.4.1). -/
def cKeywords : List String :=
  ["auto", "break", "case", "char", "const", "continue", "default", "do", "double", "else",
   "enum", "extern", "float", "for", "goto", "if", "inline", "int", "long", "register",
   "restrict", "return", "short", "signed", "sizeof", "static", "struct", "switch", "typedef",
   "union", "unsigned", "void", "volatile", "while", "_Alignas", "_Alignof", "_Atomic", "_Bool",
   "_Complex", "_Generic", "_Imaginary", "_Noreturn", "_Static_assert", "_Thread_local"]

/-- A word of the tool's list of words that must not be used. -/
def Reserved (n : Str) : Prop := String.ofList n ∈ keywords

/-- A keyword of C. -/
def IsCKeyword (n : Str) : Prop := String.ofList n ∈ cKeywords

/-- A method that may be declared: its name and those of its parameters are not reserved, and no
two parameters have the same name. -/
def LegalMethod (m : Method) : Prop :=
  ¬ Reserved m.name ∧ (m.params.map (·.name)).Nodup ∧ ∀ p ∈ m.params, ¬ Reserved p.name

/-- A procedure that may be declared. -/
def LegalProc (p : Proc) : Prop :=
  (∀ m ∈ p.methods, LegalMethod m) ∧ (∀ a ∈ p.attrs, ¬ Reserved a)
    ∧ (p.methods.map (·.name) ++ p.attrs).Nodup

/-- The interfaces of a component. -/
def interfaces (c : Component) : List Str :=
  c.provides.map (·.name) ++ c.uses.map (·.name) ++ c.emits ++ c.consumes.map (·.name)
    ++ c.dataports

/-- The members of a component of which its C code can make use. -/
def members (c : Component) : List Str :=
  c.attributes.map (·.name) ++ interfaces c ++ c.mutexes ++ c.semaphores ++ c.binarySemaphores

/-- A component that may be declared. -/
structure Legal (c : Component) : Prop where
  /-- Not both a control component and a device. -/
  notBoth : ¬ (c.control = true ∧ c.hardware = true)
  /-- A device has no mutexes and no (counting) semaphores. -/
  noLocks : c.hardware = true → c.mutexes = [] ∧ c.semaphores = []
  /-- No two members have the same name. -/
  distinct : (members c ++ c.composition.toList ++ c.configuration.toList).Nodup
  /-- No attribute has a reserved name. -/
  attributes : ∀ a ∈ c.attributes, ¬ Reserved a.name
  /-- The procedures of its interfaces may be declared. -/
  procs : ∀ i ∈ c.provides ++ c.uses, LegalProc i.type

/-- What a refusal says of the component. -/
def Reason (c : Component) : Err → Prop
  | .controlHardware => c.control = true ∧ c.hardware = true
  | .hardwareMutex => c.hardware = true ∧ c.mutexes ≠ []
  | .hardwareSemaphore => c.hardware = true ∧ c.semaphores ≠ []
  | .duplicateEntity n =>
      2 ≤ (members c ++ c.composition.toList ++ c.configuration.toList).count n
      ∨ ∃ i ∈ c.provides ++ c.uses, 2 ≤ (i.type.methods.map (·.name) ++ i.type.attrs).count n
  | .attributeKeyword n =>
      Reserved n ∧ ((∃ a ∈ c.attributes, a.name = n) ∨ ∃ i ∈ c.provides ++ c.uses, n ∈ i.type.attrs)
  | .methodKeyword n =>
      Reserved n ∧ ∃ i ∈ c.provides ++ c.uses, ∃ m ∈ i.type.methods, m.name = n
  | .parameterKeyword n =>
      Reserved n ∧ ∃ i ∈ c.provides ++ c.uses, ∃ m ∈ i.type.methods, ∃ p ∈ m.params, p.name = n
  | .duplicateParameter n k =>
      ∃ i ∈ c.provides ++ c.uses, ∃ m ∈ i.type.methods,
        m.name = k ∧ 2 ≤ (m.params.map (·.name)).count n

/-! ### Names -/

/-- The interface `c` is an end of a device tree connection, and no connection of an interrupt
before it begins with `c`. -/
def OnDtb (c : Nat) (conns : List Conn) : Prop :=
  ∃ before k after, conns = before ++ k :: after ∧ k.type = .dtbHardware ∧ c ∈ k.toEnds
    ∧ ∀ b ∈ before, ¬ (b.type = .hardwareInterrupt ∧ b.toEnds.head? = some c)

/-- What comes after an event's name if it is consumed: `dtb` is whether it is an event of a
device tree connection, and `regs` the number of registers of the device. -/
inductive ConsumeOp (type : Str) (dtb : Prop) (regs : Nat) : String → Prop
  | notification : type = "Notification".toList → ConsumeOp type dtb regs "_notification"
  | wait : ConsumeOp type dtb regs "_wait"
  | poll : ConsumeOp type dtb regs "_poll"
  | callback : ConsumeOp type dtb regs "_reg_callback"
  | register (i : Nat) : dtb → i < regs → ConsumeOp type dtb regs ("_" ++ toString i)
  | irqAck : dtb → ConsumeOp type dtb regs "_irq_acknowledge"
  | irqHandle : dtb → ConsumeOp type dtb regs "_irq_handle"
  | ack : ¬ dtb → ConsumeOp type dtb regs "_acknowledge"
  | handle : ¬ dtb → ConsumeOp type dtb regs "_handle"

/-- The operations that a component is given: the member it belongs to, and what comes after that
member's name in C. -/
inductive Op (c : Component) (conns : List Conn) (ids regs : Str → Nat) : Str → Str → Prop
  | value (a : Attr) : a ∈ c.attributes → Op c conns ids regs a.name []
  | macroOf (a : Attr) : a ∈ c.attributes → a.valued = true →
      Op c conns ids regs a.name "_DEF".toList
  | sender (i : Iface) : i ∈ c.provides → Op c conns ids regs i.name "_get_sender_id".toList
  | method (i : Iface) (m : Method) : i ∈ c.provides ∨ i ∈ c.uses → m ∈ i.type.methods →
      Op c conns ids regs i.name ('_' :: m.name)
  | consume (e : Event) (s : String) : e ∈ c.consumes →
      ConsumeOp e.type (OnDtb (ids e.name) conns) (regs e.name) s →
      Op c conns ids regs e.name s.toList
  | emit (e : Str) : e ∈ c.emits → Op c conns ids regs e "_emit".toList
  | dataport (d : Str) (s : String) : d ∈ c.dataports →
      s ∈ ["", "_cache_op", "_release", "_acquire", "_size", "_get_size"] →
      Op c conns ids regs d s.toList
  | mutex (m : Str) (s : String) : m ∈ c.mutexes → s ∈ ["_lock", "_unlock"] →
      Op c conns ids regs m s.toList
  | semaphore (m : Str) (s : String) : m ∈ c.semaphores → s ∈ ["_wait", "_trywait", "_post"] →
      Op c conns ids regs m s.toList
  | binarySemaphore (m : Str) (s : String) : m ∈ c.binarySemaphores → s ∈ ["_wait", "_post"] →
      Op c conns ids regs m s.toList
  | anyInterface (i : Str) (s : String) : i ∈ interfaces c →
      s ∈ ["__init", "_timing_get_points", "_timing_get_entry", "_timing_reset",
           "_register_error_handler"] →
      Op c conns ids regs i s.toList

/-- The functions that every component has. -/
def commonNames : List String :=
  ["get_instance_name", "get_instance_affinity", "run", "pre_init", "post_init", "set_putchar"]

/-- The methods whose names have another meaning on every interface. -/
def reservedMethods : List String :=
  ["_init", "timing_get_points", "timing_get_entry", "timing_reset", "register_error_handler"]

/-- Names that are kept apart: no member's name is that of another followed by an underscore and
more, none is that of a common function or the beginning of one up to an underscore, and no method
has a name with another meaning. -/
structure Apart (c : Component) : Prop where
  members : ∀ x ∈ members c, ∀ y ∈ members c, ¬ (x ++ ['_']) <+: y
  common : ∀ x ∈ Spec.members c, ∀ f ∈ commonNames, x ≠ f.toList ∧ ¬ (x ++ ['_']) <+: f.toList
  methods : ∀ i ∈ c.provides ++ c.uses, ∀ m ∈ i.type.methods, String.ofList m.name ∉ reservedMethods
  sender : ∀ i ∈ c.provides, ∀ m ∈ i.type.methods, String.ofList m.name ≠ "get_sender_id"

end Verif.CNames.Spec
