/-!
# Model: settings of an instance that say where it runs and how much room it has

The affinity of its threads, its heap and the size of its CNode, as component.common.c, component.simple.c and macros.py use
them. Names are texts; a setting that is not there is `none`.
-/

namespace Verif.InstSet

abbrev Text := List Char

/-- The value of a setting: a number or a string, as component.common.c:108 tells them apart. -/
inductive Val
  | num (n : Int)
  | str (s : Text)
  deriving DecidableEq

/-- `configuration`: the settings by the name of the instance (or group) and of the attribute,
component.common.c:45, 106. -/
abbrev Config := Text → Text → Option Val

/-- What `/*? v ?*/` prints as a number of C: `value s` is the number that a text of C stands for, if it does
(component.common.c:46, 84, 288). -/
def shown (value : Text → Option Int) : Val → Option Int
  | .num n => some n
  | .str s => value s

/-! ### Affinity -/

/-- Whether the preprocessor goes on, component.common.c:45-49: `nodes` is `CONFIG_MAX_NUM_NODES`, `value` what the
preprocessor takes a text for, `none` if that is an error. -/
def affinityAccepted (value : Text → Option Int) (nodes : Nat) (k : Config) (me : Text) : Bool :=
  match k me "affinity".toList with
  | none => true
  | some v => match shown value v with
    | none => false
    | some a => !decide (a ≥ (nodes : Int))

/-- `get_instance_affinity`, component.common.c:83-85; `dflt` is `options.default_affinity`. -/
def instanceAffinity (k : Config) (me : Text) (dflt : Int) : Val := (k me "affinity".toList).getD (.num dflt)

/-- `maybe_set_property_from_configuration` for the affinity, macros.py:388-407, 416, 420. -/
def threadAffinity (k : Config) (me pre : Text) (dflt : Int) : Val :=
  match k me (pre ++ "affinity".toList) with
  | some v => v
  | none => match k me "affinity".toList with
    | some v => v
    | none => .num dflt

/-- The threads of an instance, component.common.c:505-518. -/
inductive Thread
  | control
  | fault
  | iface (name : Text)
  deriving DecidableEq

/-- The affinity that a thread gets, component.common.c:505-518. -/
def affinityOf (k : Config) (me : Text) (dflt : Int) : Thread → Val
  | .control => threadAffinity k me "_".toList dflt
  | .fault => (k me "affinity".toList).getD (.num dflt)
  | .iface n => threadAffinity k me (n ++ "_".toList) dflt

/-! ### Heap -/

/-- What becomes of the heap when the instance is compiled and starts, component.common.c:285-313. -/
inductive Heap
  /-- `#error` -/
  | refused
  /-- an array of this size, which the allocator is given with this size -/
  | array (room told : Val)
  /-- nothing is said about the heap -/
  | library
  deriving DecidableEq

/-- component.common.c:285-295, 309-313: `configured` is `CONFIG_CAMKES_DEFAULT_HEAP_SIZE`, if it is defined. -/
def heapOf (configured : Option Int) (k : Config) (me : Text) : Heap :=
  match configured with
  | some d =>
    let size := (k me "heap_size".toList).getD (.num d)
    .array size size
  | none => if (k me "heap_size".toList).isSome then .refused else .library

/-! ### CNode -/

/-- `size_bits` of a CNode: `'auto'` or a number, component.simple.c:170, component.common.c:113. -/
inductive Size
  | auto
  | bits (n : Int)
  deriving DecidableEq

/-- Whether Python takes a value for true, as in component.common.c:107. -/
def truthy : Val → Bool
  | .num n => n ≠ 0
  | .str s => s ≠ []

/-- What component.common.c:106-114 does to the size of the CNode of an instance in the address space `space`: `parse s` is
`int(s, 0)`, `none` the exception. The outer option is the exception. -/
def setSize (parse : Text → Option Int) (k : Config) (space : Text) (old : Size) : Option Size :=
  match k space "cnode_size_bits".toList with
  | none => some old
  | some v =>
    if truthy v then
      match v with
      | .num n => some (.bits n)
      | .str s => (parse s).map .bits
    else some old

/-- The instances of an address space, one after the other, each with component.common.c:106-114. -/
def setSizes (parse : Text → Option Int) (k : Config) (space : Text) : List Text → Size → Option Size
  | [], s => some s
  | _ :: is, s => match setSize parse k space s with
    | none => none
    | some s' => setSizes parse k space is s'

/-- What a component is told about the size of its CNode, component.simple.c:167-180, 299-306: a value, or `none` if it makes a
guess when it runs. -/
def toldSize (k : Config) (me : Text) : Size → Option Val
  | .auto => k me "cnode_size_bits".toList
  | .bits n => some (.num n)

/-! ### Events -/

/-- `<e>_emit`, component.common.c:909-919: `underlying` is the function of the connector, a weak symbol that is null if there is
none. A run of a function is the list of what it signals. -/
def emit (underlying : Option (List Nat)) : List Nat :=
  match underlying with
  | some signals => signals
  | none => []

/-- `<e>_emit_underlying` of the connector seL4Notification, seL4Notification-from.template.c:11-20: one notification for each
`to` end. -/
def notificationEmit (toEnds : List Nat) : List Nat := toEnds

end Verif.InstSet
