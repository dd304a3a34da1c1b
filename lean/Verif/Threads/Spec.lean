import Verif.Threads.Model

/-!
# Specification for C83 and C84

What the manual says (docs/index.md, "Thread Priorities" to "Scheduling Domains"): which threads there are,
what the settings that a user writes mean, and what stacks look like.
-/

namespace Verif.Threads.Spec

/-- The threads of an instance. -/
inductive Kind where
  | control
  | iface (name : Str) (index : Nat)
  | faultHandler
  deriving DecidableEq

/-- What can be set. -/
inductive Prop' where
  | priority | maxPriority | affinity | domain | period | budget | data | sizeBits | stackSize
  deriving DecidableEq

/-- For which threads a setting is meant: one thread (the threads of one interface share settings), or all
threads of the instance. -/
inductive Scope where
  | control
  | iface (name : Str)
  | all
  deriving DecidableEq

/-- The name of a property. -/
def Prop'.text : Prop' → Str
  | .priority => "priority".toList
  | .maxPriority => "max_priority".toList
  | .affinity => "affinity".toList
  | .domain => "domain".toList
  | .period => "period".toList
  | .budget => "budget".toList
  | .data => "data".toList
  | .sizeBits => "size_bits".toList
  | .stackSize => "stack_size".toList

/-- How a setting is written: `_priority` for the control thread, `i_priority` for interface `i`,
`priority` for all threads. -/
def settingName : Scope → Prop' → Str
  | .control, p => "_".toList ++ p.text
  | .iface i, p => i ++ "_".toList ++ p.text
  | .all, p => p.text

/-- What a user wants set. -/
abbrev Wish := (Scope × Prop') × Nat

/-- The configuration that says so. -/
def written (ws : List Wish) : Conf := fun name =>
  (ws.find? fun w => decide (settingName w.1.1 w.1.2 = name)).map (·.2)

/-- The value wanted for exactly this scope. -/
def wanted (ws : List Wish) (s : Scope) (p : Prop') : Option Nat := (ws.find? fun w => decide (w.1 = (s, p))).map (·.2)

/-- The value for one thread, or else for all threads, or else the default. -/
def value (ws : List Wish) (s : Scope) (p : Prop') (default : Nat) : Nat :=
  ((wanted ws s p).or (wanted ws .all p)).getD default

/-- Where the settings of a thread come from. -/
def scopeOf : Kind → Scope
  | .control => .control
  | .iface i _ => .iface i
  | .faultHandler => .all

/-- Whether a thread belongs to a passive interface. -/
def isPassive (passive : Str → Bool) : Kind → Bool
  | .iface i _ => passive i
  | _ => false

/-- A scheduling context, on kernels that have them, unless the interface is passive. -/
def scheduling (o : Options) (ws : List Wish) (passive : Str → Bool) (k : Kind) : Option Sc :=
  if o.realtime = true ∧ isPassive passive k = false then
    some ⟨value ws (scopeOf k) .period o.period, value ws (scopeOf k) .budget o.budget,
      value ws (scopeOf k) .data o.data, value ws (scopeOf k) .sizeBits o.sizeBits⟩
  else none

/-- What a thread should be like. The fault handler runs at the highest priority; its own faults go
nowhere. -/
def thread (o : Options) (ws : List Wish) (passive : Str → Bool) (k : Kind) : Tcb :=
  { prio := if k = .faultHandler then 255 else value ws (scopeOf k) .priority o.prio
    maxPrio := if k = .faultHandler then o.maxPrio else value ws (scopeOf k) .maxPriority o.maxPrio
    affinity := value ws (scopeOf k) .affinity o.affinity
    domain := if k = .faultHandler then none else wanted ws (scopeOf k) .domain
    sc := scheduling o ws passive k
    faultEp := o.faultHandlers && decide (k ≠ .faultHandler) }

/-- The size of a thread's stack. -/
def stack (o : Options) (ws : List Wish) : Kind → Nat
  | .faultHandler => o.stackSize
  | k => (wanted ws (scopeOf k) .stackSize).getD o.stackSize

/-- The ends of an instance with the number of threads that their connector gives them, in order. -/
def ends (conns : List Conn) (inst : Str) : List (Str × Nat) :=
  conns.flatMap fun c =>
    ((c.fromEnds.filter fun e => decide (e.inst = inst)).map fun e => (e.iface, c.fromThreads)) ++
    ((c.toEnds.filter fun e => decide (e.inst = inst)).map fun e => (e.iface, c.toThreads))

/-- The threads of an instance: one control thread, the threads of each of its connected interfaces, and the
fault handler if there is one. -/
def kinds (conns : List Conn) (inst : Str) (o : Options) : List Kind :=
  .control :: ((ends conns inst).flatMap fun e => (List.range e.2).map (.iface e.1)) ++
  (if o.faultHandlers then [.faultHandler] else [])

/-- Interface names that do not read like the beginning of `max_priority`. -/
def Plain (i : Str) : Prop := i ≠ [] ∧ i ≠ "max".toList ∧ ¬ "_max".toList <:+ i

/-- All scopes are interfaces with plain names. -/
def PlainScope : Scope → Prop
  | .iface i => Plain i
  | _ => True

/-- A stack of `size` bytes, rounded up to whole pages, between two guard pages, with the stack pointer at its
end. -/
def StackOk (p size : Nat) (bytes : Nat) (caps : List (Option Rights)) (sp : Nat) : Prop :=
  ∃ r, p ∣ r ∧ size ≤ r ∧ r < size + p ∧ sp = p + r ∧ bytes = p + r + p ∧
    (∀ off, p ≤ off → off < p + r → byteAt p caps off = .mapped ⟨true, true, false⟩) ∧
    (∀ off, off < p → byteAt p caps off = .unmapped) ∧
    (∀ off, p + r ≤ off → off < p + r + p → byteAt p caps off = .unmapped)

end Verif.Threads.Spec
