import Verif.Interrupts.Model
import Mathlib.Logic.Function.Basic

/-! # The interrupts of a device of the device tree

camkes/templates/seL4DTBHardware-to.template.c:109-204: all interrupts of one device arrive at one notification.
What `parse_dtb_node_interrupts` finds is in `Interrupts`; registering callbacks is in `Irq`, and its races are in
`HwIrq`: here the callbacks are registered already. -/

namespace Verif.DtbIrq

/-- The handler of an interrupt: the number, the badge with which the notification is signalled and the name under
which it is allocated, seL4DTBHardware-to.template.c:123-132. -/
structure Handler where
  number : Int
  badge : Nat
  name : String
  deriving DecidableEq, Repr

/-- The loop over the interrupts, seL4DTBHardware-to.template.c:123-147, for the interface `iface`. A number that is no
number is refused by the compiler of the C code. -/
def handlers (iface : String) (i : Nat) : List Verif.Interrupts.Irq → Option (List Handler)
  | [] => some []
  | q :: qs => match q.irq with
    | .num n => (handlers iface (i + 1) qs).map (⟨n, 2 ^ i, iface ++ "_irq_" ++ toString i⟩ :: ·)
    | .other _ => none

/-- All handlers of the interface, seL4DTBHardware-to.template.c:118-147. The numbers are the cases of a `switch`
(lines 156-160), so that the C compiler refuses a number that is there twice. -/
def generate (iface : String) (node : Verif.Interrupts.Node) (arm : Bool) : Option (List Handler) :=
  match Verif.Interrupts.parse node 28 arm with
  | .error _ => none
  | .ok irqs => match handlers iface 0 irqs with
    | none => none
    | some hs => if (hs.map (·.number)).Nodup then some hs else none

/-! ## The thread of the interface -/

/-- What is fixed: how many interrupts there are, their numbers, whether the component has a function
`…_irq_handle`, and the callback that is registered for each. -/
structure Cfg where
  n : Nat
  num : Nat → Int
  handle : Bool
  cb : Nat → Option Nat

/-- Where the thread is: in `seL4_Wait` (line 175), or before the test of a bit of the badge (line 180). -/
inductive Pc
  | wait
  | scan (i badge : Nat)
  deriving DecidableEq, Repr

/-- The kernel and the thread. An interrupt signals the notification and is masked until it is acknowledged; one
that comes while it is masked stays pending. `slot` is the memory of the variable `irq` (line 182), to which the
handlers are given a pointer; the variables of all blocks may have the same memory, as none outlives its block. `owed`
counts the calls whose handler has not acknowledged yet. -/
structure State where
  enabled : Nat → Bool
  pending : Nat → Bool
  ntfn : Nat
  pc : Pc
  slot : Int
  owed : Nat

inductive Event
  | raised (i : Nat)
  /-- the callback is called, or the function `…_irq_handle` if there is none, with the number of the interrupt -/
  | called (i : Nat) (fn : Option Nat) (number : Int)
  /-- “No mechanism exists to handle interrupt number …” -/
  | ignored (i : Nat)
  /-- “Both IRQ interface and 'handle' function is in use” -/
  | conflict (i : Nat)
  deriving DecidableEq, Repr

/-- A step: the device raises an interrupt, the thread goes on (a handler that is called acknowledges before it
returns, or not), or a handler acknowledges that has not done so before. -/
inductive Step
  | raise (i : Nat)
  | run (now : Bool)
  | ack
  deriving DecidableEq, Repr

/-- The kernel signals the notification if it can. -/
def fire (s : State) (i : Nat) : State :=
  if s.pending i && s.enabled i then
    { s with
      pending := Function.update s.pending i false
      enabled := Function.update s.enabled i false
      ntfn := s.ntfn ||| 2 ^ i }
  else s

/-- `…_irq_acknowledge`, seL4DTBHardware-to.template.c:150-170, for the number in memory. -/
def acknowledge (c : Cfg) (s : State) : State :=
  match (List.range c.n).find? (fun i => c.num i = s.slot) with
  | some i => fire { s with enabled := Function.update s.enabled i true } i
  | none => s

/-- A handler was called. -/
def called (c : Cfg) (now : Bool) (s : State) : State :=
  if now then acknowledge c s else { s with owed := s.owed + 1 }

/-- A step of the thread, seL4DTBHardware-to.template.c:172-199. -/
def runStep (c : Cfg) (now : Bool) (s : State) : State × List Event :=
  match s.pc with
  | .wait => if s.ntfn ≠ 0 then ({ s with pc := .scan 0 s.ntfn, ntfn := 0 }, []) else (s, [])
  | .scan i badge =>
    if i < c.n then
      let s := { s with pc := .scan (i + 1) badge }
      if badge &&& 2 ^ i ≠ 0 then
        let s := { s with slot := c.num i }
        if c.handle && (c.cb i).isSome then (s, [.conflict i])
        else if c.handle then (called c now s, [.called i none s.slot])
        else match c.cb i with
          | some f => (called c now s, [.called i (some f) s.slot])
          | none => (s, [.ignored i])
      else (s, [])
    else ({ s with pc := .wait }, [])

def step (c : Cfg) (s : State) : Step → State × List Event
  | .raise i =>
    if i < c.n then (fire { s with pending := Function.update s.pending i true } i, [.raised i]) else (s, [])
  | .run now => runStep c now s
  | .ack => if s.owed = 0 then (s, []) else (acknowledge c { s with owed := s.owed - 1 }, [])

/-- A schedule: the state after it, and what happened. -/
def run (c : Cfg) : State → List Step → State × List Event
  | s, [] => (s, [])
  | s, x :: xs => ((run c (step c s x).1 xs).1, (step c s x).2 ++ (run c (step c s x).1 xs).2)

/-- When the component starts no interrupt is masked. -/
def initial : State := ⟨fun _ => true, fun _ => false, 0, .wait, 0, 0⟩

end Verif.DtbIrq
