import Mathlib.Tactic.Tauto
import Mathlib.Tactic.ByContra

/-!
# Model: the thread of a hardware interrupt (C79)

The loop in camkes/templates/seL4HardwareInterrupt.template.c:190-226 and the registration of a callback
(libsel4camkes/src/irq.c:111-164), which another thread does in several steps. Searching the entry is C52.

The kernel: an interrupt of the device signals the notification and is masked until it is acknowledged. The mask is off
when the handler is created. An interrupt that comes while it is masked stays pending.
-/

namespace Verif.HwIrq

/-- Where the interrupt's thread is. -/
inductive Pc
  /-- in `seL4_Wait`, template:208 -/
  | wait
  /-- before the tests, template:209 -/
  | woken
  /-- before the call of `callback_fn`, template:216 -/
  | calling
  /-- it called a null pointer -/
  | dead
  deriving DecidableEq

/-- Where a thread of the component is that registers or unregisters a callback. -/
inductive Drv
  | idle
  /-- irq.c:131, after the acknowledgement, with the function and its data -/
  | reg0 (fn data : Nat)
  /-- irq.c:132 -/
  | reg1 (fn data : Nat)
  /-- irq.c:133 -/
  | reg2 (fn data : Nat)
  /-- irq.c:159 -/
  | un0
  /-- irq.c:160 -/
  | un1
  /-- irq.c:161 -/
  | un2
  deriving DecidableEq

/-- The kernel, the entry of the interrupt and the threads. -/
structure State where
  /-- the interrupt is not masked -/
  enabled : Bool
  /-- the device has raised it, and it was not signalled yet -/
  pending : Bool
  /-- the notification is active -/
  ntfn : Bool
  /-- `is_allocated` -/
  alloc : Bool
  /-- `callback_fn`, `none` is NULL -/
  fn : Option Nat
  /-- `callback_data`, 0 is NULL -/
  data : Nat
  pc : Pc
  drv : Drv
  /-- calls of a handler that has not acknowledged yet -/
  owed : Nat
  deriving DecidableEq

/-- What happens. -/
inductive Event
  /-- the device raises the interrupt -/
  | raised
  /-- the callback is called with this data -/
  | called (fn data : Nat)
  /-- the function `handle` of the component is called -/
  | handled
  /-- “No mechanism exists to handle this interrupt” -/
  | ignored
  /-- “Both IRQ interface and 'handle' function is in use” -/
  | conflict
  /-- a null pointer is called -/
  | null
  deriving DecidableEq

/-- A step. -/
inductive Step
  /-- the device -/
  | raise
  /-- the interrupt's thread -/
  | run
  /-- a handler that was called acknowledges -/
  | ack
  /-- `camkes_irq_register` up to the acknowledgement -/
  | register (fn data : Nat)
  /-- `camkes_irq_unregister` up to the acknowledgement -/
  | unregister
  /-- the next assignment of the registering thread -/
  | drv
  deriving DecidableEq

/-- The kernel signals the notification if it can. -/
def fire (s : State) : State :=
  if s.pending && s.enabled then { s with pending := false, enabled := false, ntfn := true } else s

/-- `seL4_IRQHandler_Ack` -/
def acknowledge (s : State) : State := fire { s with enabled := true }

/-- One step of the loop, template:207-222. `handle`: the component has a function `handle`. A handler acknowledges later, once
per call. Simplification: the address and the data of the callback are read at once. -/
def runStep (handle : Bool) (s : State) : State × List Event :=
  match s.pc with
  | .wait => if s.ntfn then ({ s with ntfn := false, pc := .woken }, []) else (s, [])
  | .woken =>
    if handle && s.alloc then ({ s with pc := .wait }, [.conflict])
    else if handle then ({ s with pc := .wait, owed := s.owed + 1 }, [.handled])
    else if s.alloc then ({ s with pc := .calling }, [])
    else ({ s with pc := .wait }, [.ignored])
  | .calling => match s.fn with
    | some f => ({ s with pc := .wait, owed := s.owed + 1 }, [.called f s.data])
    | none => ({ s with pc := .dead }, [.null])
  | .dead => (s, [])

/-- One assignment, irq.c:131-133 and 159-161. -/
def drvStep (s : State) : State :=
  match s.drv with
  | .idle => s
  | .reg0 f d => { s with alloc := true, drv := .reg1 f d }
  | .reg1 f d => { s with fn := some f, drv := .reg2 f d }
  | .reg2 _ d => { s with data := d, drv := .idle }
  | .un0 => { s with alloc := false, drv := .un1 }
  | .un1 => { s with fn := none, drv := .un2 }
  | .un2 => { s with data := 0, drv := .idle }

/-- A step. The entry is found by `camkes_irq_register` only if it is not allocated, by `camkes_irq_unregister` only if it is
(irq.c:84, 100); only one thread at a time does one of these. -/
def step (handle : Bool) (s : State) : Step → State × List Event
  | .raise => (fire { s with pending := true }, [.raised])
  | .run => runStep handle s
  | .ack => if s.owed = 0 then (s, []) else (acknowledge { s with owed := s.owed - 1 }, [])
  | .register f d => if s.drv = .idle ∧ s.alloc = false then ({ acknowledge s with drv := .reg0 f d }, []) else (s, [])
  | .unregister => if s.drv = .idle ∧ s.alloc = true then ({ acknowledge s with drv := .un0 }, []) else (s, [])
  | .drv => (drvStep s, [])

/-- A schedule: the state after it, and what happened. -/
def run (handle : Bool) : State → List Step → State × List Event
  | s, [] => (s, [])
  | s, x :: xs => ((run handle (step handle s x).1 xs).1, (step handle s x).2 ++ (run handle (step handle s x).1 xs).2)

/-- The state when the component starts, template:167-183. -/
def initial : State := ⟨true, false, false, false, none, 0, .wait, .idle, 0⟩

end Verif.HwIrq
