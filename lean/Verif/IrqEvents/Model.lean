import Mathlib.Data.List.Basic
import Mathlib.Tactic.Tauto
import Mathlib.Tactic.ByContra

/-!
# Model: events of an IOAPIC interrupt (C81)

camkes/templates/seL4IOAPICHardwareInterrupt.template.c:36-128: the thread of the interrupt and the functions `poll`, `wait` and
`reg_callback`, which any number of threads of the component call, as a machine that interleaves them.

The kernel: as in C79; a handler that acknowledges enables the interrupt again (acknowledging does not fail). The notification
`lock` is a flag: a signal sets it, a waiting thread takes it. Compare-and-swap and the atomic increments are one step.
-/

namespace Verif.IrqEvents

/-- `MAX_CALLBACKS`, template:36. -/
def maxCallbacks : Nat := 10

/-- Where the interrupt's thread is. -/
inductive RPc
  /-- in `seL4_Wait`, template:64 -/
  | wait
  /-- in the loop, template:68-69 -/
  | scan (i : Nat) (handled : Bool)
  /-- after the slot was cleared, before the argument is read, template:72 -/
  | call (i id : Nat)
  /-- template:79 -/
  | mark (handled : Bool)
  /-- template:82-83 -/
  | wake (handled : Bool)
  deriving DecidableEq

/-- Where another thread is. -/
inductive TPc
  | idle
  /-- in `wait`, before `poll`, template:102 -/
  | poll
  /-- before the increment, template:48 -/
  | inc
  /-- in `seL4_Wait`, template:50 -/
  | sleep
  /-- before the decrement, template:52 -/
  | dec
  /-- in `reg_callback`, before the compare-and-swap, template:110 -/
  | slot (i id : Nat)
  /-- template:111 -/
  | arg (i id : Nat)
  /-- template:112 -/
  | ack (id : Nat)
  deriving DecidableEq

/-- What happens. -/
inductive Event
  /-- the device raises the interrupt -/
  | raised
  /-- the interrupt's thread wakes up -/
  | ran
  /-- it has looked at all callbacks -/
  | looked
  /-- the callback of this registration is called with the argument of that one -/
  | called (id : Nat) (arg : Option Nat)
  /-- `wait` returns, or `poll` returns 1 -/
  | taken (thread : Nat)
  /-- `poll` returns 0 -/
  | nothing (thread : Nat)
  /-- a callback is in a slot -/
  | registered (id : Nat)
  /-- `reg_callback` returns 0 -/
  | ok (id : Nat)
  /-- `reg_callback` returns -1 -/
  | full (id : Nat)
  deriving DecidableEq

/-- The kernel, the variables (template:38-41) and the threads. A registration has a number; `args i` is the number of the
registration whose argument is in the slot. -/
structure State where
  enabled : Bool
  pending : Bool
  ntfn : Bool
  lock : Bool
  slots : Nat → Option Nat
  args : Nat → Option Nat
  /-- `event_pending` -/
  event : Bool
  sleepers : Nat
  run : RPc
  threads : Nat → TPc
  /-- the number of the next registration -/
  next : Nat

/-- A step. -/
inductive Step
  | raise
  /-- the interrupt's thread -/
  | run
  /-- a thread calls `poll` -/
  | poll (t : Nat)
  /-- a thread calls `wait` -/
  | wait (t : Nat)
  /-- a thread calls `reg_callback` -/
  | register (t : Nat)
  /-- a thread goes on -/
  | go (t : Nat)

/-- The kernel signals the notification if it can. -/
def fire (s : State) : State :=
  if s.pending && s.enabled then { s with pending := false, enabled := false, ntfn := true } else s

/-- Function update. -/
def upd {α : Type} (f : Nat → α) (i : Nat) (a : α) : Nat → α := fun j => if j = i then a else f j

/-- The interrupt's thread, template:61-88. -/
def runStep (s : State) : State × List Event :=
  match s.run with
  | .wait => if s.ntfn then ({ s with ntfn := false, run := .scan 0 false }, [.ran]) else (s, [])
  | .scan i handled =>
    if i < maxCallbacks then
      match s.slots i with
      | some id => ({ s with slots := upd s.slots i none, run := .call i id }, [])
      | none => ({ s with run := .scan (i + 1) handled }, [])
    else ({ s with run := .mark handled }, [.looked])
  | .call i id => ({ s with run := .scan (i + 1) true }, [.called id (s.args i)])
  | .mark handled => ({ s with event := true, run := .wake handled }, [])
  | .wake handled =>
    if !handled && decide (s.sleepers > 0) then ({ s with lock := true, run := .wait }, []) else ({ s with run := .wait }, [])

/-- A thread goes on. -/
def goStep (s : State) (t : Nat) : State × List Event :=
  match s.threads t with
  | .idle => (s, [])
  | .poll =>
    if s.event then ({ s with event := false, threads := upd s.threads t .idle }, [.taken t])
    else ({ s with threads := upd s.threads t .inc }, [])
  | .inc => ({ s with sleepers := s.sleepers + 1, threads := upd s.threads t .sleep }, [])
  | .sleep => if s.lock then ({ s with lock := false, threads := upd s.threads t .dec }, []) else (s, [])
  | .dec => ({ s with sleepers := s.sleepers - 1, threads := upd s.threads t .poll }, [])
  | .slot i id =>
    if i < maxCallbacks then
      match s.slots i with
      | none => ({ s with slots := upd s.slots i (some id), threads := upd s.threads t (.arg i id) }, [.registered id])
      | some _ => ({ s with threads := upd s.threads t (.slot (i + 1) id) }, [])
    else ({ s with threads := upd s.threads t .idle }, [.full id])
  | .arg i id => ({ s with args := upd s.args i (some id), threads := upd s.threads t (.ack id) }, [])
  | .ack id => (fire { s with enabled := true, threads := upd s.threads t .idle }, [.ok id])

/-- A step. A thread that is in one of the functions does not call another one. -/
def step (s : State) : Step → State × List Event
  | .raise => (fire { s with pending := true }, [.raised])
  | .run => runStep s
  | .poll t =>
    if s.threads t = .idle then
      (if s.event then ({ s with event := false }, [.taken t]) else (s, [.nothing t]))
    else (s, [])
  | .wait t => if s.threads t = .idle then ({ s with threads := upd s.threads t .poll }, []) else (s, [])
  | .register t =>
    if s.threads t = .idle then ({ s with threads := upd s.threads t (.slot 0 s.next), next := s.next + 1 }, [])
    else (s, [])
  | .go t => goStep s t

/-- A schedule: the state after it, and what happened. -/
def run (s : State) : List Step → State × List Event
  | [] => (s, [])
  | x :: xs => ((run (step s x).1 xs).1, (step s x).2 ++ (run (step s x).1 xs).2)

/-- The state when the component starts: the kernel enables the interrupt when the handler is created. -/
def initial : State :=
  ⟨true, false, false, false, fun _ => none, fun _ => none, false, 0, .wait, fun _ => .idle, 0⟩

end Verif.IrqEvents
