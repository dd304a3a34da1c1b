import Verif.GdbMem.Model

/-!
# Model: stopping and resuming in the debugger (C77)

Two threads of the debug server. One waits for the faults of the debugged component and answers them
(camkes/templates/seL4GDB-to.template.c:38-146); the other one executes the commands of the debugger
(libsel4camkes/src/sel4_arch/ia32/gdb_server/gdb.c:144-176, 340-405, 519-564, 616-752). They share `gdb_state` and the
binary semaphore `b`, which is 0 at first (include/builtin/gdb-delegate.camkes:42,
camkes/templates/component.common.c:263-281).

The steps of all threads are interleaved in any order. Each of these is one step: an instruction of the debugged
component, the reception of a fault up to the waiting for the semaphore, the rest of the loop, a command. (In the code a
command could also be executed in the middle of the reception; a debugger that waits for the message does not do that.)

Outside, as in the manual and the code of the kernel:
- A fault of a thread stops it and is received once; a reply on the saved capability with label 0 resumes it.
- `seL4_TCB_ConfigureSingleStepping` with `n` instructions switches stepping on, with 0 off. A thread with stepping on
  faults after `n` instructions, and then after each one. The reply to such a fault configures stepping again, with the
  number in the first message register, or 1 if there is none. Replies to other faults leave it as it is.
- The message of a debug exception has 4 words, that of a fault of the virtual memory 4, that of another exception of the
  processor 5.
- Which instructions hit a breakpoint or fault is arbitrary. The semaphore counts (libsel4sync; a second post without a
  wait fails an assertion there if they are on).

Packets are C74; memory and registers C75 and C76. `CONFIG_HARDWARE_DEBUG_API` is set.
-/

namespace Verif.GdbRun

/-- A string of C, without the terminator. -/
def chars (s : String) : List Nat := s.toList.map Char.toNat

/-- The reason in a debug exception: `seL4_DataBreakpoint`, `seL4_InstructionBreakpoint`, `seL4_SingleStep`,
`seL4_SoftwareBreakRequest`. -/
inductive Why
  | data
  | instruction
  | singleStep
  | software
deriving DecidableEq, Repr

/-- A fault message: a debug exception with the instruction pointer and the address, or another one, with its number of
words. -/
inductive Fault
  | debug (why : Why) (ip addr : Nat)
  | other (length ip : Nat)
deriving DecidableEq, Repr

/-- The first word of the message. -/
def Fault.ip : Fault → Nat
  | .debug _ ip _ => ip
  | .other _ ip => ip

/-- The number of words of the message. -/
def Fault.length : Fault → Nat
  | .debug _ _ _ => 4
  | .other n _ => n

/-- A thread of the debugged component: it runs, its fault is in the queue of the endpoint, or its fault was received. -/
inductive Status
  | running
  | queued (f : Fault)
  | held (f : Fault)
deriving DecidableEq, Repr

/-- `stop_reason_t`, gdb.h:41-47. -/
inductive Reason
  | none
  | swBreak
  | hwBreak
  | step
  | watch
deriving DecidableEq, Repr

/-- The system: the threads of the component (the instruction pointer and whether they step, in the kernel, and how many
instructions they executed since they were resumed), what the fault handler waits for, `gdb_state` (gdb.h:67-80), the
semaphore, and the messages sent to the debugger by the fault handler. `broken`: it wrote outside its array. -/
structure State where
  ip : Nat → Nat
  stepping : Nat → Option Nat
  status : Nat → Status
  ran : Nat → Nat
  waiting : Option Nat
  tcb : Nat
  pc : Nat
  stepMode : Bool
  reason : Reason
  watch : Nat
  sem : Nat
  told : List (List Nat)
  broken : Bool

/-- `f` with another value at `t`. -/
def update {α : Type} (f : Nat → α) (t : Nat) (v : α) : Nat → α := fun u => if u = t then v else f u

/-- One instruction of thread `t`, which leaves its instruction pointer at `ip`; `trap`: the breakpoint or fault it hits. -/
def exec (s : State) (t ip : Nat) (trap : Option Fault) : State :=
  match s.status t with
  | .running =>
    match trap with
    | some (.debug .singleStep _ _) => s
    | some f => { s with ip := update s.ip t f.ip, status := update s.status t (.queued f) }
    | none =>
      let s := { s with ip := update s.ip t ip, ran := update s.ran t (s.ran t + 1) }
      match s.stepping t with
      | none => s
      | some n =>
        let s := { s with stepping := update s.stepping t (some (n - 1)) }
        if n - 1 = 0 then { s with status := update s.status t (.queued (.debug .singleStep ip 0)) } else s
  | _ => s

/-- The 8 digits of `%08x`. -/
def hex8 (v : Nat) : List Nat :=
  GdbMem.hex2 (v / 2 ^ 24) ++ GdbMem.hex2 (v / 2 ^ 16) ++ GdbMem.hex2 (v / 2 ^ 8) ++ GdbMem.hex2 v

/-- `find_stop_reason`, seL4GDB-to.template.c:40-80. A software breakpoint moves the thread back by one byte. -/
def findStopReason (s : State) (f : Fault) : State × Reason :=
  match f with
  | .debug .data _ addr => ({ s with watch := addr }, .watch)
  | .debug .instruction _ _ => (s, .hwBreak)
  | .debug .singleStep _ _ => (s, if s.stepMode then .step else .none)
  | .debug .software _ _ =>
    let pc := (s.pc + (2 ^ 32 - 1)) % 2 ^ 32
    ({ s with pc := pc, ip := update s.ip s.tcb pc }, .swBreak)
  | .other _ _ => (s, .none)

/-- `gdb_handle_fault`, gdb.c:146-176: the message. -/
def faultMessage (s : State) : List Nat :=
  match s.reason with
  | .watch => chars "T05thread:01;watch:" ++ hex8 s.watch ++ chars ";"
  | .hwBreak => chars "T05thread:01;hwbreak:;"
  | .step => chars "T05thread:01;"
  | .swBreak => chars "T05thread:01;swbreak:;"
  | .none => chars "T05thread:01;"

/-- The loop from `seL4_Recv` to `b_wait`, seL4GDB-to.template.c:96-118, if the fault of `t` is received. The message is
copied to an array of four words. -/
def receive (s : State) (t : Nat) : State :=
  match s.waiting, s.status t with
  | none, .queued f =>
    if 4 < f.length then { s with broken := true }
    else
      let s := { s with tcb := t, pc := f.ip, status := update s.status t (.held f) }
      let (s, r) := findStopReason s f
      let s := { s with reason := r, stepMode := false }
      { s with told := s.told ++ [faultMessage s], waiting := some t }
  | _, _ => s

/-- The kernel: what a reply to fault `f` does to stepping, if it has the given first register. -/
def replyStepping (f : Fault) (mr : Option Nat) (old : Option Nat) : Option Nat :=
  match f with
  | .debug .singleStep _ _ =>
    match mr with
    | none => some 1
    | some 0 => none
    | some n => some n
  | _ => old

/-- The reply, seL4GDB-to.template.c:123-141: the first message register, if there is one. -/
def reply (s : State) : Option Nat :=
  if s.reason = .step ∧ s.stepMode = false then some 0
  else if s.reason = .none then some s.pc
  else none

/-- The loop from `b_wait` to the reply, seL4GDB-to.template.c:118-141. -/
def wake (s : State) : State :=
  match s.waiting with
  | none => s
  | some t =>
    match s.status t with
    | .held f =>
      if s.sem = 0 then s
      else { s with sem := s.sem - 1, waiting := none, status := update s.status t .running, ran := update s.ran t 0, stepping := update s.stepping t (replyStepping f (reply s) (s.stepping t)) }
    | _ => s

/-- `delegate_resume` and `delegate_step`, component.debug.c:263-290; `ok`: the kernel accepts it. -/
def configure (s : State) (n : Nat) (ok : Bool) : State × Bool :=
  if ok then ({ s with stepping := update s.stepping s.tcb (if n = 0 then none else some n) }, true) else (s, false)

/-- `GDB_continue`, gdb.c:530-545. -/
def continue_ (s : State) (ok : Bool) : State × List (List Nat) :=
  let (s, e) := if s.stepMode ∧ s.reason ≠ .step then configure s 0 ok else (s, true)
  ({ s with stepMode := false, sem := s.sem + 1 }, if e then [] else [GdbMem.errorMessage])

/-- `GDB_step`, gdb.c:547-564. -/
def step_ (s : State) (ok : Bool) : State × List (List Nat) :=
  let (s, e) := if ¬ s.stepMode ∧ s.reason ≠ .step then configure s 1 ok else (s, true)
  ({ s with stepMode := true, sem := s.sem + 1 }, if e then [] else [GdbMem.errorMessage])

/-- `GDB_vcont`, gdb.c:519-528. -/
def vcont (s : State) (ok : Bool) (c : List Nat) : State × List (List Nat) :=
  match c[7]? with
  | some 99 => continue_ s ok
  | some 115 => step_ s ok
  | _ => (s, [[]])

/-- `GDB_stop_reason`, gdb.c:393-405. -/
def stopReason (s : State) : List Nat :=
  match s.reason with
  | .hwBreak => chars "T05thread:01;hwbreak:;"
  | .swBreak => chars "T05thread:01;swbreak:;"
  | _ => chars "T05thread:01;"

/-- `GDB_query`, gdb.c:356-384; `none`: `strcmp` with a null pointer. -/
def query (c : List Nat) : Option (List Nat) :=
  match GdbMem.strtok [113, 58] (GdbMem.array c) with
  | none => none
  | some (q, _) =>
    some (
      if q = chars "Supported" then chars "swbreak+;hwbreak+;PacketSize=100"
      else if q = chars "TStatus" then []
      else if q = chars "TfV" then []
      else if q = chars "C" then chars "QC1"
      else if q = chars "Attached" then []
      else if q = chars "fThreadInfo" then chars "m01"
      else if q = chars "sThreadInfo" then chars "l"
      else if q = chars "Symbol" then []
      else if q = chars "Offsets" then []
      else chars "E01")

/-- What comes of a command: the answers, a use of a null pointer, or it belongs to C75 and C76 (those change only memory
and registers). -/
inductive Result
  | answers (l : List (List Nat))
  | null
  | elsewhere
deriving DecidableEq, Repr

/-- `handle_command`, gdb.c:616-752. The first letters: `?`, `c`, `H`, `q`, `s`, `v`; `g`, `G`, `m`, `M`, `p`, `P`, `X`,
`z`, `Z` elsewhere; all other ones are only logged. -/
def command (s : State) (ok : Bool) (c : List Nat) : State × Result :=
  match c with
  | 63 :: _ => (s, .answers [stopReason s])
  | 99 :: _ => ((continue_ s ok).1, .answers (continue_ s ok).2)
  | 72 :: _ => (s, .answers [chars "OK"])
  | 113 :: _ =>
    match query c with
    | none => (s, .null)
    | some m => (s, .answers [m])
  | 115 :: _ => ((step_ s ok).1, .answers (step_ s ok).2)
  | 118 :: v =>
    if chars "Cont?" <+: v then (s, .answers [chars "vCont;c;s"])
    else if chars "Cont" <+: v then ((vcont s ok c).1, .answers (vcont s ok c).2)
    else if chars "Kill" <+: v then (s, .answers [[]])
    else if chars "MustReplyEmpty" <+: v then (s, .answers [[]])
    else (s, .answers [])
  | 103 :: _ => (s, .elsewhere)
  | 71 :: _ => (s, .elsewhere)
  | 109 :: _ => (s, .elsewhere)
  | 77 :: _ => (s, .elsewhere)
  | 112 :: _ => (s, .elsewhere)
  | 80 :: _ => (s, .elsewhere)
  | 88 :: _ => (s, .elsewhere)
  | 122 :: _ => (s, .elsewhere)
  | 90 :: _ => (s, .elsewhere)
  | _ => (s, .answers [])

/-- A step of the system: an instruction, a reception, the end of the waiting, a command, or a new value for the
instruction pointer by the debugger (`GDB_write_register`, gdb.c:510-513). -/
inductive Step
  | exec (t ip : Nat) (trap : Option Fault)
  | receive (t : Nat)
  | wake
  | command (ok : Bool) (c : List Nat)
  | setPc (v : Nat)
deriving DecidableEq, Repr

/-- What a step does. -/
def act (s : State) : Step → State
  | .exec t ip trap => exec s t ip trap
  | .receive t => receive s t
  | .wake => wake s
  | .command ok c => (command s ok c).1
  | .setPc v => { s with pc := v, ip := update s.ip s.tcb v }

/-- One step. -/
def step (s : State) (x : Step) : State := if s.broken then s else act s x

/-- Many steps. -/
def run (s : State) (xs : List Step) : State := xs.foldl step s

/-- The beginning: seL4GDB-to.template.c:82-86; all threads run, none steps. -/
def initial : State :=
  { ip := fun _ => 0, stepping := fun _ => none, status := fun _ => .running, ran := fun _ => 0, waiting := none, tcb := 1, pc := 0, stepMode := false, reason := .none, watch := 0, sem := 0, told := [], broken := false }

end Verif.GdbRun
