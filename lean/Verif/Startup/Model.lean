import Mathlib.Data.List.Basic

/-!
# Model: how the threads of a component start (C62)

Models `camkes/templates/component.common.c:698-906` (`pre_init_interface_sync`, `post_init_interface_sync`,
`post_main`) and `camkes/templates/component.environment.c:10-42` (`component_control_main`).

Every thread executes a straight list of instructions; any thread that can run may take the next step, so
the schedule is arbitrary.

Not modelled: priorities, TLS set-up, the error handlers (binding never fails), what the functions of the
user do (each is one step, which may also never be taken).  The semaphores are those of libsel4sync, taken
to be counting semaphores.
-/

namespace Verif.Startup

/-- The three semaphores (component.common.c:701-706). -/
inductive Sem where
  | pre | ini | post
  deriving DecidableEq, Repr

/-- What can be observed: the functions of the user that are started, and threads that fall out of
`post_main` (into `UNREACHABLE()`, component.common.c:898-907). -/
inductive Act where
  | preInit            -- `pre_init`
  | postInit           -- `post_init`
  | control            -- `run` of the control thread
  | init (i : Nat)     -- `<interface>__init`
  | run (i : Nat)      -- `<interface>__run` or `<interface>__run_passive`
  | serve (i : Nat)    -- the rest of `<interface>__run_passive`, after its signal
  | handle             -- `fault_handler`
  | escape (i : Nat)   -- interface thread `i` returns from `post_main`
  | escapeControl      -- the control thread returns from `post_main`
  deriving DecidableEq, Repr

/-- The instructions. -/
inductive Instr where
  | wait (s : Sem)     -- `sync_sem_bare_wait`
  | post (s : Sem)     -- `sync_sem_bare_post`
  | signal             -- `seL4_Signal` on the notification for passive interfaces
  | await              -- `seL4_Wait` on it
  | bind (i : Nat)     -- `seL4_SchedContext_Bind` to the thread of interface `i`
  | unbind (i : Nat)   -- `seL4_SchedContext_Unbind`; the number is only an annotation
  | act (a : Act)
  deriving DecidableEq, Repr

/-- An interface thread (macros.py:266-320). -/
structure Iface where
  /-- name of the interface -/
  name : List Char
  /-- `intra_index` -/
  index : Nat
  /-- `options.realtime` is on and the setting `<interface>_passive` is true -/
  passive : Bool
  deriving DecidableEq, Repr

/-- A component instance. -/
structure Config where
  /-- the name of the instance, with dots for nested instances -/
  inst : List Char
  ifaces : List Iface
  /-- `options.debug_fault_handlers` -/
  faultHandler : Bool

/-- `re.sub(r'[^A-Za-z0-9]', '_', instance.name)` (macros.py:294). -/
def sanitize (l : List Char) : List Char :=
  l.map fun ch => if ('A' ≤ ch ∧ ch ≤ 'Z') ∨ ('a' ≤ ch ∧ ch ≤ 'z') ∨ ('0' ≤ ch ∧ ch ≤ '9') then ch else '_'

/-- `"%s_%s_%04d"` (macros.py:303 and component.common.c:864). -/
def threadName (inst : List Char) (t : Iface) : List Char :=
  let d := Nat.toDigits 10 t.index
  inst ++ '_' :: t.name ++ '_' :: (List.replicate (4 - d.length) '0' ++ d)

/-- `prefix in passive_tcbs` (component.common.c:864-865; the keys are set at line 487 to the names of
macros.py:294-303). -/
def takesPassive (c : Config) (t : Iface) : Bool :=
  c.ifaces.any fun u => u.passive && decide (threadName (sanitize c.inst) u = threadName c.inst t)

/-- The part of an interface thread that serves the interface (component.common.c:864-882). -/
def servePart (c : Config) (i : Nat) (t : Iface) : List Instr :=
  if takesPassive c t then [.act (.run i), .signal, .act (.serve i)] else [.act (.run i)]

/-- An interface thread (component.common.c:852-885). -/
def ifaceProgram (c : Config) (i : Nat) (t : Iface) : List Instr :=
  [.wait .pre, .act (.init i), .post .ini, .wait .post] ++ (servePart c i t ++ [.wait .pre, .act (.escape i)])

/-- The fault handler thread (component.common.c:843-849). -/
def faultProgram (c : Config) : List Instr :=
  if c.faultHandler then [.wait .pre, .act .handle] else []

/-- The numbers of the passive interfaces (the keys of `passive_tcbs`, component.common.c:485-488). -/
def passives (c : Config) : List Nat :=
  (List.range c.ifaces.length).filter fun i => c.ifaces[i]?.any (·.passive)

/-- `threads[1:]` (component.common.c:712): the interface threads, and the fault handler last; `none` is
the fault handler. -/
def others (c : Config) : List (Option Iface) :=
  c.ifaces.map some ++ (if c.faultHandler then [none] else [])

/-- `pre_init_interface_sync` (component.common.c:708-760). -/
def preSync (c : Config) : List Instr :=
  ((others c).filter fun t => !(t.any (·.passive))).map (fun _ => .post .pre) ++
  (c.ifaces.filter fun t => !t.passive).map (fun _ => .wait .ini) ++
  (passives c).flatMap fun i => [.bind i, .post .pre, .wait .ini, .unbind i]

/-- `post_init_interface_sync` (component.common.c:762-811). -/
def postSync (c : Config) : List Instr :=
  c.ifaces.map (fun _ => .post .post) ++
  (passives c).flatMap fun i => [.bind i, .await, .unbind i]

/-- The control thread (component.environment.c:10-42 and component.common.c:824-837). -/
def controlProgram (c : Config) : List Instr :=
  [.act .preInit] ++ preSync c ++ [.act .postInit] ++ postSync c ++ [.act .control, .wait .ini, .act .escapeControl]

/-- The program of every thread: 0 is the control thread, `i + 1` the thread of interface `i`, and the next
one the fault handler. -/
def program (c : Config) : Nat → List Instr
  | 0 => controlProgram c
  | k + 1 =>
    match c.ifaces[k]? with
    | some t => ifaceProgram c k t
    | none => if k = c.ifaces.length then faultProgram c else []

/-- The state: the rest of every program, the semaphores, the notification, the thread that holds the
scheduling context for passive threads, and what has been observed, newest first. -/
structure State where
  rest : Nat → List Instr
  sem : Sem → Nat
  ntfn : Bool
  bound : Option Nat
  trace : List Act

/-- The state at the start. -/
def start (c : Config) : State := ⟨program c, fun _ => 0, false, none, []⟩

/-- A thread without a scheduling context of its own runs only while the one for passive threads is bound
to it. -/
def canRun (c : Config) (s : State) : Nat → Bool
  | 0 => true
  | k + 1 => if c.ifaces[k]?.any (·.passive) then decide (s.bound = some k) else true

/-- One instruction. -/
def exec (s : State) : Instr → Option State
  | .wait m => if s.sem m = 0 then none else some { s with sem := fun x => if x = m then s.sem m - 1 else s.sem x }
  | .post m => some { s with sem := fun x => if x = m then s.sem m + 1 else s.sem x }
  | .signal => some { s with ntfn := true }
  | .await => if s.ntfn then some { s with ntfn := false } else none
  | .bind i => if s.bound = none then some { s with bound := some i } else none
  | .unbind _ => some { s with bound := none }
  | .act a => some { s with trace := a :: s.trace }

/-- The next step of thread `k`. -/
def step (c : Config) (s : State) (k : Nat) : Option State :=
  if canRun c s k then
    match s.rest k with
    | [] => none
    | x :: r => exec { s with rest := fun j => if j = k then r else s.rest j } x
  else none

/-- A schedule: the threads that are chosen, in order; a choice of a thread that cannot run is skipped. -/
def run (c : Config) (s : State) : List Nat → State
  | [] => s
  | k :: ks => run c ((step c s k).getD s) ks

end Verif.Startup
