/-!
# Model: an instance as a process

`camkes/templates/component.common.c`: the number of an instance, the names and the thread-local storage of its threads, and what it prints;
`libsel4camkes/src/sys_exit.c` and `sys_thread.c`: numbers of processes and threads, and the end of a thread;
`libsel4camkes/src/start.c`: what the control thread is started with.
-/

namespace Verif.Process

/-! ## The number of an instance -/

/-- `camkes_pid` (component.common.c:1083-1089): the loop over the instances with its `break`. Instances are told apart by `id`, here a number.
`none`: the definition is not written. -/
def camkesPid : List Nat → Nat → Option Nat
  | [], _ => none
  | i :: is, me => if i = me then some 2 else (camkesPid is me).map (· + 1)

/-- `camkes_sys_getppid` (sys_exit.c:43-49). -/
def getppid : Nat := 1

/-! ## Threads and their names -/

/-- A thread of the list `threads` (camkes/templates/macros.py:266-291): the slot of its capability in the component's CNode, and the name of the
interface that it serves (nothing for the control thread and the handler of faults). -/
structure Thread where
  tcb : Nat
  iface : String

/-- `thread_names.__setitem__(tcb, …)` on a Python dictionary, as the list of its entries. -/
def setName (d : List (Nat × String)) (k : Nat) (v : String) : List (Nat × String) :=
  if d.any (·.1 == k) then d.map fun e => if e.1 = k then (k, v) else e else d ++ [(k, v)]

/-- The part of the loop over the threads that sets the names (component.common.c:449-517); `first` is `loop.first`, the rest of the list tells
`loop.last`. -/
def nameLoop (faults : Bool) : Bool → List (Nat × String) → List Thread → List (Nat × String)
  | _, d, [] => d
  | first, d, t :: ts =>
    nameLoop faults false
      (setName d t.tcb (if first then "control" else if faults && ts.isEmpty then "fault_handler" else t.iface)) ts

/-- `get_thread_name` (component.common.c:537-544): a `switch` over the entries. -/
def getThreadName (faults : Bool) (ts : List Thread) (id : Nat) : String :=
  match (nameLoop faults true [] ts).find? (·.1 == id) with
  | some e => e.2
  | none => "(unknown)"

/-- The name that the kernel is told (component.common.c:596-604): `snprintf` of both names into a buffer of `cap` characters, the last of which is
the terminator. Characters stand for bytes. -/
def debugName (cap : Nat) (instance_ thread : String) : List Char :=
  (instance_.toList ++ ':' :: thread.toList).take (cap - 1)

/-! ## Thread-local storage -/

/-- What does not change while the component runs. -/
structure Cfg where
  threads : List Thread
  /-- `CONFIG_SEL4RUNTIME_STATIC_TLS`. -/
  static_ : Nat
  /-- `sel4runtime_get_tls_size()`. -/
  size : Nat
  /-- What `sel4runtime_write_tls_image` writes. -/
  image : Nat → Nat
  /-- The region that the runtime makes for the control thread. -/
  initial : Nat
  /-- The address of `static_tls_regions`. -/
  staticBase : Nat
  /-- What the n-th `malloc` answers, 0 for nothing. -/
  malloc : Nat → Nat
  /-- Offsets of `thread_index` and `tcb_cap`. -/
  indexOff : Nat
  tcbOff : Nat

/-- The component. Threads are numbered by their place in the list. -/
structure St where
  /-- Memory, by address. -/
  mem : Nat → Nat
  /-- `tls_regions`, 0 for NULL. -/
  regions : Nat → Nat
  /-- The register that points to the storage of a thread. -/
  base : Nat → Nat
  /-- The thread is past `camkes_tls_init`, for the control thread also past the loop behind it. -/
  inited : Nat → Bool
  /-- The kernel runs the thread. -/
  runs : Nat → Bool
  /-- An assertion failed. -/
  dead : Bool

/-- `f` with one value changed. -/
def upd {α} (f : Nat → α) (k : Nat) (v : α) : Nat → α := fun x => if x = k then v else f x

/-- `sel4runtime_write_tls_image` (a parameter of the model): the image at the address given. -/
def writeImage (cfg : Cfg) (mem : Nat → Nat) (a : Nat) : Nat → Nat :=
  fun x => if a ≤ x ∧ x < a + cfg.size then cfg.image (x - a) else mem x

/-- The index of the case of a `switch` that is chosen for an identifier (component.common.c:565-569). -/
def caseOf : List Thread → Nat → Option Nat
  | [], _ => none
  | t :: ts, id => if t.tcb = id then some 0 else (caseOf ts id).map (· + 1)

/-- `camkes_tls_init` (component.common.c:564-594), run by thread `j` with its identifier. Scheduling contexts are left out. -/
def tlsInit (cfg : Cfg) (s : St) (j id : Nat) : St :=
  match caseOf cfg.threads id with
  | none => { s with dead := true }
  | some k =>
    if k = 0 then
      { s with mem := upd (upd s.mem (s.base j + cfg.tcbOff) id) (s.base j + cfg.indexOff) (k + 1) }
    else if s.regions (k - 1) = 0 then { s with dead := true }
    else
      let b := s.regions (k - 1)
      { s with base := upd s.base j b
               mem := upd (upd (writeImage cfg s.mem b) (b + cfg.tcbOff) id) (b + cfg.indexOff) (k + 1) }

/-- The loop of the control thread over the regions (component.common.c:827-834). The n-th region that is asked of `malloc` is its n-th block. -/
def regionLoop (cfg : Cfg) : Nat → (Nat → Nat) → Option (Nat → Nat)
  | 0, r => some r
  | n + 1, r =>
    match regionLoop cfg n r with
    | none => none
    | some r =>
      if cfg.size < cfg.static_ then some (upd r n (cfg.staticBase + n * cfg.static_))
      else if cfg.malloc n = 0 then none
      else some (upd r n (cfg.malloc n))

/-- What threads do: thread `j` gets through its initialisation, stores in its own thread-local storage, or calls `exit`. -/
inductive Step
  | start (j : Nat)
  | store (j off v : Nat)
  | quit (j : Nat)

/-- The thread that does a step. -/
def Step.who : Step → Nat
  | .start j => j
  | .store j _ _ => j
  | .quit j => j

/-- The start of thread `j` (component.common.c:547-557, 813-856): the loader passes the slot of its TCB as identifier. The control thread makes the
regions; the others wait on `pre_init_ep` until it has done so. -/
def doStart (cfg : Cfg) (s : St) (j : Nat) : St :=
  match cfg.threads[j]? with
  | none => s
  | some t =>
    if s.inited j then s
    else if j = 0 then
      let s := tlsInit cfg s 0 t.tcb
      match regionLoop cfg (cfg.threads.length - 1) s.regions with
      | none => { s with dead := true }
      | some r => { s with regions := r, inited := upd s.inited 0 true }
    else if s.inited 0 then
      let s := tlsInit cfg s j t.tcb
      { s with inited := upd s.inited j true }
    else s

/-- `seL4_TCB_Suspend` of the TCB in a slot: threads, from number `n` on. -/
def suspend : List Thread → Nat → Nat → (Nat → Bool) → (Nat → Bool)
  | [], _, _, r => r
  | t :: ts, n, cap, r => suspend ts (n + 1) cap (if t.tcb = cap then upd r n false else r)

/-- One step. Threads that are stopped, or not yet initialised, do nothing; a dead component neither. `quit` is `exit`: `camkes_sys_exit`, `abort`,
`camkes_sys_tkill` and `sel4_abort` (sys_exit.c:16-31, 51-61), which suspends the TCB in the slot that thread-local storage tells. -/
def step (cfg : Cfg) (s : St) (e : Step) : St :=
  if s.dead || !s.runs e.who then s
  else match e with
    | .start j => doStart cfg s j
    | .store j off v => if s.inited j && off < cfg.size then { s with mem := upd s.mem (s.base j + off) v } else s
    | .quit j => if s.inited j then { s with runs := suspend cfg.threads 0 (s.mem (s.base j + cfg.tcbOff)) s.runs } else s

/-- The component when it is loaded: the runtime has made the storage of the control thread. -/
def boot (cfg : Cfg) : St where
  mem := fun x => if cfg.initial ≤ x ∧ x < cfg.initial + cfg.size then cfg.image (x - cfg.initial) else 0
  regions := fun _ => 0
  base := upd (fun _ => 0) 0 cfg.initial
  inited := fun _ => false
  runs := fun _ => true
  dead := false

/-- A schedule. -/
def run (cfg : Cfg) (s : St) : List Step → St
  | [] => s
  | e :: es => run cfg (step cfg s e) es

/-- A variable of a thread, by its offset. -/
def St.get (s : St) (j off : Nat) : Nat := s.mem (s.base j + off)

/-- `camkes_sys_gettid` and `camkes_sys_set_tid_address` (sys_exit.c:33-36, sys_thread.c:18-24). -/
def gettid (cfg : Cfg) (s : St) (j : Nat) : Nat := s.get j cfg.indexOff

/-! ## What is printed -/

/-- A `char` as an `int`. -/
def charOf (signed : Bool) (b : Nat) : Int := if signed && 128 ≤ b then (b : Int) - 256 else b

/-- What can be seen of printing. -/
inductive Ev
  /-- Thread `j` calls the function `h`. -/
  | handler (j h : Nat) (c : Int)
  /-- Thread `j` calls `seL4_DebugPutChar`. -/
  | debug (j : Nat) (c : Int)
  /-- Nothing is done with the character. -/
  | lost (j : Nat) (c : Int)
  /-- `write_buf` returns. -/
  | ret (j n : Nat)
deriving DecidableEq

/-- A call of `write_buf`: how many characters there are, the loop variable, those left, and whether the test of `_putchar` was passed. -/
structure Call where
  count : Nat
  i : Nat
  rest : List Nat
  tested : Bool

/-- The console. -/
structure Con where
  /-- `_putchar`. -/
  ptr : Option Nat
  calls : Nat → Option Call
  log : List Ev
  /-- A null pointer was called. -/
  crashed : Bool
  /-- The loop variable overflowed. -/
  undefined : Bool

/-- Steps on the console: `set_putchar`, a call of `write_buf`, and the steps of such a call. -/
inductive CStep
  | set (p : Option Nat)
  | write (j : Nat) (buf : List Nat)
  | go (j : Nat)

/-- `i++` of the loop behind a character: `int` overflows at 2^31 (component.common.c:72). -/
def advance (s : Con) (j : Nat) (c : Call) (r : List Nat) (e : Ev) : Con :=
  { s with log := s.log ++ [e], calls := upd s.calls j (some { c with i := c.i + 1, rest := r, tested := false }),
           undefined := s.undefined || decide (2 ^ 31 ≤ c.i + 1) }

/-- One step (component.common.c:51-76). In `__camkes_putchar` the pointer is read twice: for the test and for the call. -/
def conStep (printing signed : Bool) (s : Con) : CStep → Con
  | .set p => { s with ptr := p }
  | .write j buf =>
    match s.calls j with
    | some _ => s
    | none => { s with calls := upd s.calls j (some { count := buf.length, i := 0, rest := buf, tested := false }) }
  | .go j =>
    match s.calls j with
    | none => s
    | some c =>
      match c.rest with
      | [] => { s with log := s.log ++ [.ret j c.count], calls := upd s.calls j none }
      | b :: r =>
        if c.tested then
          match s.ptr with
          | none => { s with crashed := true }
          | some h => advance s j c r (.handler j h (charOf signed b))
        else
          match s.ptr with
          | some _ => { s with calls := upd s.calls j (some { c with tested := true }) }
          | none => advance s j c r (if printing then .debug j (charOf signed b) else .lost j (charOf signed b))

/-- Before anything is printed. -/
def con0 : Con := { ptr := none, calls := fun _ => none, log := [], crashed := false, undefined := false }

/-- A schedule. It ends where C says nothing more. -/
def conRun (printing signed : Bool) (s : Con) : List CStep → Con
  | [] => s
  | e :: es => if s.crashed || s.undefined then s else conRun printing signed (conStep printing signed s e) es

/-! ## What the control thread is started with -/

/-- `(char *)(uintptr_t) thread_id` (start.c:40), for words of `w` bits. -/
def argOf (w : Nat) (id : Int) : Nat := (id % 2 ^ w).toNat

/-- `(int)(uintptr_t)(argv[1])` (component.common.c:903). -/
def idOf (p : Nat) : Int := if p % 2 ^ 32 < 2 ^ 31 then ((p % 2 ^ 32 : Nat) : Int) else ((p % 2 ^ 32 : Nat) : Int) - 2 ^ 32

/-- The header of the thread-local segment (start.c:19-31). -/
structure TlsHeader where
  vaddr : Nat
  filesz : Nat
  memsz : Nat
  align : Nat

/-- start.c:23-31, with the symbols of the linker script; `w` bits in a word, so that a `long` has `w / 8` bytes. -/
def tlsHeader (w tdataStart tdataEnd tbssEnd : Nat) : TlsHeader :=
  { vaddr := tdataStart, filesz := tdataEnd - tdataStart, memsz := tbssEnd - tdataStart, align := w / 8 }

/-- The size of a program header that the runtime is told (start.c:48-50): that of `Elf32_Phdr`. -/
def phent : Nat := 32

end Verif.Process
