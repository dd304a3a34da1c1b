import Mathlib.Data.List.Basic

/-!
# Model: system information, the clock and the table of system calls
(libsel4camkes/src/sys_uname.c, sys_clock.c, vsyscall.c, sys_io.c, sys_exit.c)

Outside: the C library that makes the calls. Memory behind a pointer is the list of its bytes up to the end of the mapped
memory; `none` means that the C code reads beyond it.
-/

namespace Verif.Posix

abbrev Byte := UInt8

/-! ## Names -/

/-- `sizeof` the fields of `struct utsname`. -/
abbrev fieldSize : Nat := 65

/-- `strncpy(dst, src, n)`: what `dst` has. -/
def strncpy : Nat → List Byte → Option (List Byte)
  | 0, _ => some []
  | _ + 1, [] => none
  | n + 1, b :: bs => if b = 0 then some (List.replicate (n + 1) 0) else (strncpy n bs).map (b :: ·)

/-- The static variables, sys_uname.c:21-26. -/
structure Names where
  node : List Byte
  domain : List Byte
  deriving DecidableEq, Repr

/-- They are zero at the start. -/
def Names.start : Names := ⟨List.replicate fieldSize 0, List.replicate fieldSize 0⟩

/-- Results of the calls. -/
inductive Ret
  | ok
  | fault
  | invalid
  | nosys
  deriving DecidableEq, Repr

/-- The body of `camkes_sys_sethostname`, sys_uname.c:93-115, and of `camkes_sys_setdomainname`, 117-139: the new value of the
variable, if it changes. The outer `none` is a read beyond the mapped memory. -/
def setName (name : Option (List Byte)) (len : Nat) : Option (Ret × Option (List Byte)) :=
  match name with
  | none => some (.fault, none)
  | some mem =>
    if fieldSize - 1 < len then some (.invalid, none)
    else (strncpy fieldSize mem).map (fun f => (.ok, some (f.take (fieldSize - 1) ++ [0])))

/-- What an application does. A pointer is null or has memory behind it. -/
inductive Call
  | setHost (name : Option (List Byte)) (len : Nat)
  | setDomain (name : Option (List Byte)) (len : Nat)
  deriving Repr

/-- One call. -/
def call (st : Names) : Call → Option (Ret × Names)
  | .setHost name len => (setName name len).map (fun r => (r.1, { st with node := r.2.getD st.node }))
  | .setDomain name len => (setName name len).map (fun r => (r.1, { st with domain := r.2.getD st.domain }))

/-- The state after a history of calls. -/
def runCalls (st : Names) : List Call → Option Names
  | [] => some st
  | c :: cs => (call st c).bind (fun r => runCalls r.2 cs)

/-- `struct utsname`. -/
structure Info where
  sysname : List Byte
  nodename : List Byte
  release : List Byte
  version : List Byte
  machine : List Byte
  domainname : List Byte
  deriving DecidableEq, Repr

/-- `strncpy` of a string constant and the terminator, sys_uname.c:38-41. -/
def constField (s : List Byte) : List Byte := ((s ++ List.replicate fieldSize 0).take (fieldSize - 1)) ++ [0]

/-- "CAmkES/seL4". -/
def sysname : List Byte := [67, 65, 109, 107, 69, 83, 47, 115, 101, 76, 52]

/-- `snprintf` into a field with the old content `old`, sys_uname.c:82-83. -/
def snprintfField (s old : List Byte) : List Byte :=
  let t := s.take (fieldSize - 1) ++ [0]
  t ++ old.drop t.length

/-- `camkes_sys_uname`, sys_uname.c:28-91; `old` is what the structure of the caller has; `plat`, `arch` and `ver` come from
the configuration. -/
def uname (plat arch ver : List Byte) (st : Names) (old : Option Info) : Ret × Option Info :=
  match old with
  | none => (.fault, none)
  | some old => (.ok, some {
      sysname := constField sysname
      nodename := st.node
      release := 0 :: old.release.drop 1
      version := 0 :: old.version.drop 1
      machine := snprintfField (plat ++ [32, 40] ++ arch ++ ver ++ [41]) old.machine
      domainname := st.domain })

/-! ## The clock -/

/-- `camkes_sys_clock_gettime`, sys_clock.c:17-33, without assertions: seconds and nanoseconds. `clk` is what `clk_get_time`
returns, an `int`, if the component has this function; `realtime` if the clock is `CLOCK_REALTIME`; `ptr` if the pointer is
not null. -/
def clockGettime (clk : Option Int) (realtime ptr : Bool) : Ret × Option (Nat × Nat) :=
  match clk with
  | some t =>
    if realtime && ptr then
      let cur := (t % 2 ^ 32).toNat
      (.ok, some (cur / 1000, cur % 1000 * 1000000))
    else (.nosys, none)
  | none => (.nosys, none)

/-! ## The table of system calls -/

/-- The implementations. -/
inductive Impl
  /-- what the C library for seL4 has before -/
  | library (no : String)
  /-- camkes_sys_... -/
  | camkes (name : String)
  deriving DecidableEq, Repr

/-- What the compiler knows: which macros are defined. -/
structure Macros where
  /-- the macros `__NR_...` -/
  nr : String → Bool
  bsd : Bool
  /-- value of `_XOPEN_SOURCE` -/
  xopen : Option Nat
  ia32 : Bool

/-- An entry in the table. -/
abbrev Entry := String × Impl

/-- The table, vsyscall.c:17-66: names of numbers and implementations. -/
def table (m : Macros) : List Entry :=
  ["set_tid_address", "sched_yield", "exit", "gettid", "getpid", "getppid", "tgkill", "mlock", "munlock", "mlockall",
    "munlockall", "madvise", "mincore"].map (fun n => (n, .camkes n)) ++
  (if m.nr "pause" then [("pause", .camkes "pause")] else []) ++
  (if m.nr "clock_gettime64" then [("clock_gettime64", .camkes "clock_gettime")] else [("clock_gettime", .camkes "clock_gettime")]) ++
  (if m.nr "_newselect" then [("_newselect", .camkes "_newselect")] else []) ++
  (if m.nr "sigcation" then [("sigaction", .camkes "sigaction")] else []) ++
  [("rt_sigaction", .camkes "rt_sigaction"), ("uname", .camkes "uname")] ++
  (if m.bsd || (m.xopen.elim false (fun v => decide (v < 500))) then
    [("sethostname", .camkes "sethostname"), ("setdomainname", .camkes "setdomainname")] else []) ++
  (if m.ia32 then [] else
    ["socket", "bind", "connect", "listen", "accept", "setsockopt"].map (fun n => (n, .camkes n))) ++
  [("tkill", .camkes "tkill")]

/-- The table of the C library, and the variables `original_sys_...`, sys_io.c:34-36. -/
structure Calls where
  tbl : String → Option Impl
  orig : String → Option Impl

/-- `muslcsys_install_syscall`. -/
def setCall (f : String → Option Impl) (n : String) (i : Option Impl) : String → Option Impl :=
  fun m => if m = n then i else f m

/-- One line of `camkes_install_io_syscalls`. -/
def wrap (c : Calls) (n : String) : Calls := ⟨setCall c.tbl n (some (.camkes n)), setCall c.orig n (c.tbl n)⟩

/-- `camkes_install_io_syscalls`, sys_io.c:145-155. -/
def installIo (m : Macros) (c : Calls) : Calls :=
  let c := wrap (wrap (wrap c "close") "read") "write"
  if m.nr "fcntl64" then { c with tbl := setCall c.tbl "fcntl64" (some (.camkes "fcntl64")) } else c

/-- `camkes_install_syscalls`, vsyscall.c:68-75. -/
def install (m : Macros) (c : Calls) : Calls :=
  (table m).foldl (fun c e => { c with tbl := setCall c.tbl e.1 (some e.2) }) (installIo m c)

/-- What does the work of a call whose file is not a socket: the functions for `close`, `read` and `write` go on to the one
that was there before, sys_io.c:53-57, 82-83, 121-125. At most `fuel` functions are called. -/
def resolve (c : Calls) : Nat → Impl → Option Impl
  | 0, _ => none
  | fuel + 1, .camkes n =>
    if n = "close" ∨ n = "read" ∨ n = "write" then (c.orig n).bind (resolve c fuel) else some (.camkes n)
  | _ + 1, .library n => some (.library n)

end Verif.Posix
