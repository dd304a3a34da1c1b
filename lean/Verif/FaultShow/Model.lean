import Verif.FaultMap.Model

/-! # The report of a fault

`camkes_show_fault`, libsel4camkes/src/fault.c:88-198, and `show_unknown_syscall_fault`, one for each
architecture. What `FaultMap` models of the memory map is used here. -/

namespace Verif.FaultShow

/-- The numbers of the kernel's interface that the code uses: labels of fault messages and causes of
failed lookups. -/
structure Consts where
  capFault : Int
  vmFault : Int
  unknownSyscall : Int
  userException : Int
  invalidRoot : Int
  missing : Int
  depth : Int
  guard_ : Int

inductive Arch
  | ia32 | x64 | aarch32 | aarch64 | riscv
  deriving DecidableEq, Repr

/-- One line of the report for each call of `SHOW` (libsel4camkes/src/arch_fault.h:12-13), with the values
that are printed. -/
inductive Line
  | invalidRoot (receive : Bool) (inst name : String) (id pc slot : Nat)
  | missing (unresolved : Nat) (inst name : String) (id pc slot : Nat)
  | depth (unresolved resolved : Nat) (inst name : String) (id pc slot : Nat)
  | guard_ (unresolved guardSize guard_ : Nat) (inst name : String) (id pc slot : Nat)
  | unknownCause (n : Int) (inst name : String) (id pc slot : Nat)
  | vm (instruction : Bool) (inst name : String) (id addr pc fsr : Nat)
  | registers (id : Nat)
  | noRegisters
  | map (l : Verif.FaultMap.Line)
  | mapHeading
  | syscall (n : Int) (name : String) (id pc : Nat) (regs : List (String × Nat))
  | user (no code : Int) (inst name : String) (id pc sp flags : Nat)
  | unknown (inst name : String) (id : Nat)
  deriving DecidableEq, Repr

/-- A conversion to `int`. -/
def toInt (n : Nat) : Int := if n % 2 ^ 32 < 2 ^ 31 then (n % 2 ^ 32 : Nat) else (n % 2 ^ 32 : Nat) - 2 ^ 32

/-- A conversion to `unsigned`. -/
def toUnsigned (n : Nat) : Nat := n % 2 ^ 32

/-- The message registers and the lines so far. Printing may use the message registers: `after` gives
their contents after the lines so far. -/
structure St where
  mr : Nat → Nat
  out : List Line

def say (after : List Line → Nat → Nat) (st : St) (l : Line) : St := ⟨after (st.out ++ [l]), st.out ++ [l]⟩

def sayAll (after : List Line → Nat → Nat) (st : St) : List Line → St
  | [] => st
  | l :: ls => sayAll after (say after st l) ls

/-- The registers that are printed, with the message register each one is read from, in the order of the
report; and the message registers of the program counter and of the number of the system call.
libsel4camkes/src/sel4_arch/ia32/unknown_syscall_fault.c:17-40,
libsel4camkes/src/sel4_arch/x86_64/unknown_syscall_fault.c:18-58,
libsel4camkes/src/sel4_arch/aarch32/unknown_syscall_fault.c:17-44,
libsel4camkes/src/sel4_arch/aarch64/unknown_syscall_fault.c:18-45,
libsel4camkes/src/arch/riscv/unknown_syscall_fault.c:17-40. -/
def table : Arch → List (String × Nat) × Nat × Nat
  | .ia32 => ([("eax", 0), ("ebx", 1), ("ecx", 2), ("edx", 3), ("esi", 4), ("edi", 5), ("ebp", 6), ("esp", 8), ("eflags", 9)], 7, 10)
  | .x64 => ([("rax", 0), ("rbx", 1), ("rcx", 2), ("rdx", 3), ("rsi", 4), ("rdi", 5), ("rbp", 6), ("r8", 7), ("r9", 8),
      ("r10", 9), ("r11", 10), ("r12", 11), ("r13", 12), ("r14", 13), ("r15", 14), ("rsp", 16), ("rflags", 17)], 15, 18)
  | .aarch32 => ([("r0", 0), ("r1", 1), ("r2", 2), ("r3", 3), ("r4", 4), ("r5", 5), ("r6", 6), ("r7", 7), ("sp", 9), ("lr", 10), ("cpsr", 11)], 8, 12)
  | .aarch64 => ([("x0", 0), ("x1", 1), ("x2", 2), ("x3", 3), ("x4", 4), ("x5", 5), ("x6", 6), ("x7", 7), ("sp", 9), ("lr", 10), ("spsr", 11)], 8, 12)
  | .riscv => ([("a0", 3), ("a1", 4), ("a2", 5), ("a3", 6), ("a4", 7), ("a5", 8), ("a6", 9), ("sp", 1), ("lr", 2)], 0, 10)

/-- How the number of the thread is printed: `%x` for an `unsigned` on ia32, aarch32 and riscv, and
`PRIxPTR` on the others. -/
def shownId : Arch → Nat → Nat
  | .x64, id => id
  | .aarch64, id => id
  | _, id => toUnsigned id

/-- `show_unknown_syscall_fault`; `none` if the assertion on the name fails. -/
def showSyscall (arch : Arch) (after : List Line → Nat → Nat) (st : St) (id : Nat) (name : Option String) : Option St :=
  match name with
  | none => none
  | some name =>
    let t := table arch
    some (say after st (.syscall (toInt (st.mr t.2.2)) name (shownId arch id) (st.mr t.2.1)
      (t.1.map fun (n, i) => (n, st.mr i))))

/-- A fault of a capability, libsel4camkes/src/fault.c:98-154. -/
def showCap (k : Consts) (after : List Line → Nat → Nat) (st : St) (label : Int) (inst safe : String) (id : Nat) : St :=
  let pc := st.mr 0
  let slot := st.mr 1
  let receive : Bool := st.mr 2 = 1
  let cause := toInt (st.mr 3)
  if cause = k.invalidRoot then say after st (.invalidRoot receive inst safe id pc slot)
  else if cause = k.missing then
    let unresolved := toUnsigned (st.mr 4)
    say after st (.missing unresolved inst safe id pc slot)
  else if cause = k.depth then
    let unresolved := toUnsigned (st.mr 4)
    let resolved := toUnsigned (st.mr 5)
    say after st (.depth unresolved resolved inst safe id pc slot)
  else if cause = k.guard_ then
    let unresolved := toUnsigned (st.mr 4)
    let g := st.mr 5
    let size := toUnsigned (st.mr 6)
    say after st (.guard_ unresolved size g inst safe id pc slot)
  else say after st (.unknownCause label inst safe id pc slot)

/-- A fault of virtual memory, libsel4camkes/src/fault.c:156-174; `none` if an assertion of
`show_fault_location` fails. `word` is the number of addresses. -/
def showVm (word : Nat) (after : List Line → Nat → Nat) (st : St) (inst safe : String) (id : Nat) (tcb : Bool)
    (map : Option (List Verif.FaultMap.Region)) : Option St :=
  let pc := st.mr 0
  let addr := st.mr 1
  let instruction : Bool := st.mr 2 = 1
  let fsr := st.mr 3
  let st := say after st (.vm instruction inst safe id addr pc fsr)
  let st := say after st (if tcb then .registers id else .noRegisters)
  match map with
  | none => some st
  | some m =>
    match Verif.FaultMap.showFault word m addr with
    | none => none
    | some ls => some (sayAll after (say after st .mapHeading) (ls.map .map))

/-- `camkes_show_fault`, libsel4camkes/src/fault.c:88-198. `inst` is the name of the instance; `label` is
that of the message. -/
def showFault (k : Consts) (arch : Arch) (word : Nat) (after : List Line → Nat → Nat) (inst : String) (label : Nat)
    (mr : Nat → Nat) (id : Nat) (name : Option String) (tcb : Bool) (map : Option (List Verif.FaultMap.Region)) : Option (List Line) :=
  let st : St := ⟨mr, []⟩
  let safe := name.getD "<unknown>"
  let l := toInt label
  if l = k.capFault then some (showCap k after st l inst safe id).out
  else if l = k.vmFault then (showVm word after st inst safe id tcb map).map St.out
  else if l = k.unknownSyscall then (showSyscall arch after st id name).map St.out
  else if l = k.userException then
    let pc := st.mr 0
    let sp := st.mr 1
    let flags := st.mr 2
    let no := toInt (st.mr 3)
    let code := toInt (st.mr 4)
    some (say after st (.user no code inst safe id pc sp flags)).out
  else some (say after st (.unknown inst safe id)).out

end Verif.FaultShow
