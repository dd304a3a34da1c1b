import Verif.GdbMem.Model

/-!
# Model: registers and breakpoints in the debugger (C76)

The commands `p`, `P`, `g`, `G`, `Z` and `z` of the GDB server (libsel4camkes/src/sel4_arch/ia32/gdb_server/gdb.c:37-92,
104-141, 407-517, 566-614) and what the debugged component does for them (camkes/templates/component.debug.c:57-128,
160-261).

The functions of the C library are those of C75. Outside: the packets (C74), the connection between server and component
(it carries the arguments unchanged), the kernel: `seL4_TCB_ReadRegisters` and `seL4_TCB_WriteRegisters` read and write
the registers of the thread, `seL4_TCB_SetBreakpoint` and `seL4_TCB_UnsetBreakpoint` its monitors, and refuse other
numbers. `CONFIG_HARDWARE_DEBUG_API` is set (if it is not, every command `Z1` to `Z4` is refused).
-/

namespace Verif.GdbRegs

open GdbMem (Out strtol strtok next atToken digits okMessage errorMessage)

/-- `E00` -/
def noRegister : List Nat := [69, 48, 48]

/-- `seL4_UserContext` on ia32: `eip`, `esp`, `eflags`, `eax`, `ebx`, `ecx`, `edx`, `esi`, `edi`, `ebp`, `fs_base`,
`gs_base`. -/
def contextSize : Nat := 12

/-- `gdb_to_seL4_register_index` and `x86_GDB_Register_to_seL4_UserContext`, gdb.c:37-92, `none` for -1: the registers of
the debugger are `eax`, `ecx`, `edx`, `ebx`, `esp`, `ebp`, `esi`, `edi`, `eip`, `eflags`, `cs`, `ss`, `ds`, `es`,
`fs_base`, `gs_base`. -/
def index (r : Nat) : Option Nat :=
  match r with
  | 0 => some 3
  | 1 => some 5
  | 2 => some 6
  | 3 => some 4
  | 4 => some 1
  | 5 => some 9
  | 6 => some 7
  | 7 => some 8
  | 8 => some 0
  | 9 => some 2
  | 14 => some 10
  | 15 => some 11
  | _ => none

/-- A breakpoint: `breakpoint_state_t` without `is_enabled`, component.debug.c:11-17. -/
structure Break where
  addr : Nat
  /-- for data, not for instructions -/
  data : Bool
  size : Nat
  /-- `seL4_BreakOnRead` is 0, `seL4_BreakOnWrite` 1, `seL4_BreakOnReadWrite` 2 -/
  rw : Nat
  deriving DecidableEq

/-- The server, the component and the kernel. -/
structure State where
  /-- `current_thread_tcb` -/
  tcb : Nat
  /-- `current_pc` -/
  pc : Nat
  /-- the registers of each thread -/
  regs : Nat → List Nat
  /-- `breakpoints` in the component -/
  table : List (Option Break)
  /-- the monitors of each thread in the kernel -/
  monitors : Nat → List (Option Break)

/-- What the code does not determine. -/
structure World where
  /-- the stack after `buf` in `string_to_word_data` -/
  after : List Nat
  /-- the uninitialised `data` in `GDB_write_general_registers` -/
  junk : List Nat
  /-- whether the kernel accepts a breakpoint (`seL4_TCB_SetBreakpoint`), or gives it up -/
  ok : Bool

/-- `BSWAP_WORD` -/
def bswap (v : Nat) : Nat :=
  v % 256 * 2 ^ 24 + v / 2 ^ 8 % 256 * 2 ^ 16 + v / 2 ^ 16 % 256 * 2 ^ 8 + v / 2 ^ 24 % 256

/-- `%08x` -/
def hex8 (v : Nat) : List Nat :=
  GdbMem.hex2 (v / 2 ^ 24) ++ GdbMem.hex2 (v / 2 ^ 16) ++ GdbMem.hex2 (v / 2 ^ 8) ++ GdbMem.hex2 v

/-- `string_to_word_data`, gdb.c:104-109: the array has room for eight characters and none for the end of the string.
The digits go on in what comes after. `strtoul` gives at most `ULONG_MAX`. Simplification: white space, signs and `0x`
are taken as the end of the number. -/
def wordData (w : World) (s : List Nat) : Nat :=
  let s := s.takeWhile (· ≠ 0)
  let buf := s.take 8 ++ List.replicate (8 - s.length) 0
  min (digits 16 0 (buf ++ w.after)) (2 ^ 32 - 1)

/-- `GDB_read_register`, gdb.c:434-465. `command` starts after the `p`. -/
def readRegister (s : State) (command : List Nat) : Out :=
  match strtok [] (GdbMem.array command) with
  | none => .reply noRegister
  | some (regString, _) =>
    let r := strtol 16 regString
    if r ≥ 10 then .reply noRegister
    else match index r with
      | none => .reply noRegister
      | some i => .reply (hex8 (bswap ((s.regs s.tcb).getD i 0)))

/-- `delegate_write_register`, component.debug.c:197-211, for a register that there is. -/
def setRegister (s : State) (i v : Nat) : State :=
  { s with regs := fun t => if t = s.tcb then (s.regs t).set i v else s.regs t }

/-- `GDB_write_register`, gdb.c:490-517. `command` starts after the `P`, 61 is `=`. -/
def writeRegister (w : World) (s : State) (command : List Nat) : State × Out :=
  match strtok [61] (GdbMem.array command) with
  | none => (s, .null)
  | some (regString, t) =>
    let r := strtol 16 regString
    if r < 13 then
      match strtok [] (next t) with
      | none => (s, .null)
      | some (dataString, _) =>
        let v := bswap (wordData w dataString)
        match index r with
        | none => (s, .reply okMessage)
        | some i => ({ setRegister s i v with pc := if r = 8 then v else s.pc }, .reply okMessage)
    else (s, .reply okMessage)

/-- `GDB_read_general_registers`, gdb.c:407-430. -/
def readGeneral (s : State) : Out :=
  .reply ((List.range 16).flatMap fun r => match index r with
    | none => hex8 (bswap 0)
    | some i => hex8 (bswap ((s.regs s.tcb).getD i 0)))

/-- `delegate_write_registers`, component.debug.c:179-195: each of the first `len` words of `regs` is copied to itself. -/
def writeRegisters (s : State) (_registers : List Nat) (len : Nat) : State :=
  let regs := s.regs s.tcb
  let regs' := (List.range len).foldl (fun r i => r.set i (r.getD i 0)) regs
  { s with regs := fun t => if t = s.tcb then regs' else s.regs t }

/-- The loop in gdb.c:480-484; `none` if a word is written in front of `data`. -/
def marshal (w : World) (s : List Nat) : Nat → Option (List Nat)
  | 0 => some (w.junk.take contextSize)
  | n + 1 => match marshal w s n with
    | none => none
    | some data => (index n).map fun i => data.set i (bswap (wordData w (s.drop (8 * n))))

/-- `GDB_write_general_registers`, gdb.c:467-488. `command` starts after the `G`. -/
def writeGeneral (w : World) (s : State) (command : List Nat) : State × Out :=
  match strtok [] (GdbMem.array command) with
  | none => (s, .null)
  | some (dataString, _) =>
    let n := min (dataString.length / 8) contextSize
    match marshal w dataString n with
    | none => (s, .overflow)
    | some data => ({ writeRegisters s data n with pc := data.getD 0 0 }, .reply okMessage)

/-- `get_breakpoint_format`, gdb.c:111-141: whether it is for data, and for which accesses. -/
def format (type : Nat) : Option (Bool × Nat) :=
  match type with
  | 1 => some (false, 0)
  | 2 => some (true, 1)
  | 3 => some (true, 0)
  | 4 => some (true, 2)
  | _ => none

/-- The first number with a property in a table: `find_free_breakpoint` and `get_breakpoint_num`,
component.debug.c:74-105. -/
def findIdx (p : Option Break → Bool) : List (Option Break) → Option Nat
  | [] => none
  | b :: bs => if p b then some 0 else (findIdx p bs).map (· + 1)

/-- A monitor of the current thread in the kernel. -/
def setMonitor (s : State) (i : Nat) (b : Option Break) : State :=
  { s with monitors := fun t => if t = s.tcb then (s.monitors t).set i b else s.monitors t }

/-- `delegate_insert_break`, component.debug.c:213-237: the state, and whether there was no error. -/
def insertBreak (w : World) (s : State) (b : Break) : State × Bool :=
  match findIdx (· = none) s.table with
  | none => (s, false)
  | some i => if w.ok then ({ setMonitor s i (some b) with table := s.table.set i (some b) }, true) else (s, false)

/-- `delegate_remove_break`, component.debug.c:239-261. The error for a breakpoint that is not there is overwritten with
the result of the kernel, which is called with the number -1 and refuses it. -/
def removeBreak (w : World) (s : State) (b : Break) : State × Bool :=
  match findIdx (· = some b) s.table with
  | none => (s, false)
  | some i => if w.ok then ({ setMonitor s i none with table := s.table.set i none }, true) else (s, false)

/-- `GDB_breakpoint`, gdb.c:566-614. `command` starts after the `Z` or `z`. -/
def breakpoint (w : World) (s : State) (insert : Bool) (command : List Nat) : State × Out :=
  match strtok [44] (GdbMem.array command) with
  | none => (s, .null)
  | some (typeString, t1) =>
    match strtok [44] (next t1) with
    | none => (s, .null)
    | some (addrString, t2) =>
      match strtok [44] (next t2) with
      | none => (s, .null)
      | some (sizeString, _) =>
        let type := strtol 16 typeString
        let addr := strtol 16 addrString
        let size := strtol 16 sizeString
        if type = 0 then (s, .reply [])
        else match format type with
          | none => (s, .reply errorMessage)
          | some (data, rw) =>
            let b : Break := ⟨addr, data, if type = 1 then 0 else size, rw⟩
            let r := if insert then insertBreak w s b else removeBreak w s b
            (r.1, .reply (if r.2 then okMessage else errorMessage))

/-- `handle_command` for these commands, gdb.c:663-670, 692-699, 743-750. Other commands change nothing that is
modelled here. -/
def command (w : World) (s : State) (c : List Nat) : State × Out :=
  match c with
  | 112 :: c => (s, readRegister s c)
  | 80 :: c => writeRegister w s c
  | 103 :: _ => (s, readGeneral s)
  | 71 :: c => writeGeneral w s c
  | 90 :: c => breakpoint w s true c
  | 122 :: c => breakpoint w s false c
  | _ => (s, .reply [])

/-- A step of the system, as far as this matters here. -/
inductive Step
  /-- a command -/
  | command (w : World) (c : List Nat)
  /-- a thread stops (`seL4_Recv` in seL4GDB-to.template.c:96) with these registers -/
  | stopped (tcb : Nat) (regs : List Nat)

/-- The state after a step. -/
def step (s : State) : Step → State
  | .command w c => (command w s c).1
  | .stopped t rs => { s with tcb := t, pc := rs.getD 0 0, regs := fun u => if u = t then rs else s.regs u }

/-- The states after `breakpoint_init` (component.debug.c:62-72): `n` monitors, none in use. -/
def initial (n tcb : Nat) (regs : Nat → List Nat) : State :=
  ⟨tcb, 0, regs, List.replicate n none, fun _ => List.replicate n none⟩

/-- A history. -/
def run (s : State) (steps : List Step) : State := steps.foldl step s

end Verif.GdbRegs
