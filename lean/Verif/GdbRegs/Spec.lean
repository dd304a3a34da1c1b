import Verif.GdbRegs.Model
import Verif.GdbMem.Spec

/-!
# Specification: registers and breakpoints in the debugger (C76)
-/

namespace Verif.GdbRegs

open GdbMem (text number Digits hexBytes)

/-- The registers of the i386 in the order of the debugger. -/
def gdbNames : List String :=
  ["eax", "ecx", "edx", "ebx", "esp", "ebp", "esi", "edi", "eip", "eflags", "cs", "ss", "ds", "es", "fs_base", "gs_base"]

/-- The registers in the order of the kernel (libsel4, `seL4_UserContext` on ia32). -/
def kernelNames : List String :=
  ["eip", "esp", "eflags", "eax", "ebx", "ecx", "edx", "esi", "edi", "ebp", "fs_base", "gs_base"]

/-- The value of a register in a thread; 0 if the kernel does not give it. -/
def State.value (s : State) (t : Nat) (name : String) : Nat := (s.regs t).getD (kernelNames.idxOf name) 0

/-- The bytes of a word, as in memory. -/
def leBytes (v : Nat) : List Nat := [v % 256, v / 2 ^ 8 % 256, v / 2 ^ 16 % 256, v / 2 ^ 24 % 256]

/-- `p<number>` -/
def readCommand (rs : List Nat) : List Nat := 112 :: text rs

/-- `P<number>=<bytes>` -/
def writeCommand (rs : List Nat) (v : Nat) : List Nat := 80 :: text rs ++ 61 :: hexBytes (leBytes v)

/-- `Z<type>,<address>,<size>` (90) or `z...` (122) -/
def breakCommand (k : Nat) (ts as ss : List Nat) : List Nat := k :: text ts ++ 44 :: text as ++ 44 :: text ss

/-- What the types mean: 1 hardware breakpoint, 2 write, 3 read, 4 access watchpoint. -/
def wanted (type addr size : Nat) : Break :=
  if type = 1 then ⟨addr, false, 0, 0⟩ else ⟨addr, true, size, if type = 2 then 1 else if type = 3 then 0 else 2⟩

/-- Only one thread stops. -/
def OneThread (t : Nat) (steps : List Step) : Prop := ∀ u rs, Step.stopped u rs ∈ steps → u = t

end Verif.GdbRegs
