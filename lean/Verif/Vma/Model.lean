import Mathlib.Tactic.ByContra
import Mathlib.Tactic.Tauto
import Mathlib.Data.List.Basic

/-!
# Model: which memory is mapped (C66)

`madvise`, `mincore`, `mlock` and `munlock` (libsel4camkes/src/sys_madvise.c) and the description of the
address space that they use (camkes/templates/component.common.c:977-1081).

Addresses are numbers below `W`, `UINTPTR_MAX` is `W - 1`. The page size that `sysconf` reports is a parameter, zero
if it is not known.
-/

namespace Verif.Vma

/-- `struct camkes_vma`, libsel4camkes/include/camkes/vma.h:12-42, without `cached` and `name`. -/
structure Vma where
  start : Nat
  stop : Nat
  read : Bool
  write : Bool
  execute : Bool
  deriving DecidableEq

/-- Results of the system calls. -/
inductive Ret
  | ok
  | EINVAL
  | ENOMEM
  | EFAULT
  deriving DecidableEq

/-- The inner loop of `covered`, sys_madvise.c:42-43: the first entry that contains the address. -/
def lookup (vmas : List Vma) (addr : Nat) : Option Vma := vmas.find? fun v => decide (v.start ≤ addr ∧ v.stop > addr)

/-- The outer loop of `covered`, sys_madvise.c:41-60; `fuel` bounds the number of rounds (each one raises the
address, see `scan_fuel`). -/
def scan (vmas : List Vma) : Nat → Nat → Nat → Bool
  | 0, _, _ => false
  | fuel + 1, addr, len =>
    match lookup vmas addr with
    | none => false
    | some v =>
      if !v.read && !v.write && !v.execute then false
      else if v.stop - addr > len then true
      else scan vmas fuel v.stop (len - (v.stop - addr))

/-- `covered`, sys_madvise.c:27-66. -/
def covered (W : Nat) (vmas : List Vma) (addr len : Nat) : Bool :=
  if W - 1 - len < addr then false else scan vmas (W + 1) addr len

/-- `camkes_sys_madvise`, sys_madvise.c:85-122; `advices` are the constants in 110-111. -/
def madvise (W page : Nat) (vmas : List Vma) (advices : List Int) (addr length : Nat) (advice : Int) : Ret :=
  if page = 0 then .EINVAL
  else if addr % page ≠ 0 then .EINVAL
  else if length = 0 then .EINVAL
  else if advice ∉ advices then .EINVAL
  else if !covered W vmas addr length then .ENOMEM
  else .ok

/-- `camkes_sys_mincore`, sys_madvise.c:124-171, with the number of bytes of `vec` that are set to 1. -/
def mincore (W page : Nat) (vmas : List Vma) (addr length vec : Nat) : Ret × Nat :=
  if page = 0 then (.EINVAL, 0)
  else if addr % page ≠ 0 then (.EINVAL, 0)
  else if W - 1 - length < addr then (.ENOMEM, 0)
  else
    let pages := length / page + if length % page ≠ 0 then 1 else 0
    if vec = 0 ∨ (vec + pages) % W < vec then (.EFAULT, 0)
    else if covered W vmas addr length then (.ok, pages)
    else (.ENOMEM, 0)

/-- `mlock_internal`, sys_madvise.c:182-205, which is `mlock` and `munlock` (207-223). -/
def mlock (W page : Nat) (vmas : List Vma) (addr len : Nat) : Ret :=
  if (addr + len) % W < addr then .EINVAL
  else if page = 0 then .EINVAL
  else if addr % page ≠ 0 then .EINVAL
  else if covered W vmas addr len then .ok
  else .ENOMEM

/-- A thread: where its stack is, the size that it asked for, and where its IPC buffer is. -/
structure Thread where
  stack : Nat
  size : Nat
  ipc : Nat

/-- The size of the stack with its guards, `thread_stack` in camkes/templates/macros.py:42-47. -/
def Thread.stackSize (p : Nat) (t : Thread) : Nat := (t.size + p - 1) / p * p + p * 2

/-- The sections of a component, component.common.c:969-974, and its DMA pool. -/
structure Sections where
  executableStart : Nat
  etext : Nat
  preinitStart : Nat
  edata : Nat
  bssStart : Nat
  fin : Nat
  dma : Nat
  dmaSize : Nat

/-- The entries for a thread, component.common.c:1023-1078. -/
def threadVmas (p : Nat) (t : Thread) : List Vma :=
  [⟨t.stack, t.stack + p, false, false, false⟩,
   ⟨t.stack + p, t.stack + t.stackSize p - p, true, true, false⟩,
   ⟨t.stack + t.stackSize p - p, t.stack + t.stackSize p, false, false, false⟩,
   ⟨t.ipc, t.ipc + p, false, false, false⟩,
   ⟨t.ipc + p, t.ipc + p * 2, true, true, false⟩,
   ⟨t.ipc + p * 2, t.ipc + p * 3, false, false, false⟩]

/-- `camkes_vmas`, component.common.c:977-1079. -/
def vmas (p : Nat) (s : Sections) (ts : List Thread) : List Vma :=
  [⟨s.executableStart, s.etext, true, false, true⟩,
   ⟨s.etext, s.preinitStart, true, false, false⟩,
   ⟨s.preinitStart, s.edata, true, true, false⟩,
   ⟨s.bssStart, s.fin, true, true, false⟩,
   ⟨s.dma, s.dma + s.dmaSize, true, true, false⟩] ++ ts.flatMap (threadVmas p)

end Verif.Vma
