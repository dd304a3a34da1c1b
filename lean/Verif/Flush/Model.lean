import Mathlib.Data.List.Basic
import Mathlib.Tactic.Tauto
import Mathlib.Tactic.ByContra

/-!
# Model: cache maintenance of device memory (C69)

`camkes_dataport_flush_cache` on Arm (libsel4camkes/src/dataport.c:12-17 and libsel4camkes/src/arch/arm/dataport.c:28-67) and
the table of frames that it uses (camkes/templates/seL4DTBHardware-to.template.c:79-90, seL4HardwareMMIO.template.c:93-101).

Outside: the system calls of the kernel, a function from their arguments to their result. Sizes are numbers; the code
uses `size_t` (nothing wraps around if the size of the dataport plus the size of a page is representable).
-/

namespace Verif.Flush

/-- `struct dataport_frame`, libsel4camkes/include/camkes/dataport.h:35-40. -/
structure Frame where
  paddr : Nat
  cap : Nat
  size : Nat
  vaddr : Nat
  deriving DecidableEq

/-- `dma_cache_op_t`. -/
inductive Op
  | clean
  | invalidate
  | cleanInvalidate
  deriving DecidableEq

/-- A system call: which one, the frame, and its two offsets, arch/arm/dataport.c:13-26. -/
structure KCall where
  op : Op
  cap : Nat
  start : Nat
  stop : Nat
  deriving DecidableEq

/-- How a call ends. -/
inductive Out
  | ret (n : Int)
  /-- the table of frames is left -/
  | fault
  deriving DecidableEq

/-- `ROUND_UP`. -/
def roundUp (n b : Nat) : Nat := if n % b = 0 then n else n + b - n % b

/-- The loop in arch/arm/dataport.c:48-59: the system calls and the result. Each round raises the offset, so that
`fuel` can be the number of bytes. -/
def loop (kernel : KCall → Int) (frames : List Frame) (op : Op) (ps fin : Nat) : Nat → Nat → Nat → List KCall × Out
  | 0, _, _ => ([], .fault)
  | fuel + 1, cur, i =>
    if cur < fin then
      let top := min (roundUp (cur + 1) ps) fin
      match frames[i]? with
      | none => ([], .fault)
      | some f =>
        let k : KCall := ⟨op, f.cap, cur % ps, (top - 1) % ps⟩
        if kernel k ≠ 0 then ([k], .ret (kernel k))
        else
          let r := loop kernel frames op ps fin fuel top (i + 1)
          (k :: r.1, r.2)
    else ([], .ret 0)

/-- The index of the first frame at an address, arch/arm/dataport.c:41-43. -/
def firstAt (frames : List Frame) (vaddr : Nat) : Option Nat := frames.findIdx? fun f => f.vaddr == vaddr

/-- `camkes_dataport_arch_flush_cache`, arch/arm/dataport.c:28-67. -/
def flush (kernel : KCall → Int) (frames : List Frame) (start size dpStart dpSize : Nat) (op : Op) : List KCall × Out :=
  if start ≥ dpSize ∨ size > dpSize ∨ dpSize - size < start then ([], .ret (-1))
  else
    match firstAt frames dpStart with
    | none => ([], .ret 0)
    | some i =>
      match frames[i]? with
      | none => ([], .fault)
      | some f => loop kernel frames op f.size (start + size) (size + 1) start (i + start / f.size)

/-- The entries for one dataport, seL4DTBHardware-to.template.c:79-90, seL4HardwareMMIO.template.c:93-101. -/
def region (paddr base ps : Nat) (caps : List Nat) : List Frame :=
  caps.zipIdx.map fun c => ⟨paddr + c.2 * ps, c.1, ps, base + c.2 * ps⟩

end Verif.Flush
