import Mathlib.Tactic.ByContra
import Mathlib.Tactic.Tauto
import Mathlib.Data.List.Basic
import Mathlib.Data.List.Perm.Basic
import Mathlib.Data.List.Nodup

/-!
# Model: showing where a fault happened (C64)

`show_fault_location` (libsel4camkes/src/fault.c:21-83) and the memory map that the fault handler of a component
passes to it (camkes/templates/component.common.c:644-680).

Addresses are numbers below `W`. The text that is printed is modelled line by line. An assertion that fails is
`none`. Not modelled: the number of digits.
-/

namespace Verif.FaultMap

/-- `camkes_memory_region_t`, libsel4camkes/include/camkes/fault.h:13-18; `last` is the field `end`. -/
structure Region where
  start : Nat
  last : Nat
  name : String
  deriving DecidableEq, Repr

/-- A line of the output. -/
inductive Line
  | undescribed
  | address (a : Nat)
  | name (s : String)
  | fault (a : Nat)
  deriving DecidableEq, Repr

/-- The entries before the final one, fault.c:31-33. -/
def entries (map : List Region) : List Region := map.takeWhile fun r => !(r.start == 0 && r.last == 0)

/-- The inner loop, fault.c:55-68: the region with the highest end that is not above the limit; `none` if a region
is inverted. -/
def pick (limit : Nat) : Option Region → List Region → Option (Option Region)
  | cur, [] => some cur
  | cur, r :: rs =>
    if r.start ≤ r.last then
      if r.last ≤ limit ∧ (cur = none ∨ ∃ c ∈ cur, c.last < r.last) then pick limit (some r) rs
      else pick limit cur rs
    else none

/-- `x - 1` for unsigned numbers. -/
def pred (W x : Nat) : Nat := (x + W - 1) % W

/-- The lines for one region, fault.c:72-80. -/
def lines (W addr limit lastStart : Nat) (c : Region) : List Line :=
  (if c.last ≠ pred W lastStart then
    (if limit ≠ W - 1 then [.undescribed] else []) ++ [.address c.last]
   else []) ++
  [.name c.name] ++
  (if addr ≥ c.start ∧ addr ≤ c.last then [.fault addr] else []) ++
  [.address c.start]

/-- The outer loop, fault.c:52-84, with `todo` regions still to be printed. -/
def loop (W addr : Nat) (regs : List Region) : Nat → Nat → Nat → Option (List Line)
  | 0, _, _ => some []
  | todo + 1, limit, lastStart =>
    match pick limit none regs with
    | none => none
    | some none => none
    | some (some c) =>
      match loop W addr regs todo (pred W c.last) c.start with
      | none => none
      | some rest => some (lines W addr limit lastStart c ++ rest)

/-- `show_fault_location`, fault.c:24-84, without the heading. -/
def showFault (W : Nat) (map : List Region) (addr : Nat) : Option (List Line) :=
  loop W addr (entries map) (entries map).length (W - 1) 0

/-- The memory map for a thread, component.common.c:647-678: `code` and `codeEnd` are `__executable_start` and
`align_12bit`, then come the address and the size of the stack and of the IPC buffer, guard pages included. -/
def threadMap (page code codeEnd stack stackSize ipc ipcSize : Nat) : List Region :=
  [⟨code, codeEnd - 1, "code and data"⟩,
   ⟨stack, stack + page - 1, "guard page"⟩,
   ⟨stack + page, stack + stackSize - page - 1, "stack"⟩,
   ⟨stack + stackSize - page, stack + stackSize - 1, "guard page"⟩,
   ⟨ipc, ipc + page - 1, "guard page"⟩,
   ⟨ipc + page, ipc + ipcSize - page - 1, "IPC buffer"⟩,
   ⟨ipc + ipcSize - page, ipc + ipcSize - 1, "guard page"⟩,
   ⟨0, 0, ""⟩]

end Verif.FaultMap
