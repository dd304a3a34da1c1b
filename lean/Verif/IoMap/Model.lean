import Mathlib.Tactic.ByContra

/-!
# Model: mapping of device memory (libsel4camkes/src/io.c)

Addresses are natural numbers: no sum of an address and a size wraps around.
-/

namespace Verif.IoMap

/-- `dataport_frame_t`, libsel4camkes/include/camkes/dataport.h (the capability is not used here). -/
structure Frame where
  paddr : Nat
  vaddr : Nat
  size : Nat
  deriving DecidableEq

/-- The local variables of `camkes_io_map`, io.c:146-148. -/
structure St where
  counting : Bool
  base : Nat
  counter : Nat

/-- One round of the loop without its last check, io.c:151-169. `paddr == frame->paddr - size_counter` is
written without the subtraction. -/
def round (paddr : Nat) (st : St) (f : Frame) : St :=
  if st.counting then
    if paddr + st.counter = f.paddr then { st with counter := st.counter + f.size }
    else ⟨false, 0, 0⟩
  else if paddr ≥ f.paddr ∧ f.paddr + f.size > paddr then
    let base := f.vaddr + (paddr - f.paddr)
    ⟨true, base, st.counter + (f.vaddr + f.size - base)⟩
  else st

/-- The loop, io.c:149-178: zero is `NULL`. -/
def loop (paddr size : Nat) : St → List Frame → Nat
  | _, [] => 0
  | st, f :: fs =>
    let st := round paddr st f
    if st.counter ≥ size then st.base else loop paddr size st fs

/-- `camkes_io_map`, io.c:136-179. -/
def ioMap (frames : List Frame) (paddr size : Nat) : Nat :=
  if paddr % 4096 ≠ 0 ∧ size % 4096 ≠ 0 then 0
  else loop paddr size ⟨false, 0, 0⟩ frames

/-! ## Tracking of mappings in debug builds -/

/-- `io_map`, io.c:103-121: the mapped pointers, the last one first; `memory` tells whether the list node
can be allocated. -/
def tracedMap (frames : List Frame) (mapped : List Nat) (paddr size : Nat) (memory : Bool) : List Nat × Nat :=
  let p := ioMap frames paddr size
  (if p ≠ 0 ∧ memory = true then p :: mapped else mapped, p)

/-- `ll_remove`, io.c:79-91. -/
def llRemove : List Nat → Nat → Option (List Nat)
  | [], _ => none
  | x :: xs, p => if x = p then some xs else (llRemove xs p).map (x :: ·)

/-- `io_unmap`, io.c:182-192: the mapped pointers, and whether the call is accepted without an error
message. -/
def tracedUnmap (mapped : List Nat) (p : Nat) : List Nat × Bool :=
  match llRemove mapped p with
  | none => (mapped, false)
  | some m => (m, true)

/-- The calls of a driver, and what it sees of them. -/
inductive Call
  | map (paddr size : Nat) (memory : Bool)
  | unmap (p : Nat)

inductive Event
  /-- the result of mapping, and whether it could be recorded -/
  | mapped (p : Nat) (memory : Bool)
  /-- unmapping, and whether it was accepted without an error message -/
  | unmapped (p : Nat) (accepted : Bool)
  deriving DecidableEq

def step (frames : List Frame) (mapped : List Nat) : Call → List Nat × Event
  | .map paddr size memory =>
    let r := tracedMap frames mapped paddr size memory
    (r.1, .mapped r.2 memory)
  | .unmap p =>
    let r := tracedUnmap mapped p
    (r.1, .unmapped p r.2)

/-- Some calls, with what was seen, the last event first; nothing is mapped at the beginning, io.c:216. -/
def run (frames : List Frame) : List Nat → List Event → List Call → List Nat × List Event
  | mapped, es, [] => (mapped, es)
  | mapped, es, c :: cs => run frames (step frames mapped c).1 ((step frames mapped c).2 :: es) cs

end Verif.IoMap
