import Mathlib.Tactic.ByContra

/-!
# Model: the pool of capabilities of a component (libsel4camkes/src/allocator.c)
-/

namespace Verif.CapAlloc

/-- A resource, allocator.c:16-24. Types, capabilities, sizes and attributes are numbers. -/
structure Node where
  type : Nat
  size : Nat
  ptr : Nat
  used : Bool
  attributes : Nat
  deriving DecidableEq

/-- `camkes_provide`, allocator.c:27-42; `memory` tells whether `calloc` succeeds. -/
def provide (pool : List Node) (memory : Bool) (type ptr size attributes : Nat) : List Node × Bool :=
  if memory then (⟨type, size, ptr, false, attributes⟩ :: pool, true) else (pool, false)

/-- The test of `camkes_alloc`, allocator.c:47-48. -/
def suits (n : Node) (type size flags : Nat) : Prop :=
  n.type = type ∧ n.used = false ∧ n.attributes &&& flags = flags ∧ (size = 0 ∨ size = n.size)

instance : Decidable (suits n type size flags) := inferInstanceAs (Decidable (_ ∧ _))

/-- `camkes_alloc`, allocator.c:44-54: zero is `seL4_CapNull`. -/
def alloc : List Node → Nat → Nat → Nat → List Node × Nat
  | [], _, _, _ => ([], 0)
  | n :: pool, type, size, flags =>
    if suits n type size flags then ({ n with used := true } :: pool, n.ptr)
    else
      let r := alloc pool type size flags
      (n :: r.1, r.2)

/-- `camkes_free`, allocator.c:56-66: `none` if an assertion fails. -/
def free : List Node → Nat → Option (List Node)
  | [], _ => none
  | n :: pool, ptr =>
    if n.ptr = ptr then
      if n.used then some ({ n with used := false } :: pool) else none
    else (free pool ptr).map (n :: ·)

/-- The calls that a component can make. -/
inductive Call
  | provide (memory : Bool) (type ptr size attributes : Nat)
  | alloc (type size flags : Nat)
  | free (ptr : Nat)

/-- What can be observed. -/
inductive Event
  | provided (type ptr size attributes : Nat)
  | refused
  | allocated (type size flags ptr : Nat)
  | freed (ptr : Nat)
  deriving DecidableEq

/-- One call. -/
def step (pool : List Node) : Call → Option (List Node × Event)
  | .provide memory type ptr size attributes =>
    let r := provide pool memory type ptr size attributes
    some (r.1, if r.2 then .provided type ptr size attributes else .refused)
  | .alloc type size flags =>
    let r := alloc pool type size flags
    some (r.1, .allocated type size flags r.2)
  | .free ptr => (free pool ptr).map (·, .freed ptr)

/-- Some calls, with the events so far, the last one first; `resources` is empty at the beginning,
allocator.c:25. -/
def run : List Node → List Event → List Call → Option (List Node × List Event)
  | pool, seen, [] => some (pool, seen)
  | pool, seen, c :: cs =>
    match step pool c with
    | none => none
    | some (pool, e) => run pool (e :: seen) cs

end Verif.CapAlloc
