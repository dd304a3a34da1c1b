import Mathlib.Tactic.ByContra

/-!
# Model: registration of interfaces (libsel4camkes/src/interface_registration.c)

The two linked lists are lists, and pointers are numbers, with zero for `NULL`. `sglib`'s `find_member`
returns the first node that is equal, `add` adds at the front, and `delete_if_member` removes the first
node that is equal. Registrations are without properties (`properties == NULL`): the loop of
`copy_properties_array`, interface_registration.c:96, advances a pointer to characters until it is null,
so its behaviour with properties is not defined.
-/

namespace Verif.IfaceReg

/-- The cookie, interface_registration.c:34-51: the interface types with their instances. -/
abbrev Registry := List (Nat × List Nat)

/-- The return values. -/
inductive Ret
  | ok
  /-- `-EINVAL` -/
  | invalid
  /-- `-ENOMEM` -/
  | noMemory
  /-- `-ENOENT` -/
  | notFound
  /-- a negative number from the handler -/
  | handler (n : Int)
  deriving DecidableEq

/-- `sglib_outer_interface_list_t_find_member`. -/
def lookup (r : Registry) (type : Nat) : Option (List Nat) := (r.find? (·.1 == type)).map (·.2)

/-- A change of the inner list of the node that was found. -/
def update (type : Nat) (f : List Nat → List Nat) : Registry → Registry
  | [] => []
  | (t, l) :: r => if t = type then (t, f l) :: r else (t, l) :: update type f r

/-- `camkes_interface_register`, interface_registration.c:119-200, without properties. `null` is
`PS_NULL_INTERFACE`; `memory1` and `memory2` tell whether the two allocations succeed. -/
def register (null : Nat) (r : Registry) (type inst : Nat) (memory1 memory2 : Bool) : Registry × Ret :=
  if inst = 0 ∧ type ≠ null then (r, .invalid)
  else match lookup r type with
    | some l =>
      if l.find? (· == inst) = none then (r, .invalid)
      else if memory2 = false then (r, .noMemory)
      else (update type (inst :: ·) r, .ok)
    | none =>
      if memory1 = false then (r, .noMemory)
      else if memory2 = false then (r, .noMemory)
      else ((type, [inst]) :: r, .ok)

/-- `camkes_interface_unregister`, interface_registration.c:202-237. -/
def unregister (null : Nat) (r : Registry) (type inst : Nat) : Registry × Ret :=
  if inst = 0 ∧ type ≠ null then (r, .invalid)
  else match lookup r type with
    | none => (r, .ok)
    | some _ => (update type (·.erase inst) r, .ok)

/-- The loop of `camkes_interface_find`, interface_registration.c:260-272: the instances that the handler
is called with, and the result. `found` is `PS_INTERFACE_FOUND_MATCH`. -/
def visit (found : Int) (handler : Nat → Int) : List Nat → List Nat × Ret
  | [] => ([], .notFound)
  | i :: is =>
    if handler i < 0 then ([i], .handler (handler i))
    else if handler i = found then ([i], .ok)
    else
      let r := visit found handler is
      (i :: r.1, r.2)

/-- `camkes_interface_find`, interface_registration.c:239-273, with a handler that is not null. -/
def find (found : Int) (r : Registry) (type : Nat) (handler : Nat → Int) : List Nat × Ret :=
  match lookup r type with
  | none => ([], .notFound)
  | some l => visit found handler l

/-- The calls that change the registry. -/
inductive Call
  | register (type inst : Nat) (memory1 memory2 : Bool)
  | unregister (type inst : Nat)

def step (null : Nat) (r : Registry) : Call → Registry × Ret
  | .register type inst memory1 memory2 => register null r type inst memory1 memory2
  | .unregister type inst => unregister null r type inst

/-- Some calls, with what happened, the last one first. The registry is empty at the beginning,
interface_registration.c:285. -/
def run (null : Nat) : Registry → List (Call × Ret) → List Call → Registry × List (Call × Ret)
  | r, seen, [] => (r, seen)
  | r, seen, c :: cs => run null (step null r c).1 ((c, (step null r c).2) :: seen) cs

end Verif.IfaceReg
