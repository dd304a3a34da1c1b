import Mathlib.Tactic.ByContra

/-!
# Model: interrupts of a component (libsel4camkes/src/irq.c)
-/

namespace Verif.Irq

/-- `ps_irq_t` of libplatsupport. -/
inductive Irq
  | interrupt (number : Nat)
  | ioapic (ioapic pin level polarity vector : Nat)
  | msi (bus dev func handle vector : Nat)
  | trigger (number trigger : Nat)
  | perCpu (number trigger cpu : Nat)
  /-- `PS_NONE` -/
  | none
  deriving DecidableEq

/-- The second half of `check_irq_info_is_equal`, irq.c:64-75, with the fields of `a_normalized`. -/
def checkNormal (number trigger cpu : Nat) : Irq → Bool
  | .interrupt n => number == n
  | .trigger n t => number == n && trigger == t
  | .perCpu n t c => number == n && trigger == t && cpu == c
  | _ => false

/-- `check_irq_info_is_equal`, irq.c:23-78. -/
def check (a b : Irq) : Bool :=
  match a with
  | .ioapic i p l o v => match b with
    | .ioapic i' p' l' o' v' => i == i' && p == p' && l == l' && o == o' && v == v'
    | _ => false
  | .msi s d f h v => match b with
    | .msi s' d' f' h' v' => s == s' && d == d' && f == f' && h == h' && v == v'
    | _ => false
  | .interrupt n => checkNormal n 0 0 b
  | .trigger n t => checkNormal n t 0 b
  | .perCpu n t c => checkNormal n t c b
  | .none => false

/-- `allocated_irq_t`, libsel4camkes/include/camkes/irq.h; the callback stands for the function and its
data. -/
structure Entry where
  irq : Irq
  handler : Nat
  allocated : Bool
  callback : Option Nat
  deriving DecidableEq

/-- The return values. -/
inductive Ret
  /-- the id of an interrupt, or zero for success of `camkes_irq_unregister` -/
  | id (n : Nat)
  /-- `-EINVAL` -/
  | invalid
  /-- `-ENOENT` -/
  | notFound
  /-- `-EFAULT` -/
  | fault
  deriving DecidableEq

/-- `camkes_irq_register`, irq.c:111-137, with the search `find_matching_irq_entry_by_interrupt`,
irq.c:80-94. `ack` tells whether `seL4_IRQHandler_Ack` succeeds. The callback is not null (otherwise the
result is `-EINVAL`). -/
def register (ack : Nat → Bool) (irq : Irq) (callback : Nat) : List Entry → List Entry × Ret
  | [] => ([], .notFound)
  | x :: xs =>
    if x.allocated = false ∧ check x.irq irq = true then
      if ack x.handler then ({ x with allocated := true, callback := some callback } :: xs, .id x.handler)
      else (x :: xs, .fault)
    else
      let r := register ack irq callback xs
      (x :: r.1, r.2)

/-- `camkes_irq_unregister`, irq.c:139-164, with the search `find_matching_irq_entry_by_cptr`,
irq.c:96-109. -/
def unregister (ack : Nat → Bool) (id : Nat) : List Entry → List Entry × Ret
  | [] => ([], .notFound)
  | x :: xs =>
    if x.allocated = true ∧ x.handler = id then
      if ack x.handler then ({ x with allocated := false, callback := .none } :: xs, .id 0)
      else (x :: xs, .fault)
    else
      let r := unregister ack id xs
      (x :: r.1, r.2)

/-- `global_notification_irq_handler_t`: a badge, and the index of the entry that it refers to. -/
structure Global where
  badge : Nat
  ref : Nat

/-- `camkes_handle_global_endpoint_irq`, irq.c:186-202: the callbacks that are called, in this order. The
callbacks do not change the table. -/
def handleGlobal (xs : List Entry) (badge : Nat) : List Global → List Nat
  | [] => []
  | g :: gs =>
    if badge &&& g.badge = g.badge then
      match xs[g.ref]?.bind (·.callback) with
      | some cb => cb :: handleGlobal xs badge gs
      | .none => handleGlobal xs badge gs
    else handleGlobal xs badge gs

/-- The calls of a driver. -/
inductive Call
  | register (irq : Irq) (callback : Nat)
  | unregister (id : Nat)

def step (ack : Nat → Bool) (xs : List Entry) : Call → List Entry × Ret
  | .register irq cb => register ack irq cb xs
  | .unregister id => unregister ack id xs

/-- Some calls, each with its own result of acknowledging, and what happened, the last one first. -/
def run : List Entry → List (Call × Ret) → List (Call × (Nat → Bool)) → List Entry × List (Call × Ret)
  | xs, seen, [] => (xs, seen)
  | xs, seen, (c, ack) :: cs => run (step ack xs c).1 ((c, (step ack xs c).2) :: seen) cs

end Verif.Irq
