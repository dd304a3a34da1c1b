import Verif.Context.Model
import Verif.Threads.Model
import Mathlib.Data.List.Infix

/-!
# Model: where the faults of threads go (C127)

The threads of a component and its own fault handler (camkes/templates/component.common.c:429-516, 607-695), and the
templates of the debugger: seL4GDB-from.template.c, seL4GDB-to.template.c:29, 87-102, seL4GDBMem-from.template.c,
seL4GDBMem-to.template.c:11. Requests go to the allocators of the template context, those of `Verif.Context`.

Left out: `options.realtime` (where the fault endpoint is given by its name, component.common.c:498-500), the other
settings of the threads (`Verif.Threads`), IPC buffers and scheduling contexts. Slots are numbered from zero.
-/

namespace Verif.FaultCaps
open Verif.Context

/-- The state: that of the allocators, the badges of the capabilities in the slots of each space, which objects are
TCBs, and the slot that each TCB has for its fault endpoint (`fault_ep_slot`). -/
structure St where
  core : Context.St
  badge : Nat → Nat → Option Nat
  tcb : Nat → Bool
  fault : Nat → Option Nat

/-- `read=True, write=True, grantreply=True`. -/
def faultRights : Rights := ⟨true, true, false, true⟩
/-- A TCB is given no rights, component.common.c:461. -/
def tcbRights : Rights := ⟨false, false, false, false⟩

def tTcb : Text := ['_', 't', 'c', 'b']
def tFaultEp : Text := ['f', 'a', 'u', 'l', 't', '_', 'e', 'p']
def tFaultEp_ : Text := ['f', 'a', 'u', 'l', 't', '_', 'e', 'p', '_']
def tHandler : Text := ['f', 'a', 'u', 'l', 't', '_', 'e', 'p', '_', '_', 'f', 'a', 'u', 'l', 't', '_', 'h', 'a', 'n', 'd', 'l', 'e', 'r']
def tEpFault : Text := ['e', 'p', '_', 'f', 'a', 'u', 'l', 't']
def t_FaultEp : Text := ['_', 'f', 'a', 'u', 'l', 't', '_', 'e', 'p']
def tMemFault : Text := ['m', 'e', 'm', '_', 'f', 'a', 'u', 'l', 't']
def tDelegate : Text := ['G', 'D', 'B', '_', 'd', 'e', 'l', 'e', 'g', 'a', 't', 'e']
def t_tcb_Delegate : Text := ['_', 't', 'c', 'b', '_', 'G', 'D', 'B', '_', 'd', 'e', 'l', 'e', 'g', 'a', 't', 'e']

/-- The key of a capability in the store, camkes/runner/Context.py:423. -/
abbrev capKey (n : Text) : Text := n ++ ['_', 'c', 'a', 'p']

/-- The name of an object. -/
def nameOf (s : Context.St) (o : Nat) : Option Text := (s.objects.find? (fun p => p.2 = o)).map (·.1)

/-! ## The threads of a component -/

/-- The capability that a thread sends its faults to, component.common.c:494-495. The badge is an argument of the
allocator, which uses it when it makes the capability. -/
def giveFaultEp (s : St) (space : Nat) (inst : Text) (ep tcbObj tcbSlot : Nat) (name : Text) : Except String St :=
  match allocCap s.core space inst (tFaultEp_ ++ name) (some ep) faultRights with
  | .error e => .error e
  | .ok (core, f) =>
    .ok { s with
      core := core
      badge := fun sp i => if sp = space ∧ i = f ∧ s.core.capStore space inst (capKey (tFaultEp_ ++ name)) = none then
        some tcbSlot else s.badge sp i
      fault := fun o => if o = tcbObj then some f else s.fault o }

/-- One thread, component.common.c:460-461, 492-502; `handled` is `options.debug_fault_handlers and not loop.last`. -/
def thread (s : St) (space : Nat) (inst : Text) (handled : Option Nat) (name : Text) : Except String St :=
  let o := (allocObj s.core inst (name ++ tTcb)).2
  match allocCap (allocObj s.core inst (name ++ tTcb)).1 space inst (name ++ tTcb) (some o) tcbRights with
  | .error e => .error e
  | .ok (core, t) =>
    match handled with
    | none => .ok { s with core := core, tcb := fun x => x = o ∨ s.tcb x }
    | some ep => giveFaultEp { s with core := core, tcb := fun x => x = o ∨ s.tcb x } space inst ep o t name

/-- The loop over the threads, component.common.c:451-519; the last thread is not handled. -/
def threadLoop (space : Nat) (inst : Text) (ep : Option Nat) : St → List Text → Except String St
  | s, [] => .ok s
  | s, [n] => thread s space inst none n
  | s, n :: m :: rest =>
    match thread s space inst ep n with
    | .error e => .error e
    | .ok s => threadLoop space inst ep s (m :: rest)

/-- What component.common.c does about the threads of an instance: lines 431-433, 451-519 and 613. The answer is the slot
that the fault handler receives from. -/
def component (s : St) (space : Nat) (inst : Text) (handlers : Bool) (names : List Text) : Except String (St × Option Nat) :=
  if handlers then
    match threadLoop space inst (some (allocObj s.core inst tFaultEp).2) { s with core := (allocObj s.core inst tFaultEp).1 } names with
    | .error e => .error e
    | .ok s =>
      match allocCap (allocObj s.core inst tFaultEp).1 space inst tHandler (some (allocObj s.core inst tFaultEp).2) faultRights with
      | .error e => .error e
      | .ok (core, h) => .ok ({ s with core := core }, some h)
  else
    match threadLoop space inst none s names with
    | .error e => .error e
    | .ok s => .ok (s, none)

/-- The name that the fault handler shows for a badge, component.common.c:641-684: the first thread whose TCB has the
slot of this number; `none` is `<unknown>`. -/
def shown (s : St) (space : Nat) (inst : Text) (names : List Text) (badge : Nat) : Option Text :=
  names.find? (fun n => s.core.capStore space inst (capKey (n ++ tTcb)) = some badge)

/-! ## The debugger -/

/-- The TCBs in the CNode of the component: slot, object and name of the object, seL4GDB-from.template.c:13-18 and
seL4GDBMem-from.template.c:13-18. -/
def threadCaps (s : St) (space : Nat) : List (Nat × Nat × Text) :=
  (s.core.cnodes space).zipIdx.filterMap fun p =>
    match p.1 with
    | some c => if s.tcb c.obj then some (p.2, c.obj, (nameOf s.core c.obj).getD []) else none
    | none => none

/-- The body of the loop, seL4GDB-from.template.c:20-26. -/
def gdbThread (space : Nat) (inst conn : Text) (ep : Nat) (s : St) (t : Nat × Nat × Text) : Except String St :=
  if t.2.2 = inst ++ t_tcb_Delegate then .ok s
  else
    match allocCap s.core space conn (t.2.2 ++ t_FaultEp) (some ep) faultRights with
    | .error e => .error e
    | .ok (core, f) =>
      .ok { s with
        core := core
        badge := fun sp i => if sp = space ∧ i = f then some t.1 else s.badge sp i
        fault := fun o => if o = t.2.1 then some f else s.fault o }

/-- The loop, seL4GDB-from.template.c:20-26. -/
def gdbLoop (space : Nat) (inst conn : Text) (ep : Nat) : St → List (Nat × Nat × Text) → Except String St
  | s, [] => .ok s
  | s, t :: rest =>
    match gdbThread space inst conn ep s t with
    | .error e => .error e
    | .ok s => gdbLoop space inst conn ep s rest

/-- seL4GDB-from.template.c:10-26, for an end of the instance `inst`. -/
def gdbFrom (s : St) (space : Nat) (inst conn : Text) : Except String St :=
  gdbLoop space inst conn (allocObj s.core conn tEpFault).2 { s with core := (allocObj s.core conn tEpFault).1 }
    (threadCaps { s with core := (allocObj s.core conn tEpFault).1 } space)

/-- seL4GDB-to.template.c:29: the endpoint that the debugger receives from. -/
def gdbTo (s : St) (space : Nat) (conn : Text) : Except String (St × Nat) :=
  match allocCap (allocObj s.core conn tEpFault).1 space conn tEpFault (some (allocObj s.core conn tEpFault).2) faultRights with
  | .error e => .error e
  | .ok (core, slot) => .ok ({ s with core := core }, slot)

/-- The body of the loop, seL4GDBMem-from.template.c:19-24. -/
def memThread (space mem : Nat) (s : St) (t : Nat × Nat × Text) : St :=
  if tDelegate <:+: t.2.2 then
    { s with
      badge := fun sp i => if sp = space ∧ i = mem then some t.1 else s.badge sp i
      fault := fun o => if o = t.2.1 then some mem else s.fault o }
  else s

/-- seL4GDBMem-to.template.c:11: the slot that the handler of memory faults receives from. -/
def memTo (s : St) (space : Nat) (conn : Text) : Except String (St × Nat) :=
  match allocCap (allocObj s.core conn tMemFault).1 space conn tMemFault (some (allocObj s.core conn tMemFault).2) faultRights with
  | .error e => .error e
  | .ok (core, mem) => .ok ({ s with core := core }, mem)

/-- seL4GDBMem-from.template.c:10-24, which begins with the same allocation. -/
def memFrom (s : St) (space : Nat) (conn : Text) : Except String St :=
  match memTo s space conn with
  | .error e => .error e
  | .ok (s, mem) => .ok ((threadCaps s space).foldl (memThread space mem) s)

/-- The words of a fault message that the debugger copies, seL4GDB-to.template.c:89-102: the indices that are written of
`args`, which has four elements. -/
def copied (length : Nat) : List Nat := List.range length

/-- `seL4_Word args[4]`, seL4GDB-to.template.c:92. -/
def argsLength : Nat := 4

end Verif.FaultCaps
