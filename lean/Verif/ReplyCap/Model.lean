/-!
# Model: lazy saving of reply capabilities (libsel4camkes/src/tls.c) and the loop of an RPC server

The kernel is modelled by its contract: a thread that receives a call gets a reply capability in its TCB;
receiving from an endpoint first deletes the one that is there; `seL4_CNode_SaveCaller` moves it to an empty
slot and fails for a slot in use; a reply capability is used up by sending to it. Only kernels without MCS
(`tls.c:17`).
-/

namespace Verif.ReplyCap

/-- How the program is built: whether `assert` is active, and whether the thread has a capability to its
CNode (`cnode_cap`, tls.h:27). -/
structure Build where
  asserts : Bool
  cnode : Bool

/-- The thread: `reply_cap_slot`, `reply_cap_in_tcb` and `reply_cap_save_error` of tls.h:20-37; and what the
kernel has: the client that the reply capability in the TCB and the one in the shadow slot answer to. -/
structure St where
  slot : Nat
  inTcb : Bool
  saveError : Nat
  tcb : Option Nat
  shadow : Option Nat
  deriving DecidableEq

/-- What happens, as it is seen from outside of the thread. -/
inductive Event
  /-- a request of a client is received -/
  | got (client : Nat)
  /-- the reply capability is declared -/
  | declared
  /-- `seL4_CNode_SaveCaller` is called, or would have been but there is no CNode; its error -/
  | saved (error : Nat)
  /-- the thread waits on another endpoint -/
  | waited
  /-- the result of `camkes_unprotect_reply_cap` -/
  | unprotected (error : Nat)
  /-- the server has the answer to the current request -/
  | answer
  /-- the call of a client returns -/
  | returned (client : Nat)
  /-- the server drops the current request because of an error -/
  | drop
  deriving DecidableEq

/-- `seL4_InvalidCapability`. -/
def invalidCapability : Nat := 2
/-- `seL4_DeleteFirst`. -/
def deleteFirst : Nat := 8

/-- `camkes_declare_reply_cap`, tls.c:19-34. `none` is a failed assertion. -/
def declare (b : Build) (slot : Nat) (st : St) (es : List Event) : Option (St × List Event) :=
  if b.asserts = true ∧ (slot = 0 ∨ st.inTcb = true) then none
  else some ({ st with slot := slot, inTcb := true }, .declared :: es)

/-- `seL4_CNode_SaveCaller`; `fail` is an error for some other reason. -/
def saveCaller (fail : Nat) (st : St) : St × Nat :=
  if fail ≠ 0 then (st, fail)
  else if st.shadow ≠ none then (st, deleteFirst)
  else ({ st with shadow := st.tcb, tcb := none }, 0)

/-- `camkes_protect_reply_cap`, tls.c:36-65. -/
def protect (b : Build) (fail : Nat) (st : St) (es : List Event) : Option (St × List Event) :=
  if st.inTcb = true then
    if b.asserts = true ∧ st.slot = 0 then none
    else if b.cnode = false then
      some ({ st with saveError := invalidCapability, inTcb := false }, .saved invalidCapability :: es)
    else
      let r := saveCaller fail st
      some ({ r.1 with saveError := r.2, inTcb := false }, .saved r.2 :: es)
  else some (st, es)

/-- `camkes_unprotect_reply_cap`, tls.c:67-84. -/
def unprotect (b : Build) (st : St) (es : List Event) : Option (St × List Event) :=
  if b.asserts = true ∧ st.inTcb = true then none
  else some ({ st with slot := if b.asserts = true then 0 else st.slot }, .unprotected st.saveError :: es)

/-- `seL4_Recv` on the endpoint of the interface, when a call of `client` arrives. -/
def recv (client : Nat) (st : St) (es : List Event) : St × List Event :=
  ({ st with tcb := some client }, .got client :: es)

/-- Waiting on some other endpoint: it deletes the reply capability in the TCB. -/
def wait (st : St) (es : List Event) : St × List Event := ({ st with tcb := none }, .waited :: es)

/-- The reply through the TCB (the first half of `seL4_ReplyRecv`). -/
def replyTcb (st : St) (es : List Event) : St × List Event :=
  match st.tcb with
  | some c => ({ st with tcb := none }, .returned c :: es)
  | none => (st, es)

/-- `seL4_Send` to the shadow slot. -/
def sendShadow (st : St) (es : List Event) : St × List Event :=
  match st.shadow with
  | some c => ({ st with shadow := none }, .returned c :: es)
  | none => (st, es)

/-- The macro `begin_recv`, rpc-connector.c:290-298, with `_save_reply_cap`, rpc-connector.c:135-147. -/
def beginRecv (b : Build) (slot client : Nat) (st : St) (es : List Event) : Option (St × List Event) :=
  let r := recv client st es
  declare b slot r.1 r.2

/-- The macro `reply_recv`, rpc-connector.c:301-359, for C and when the component might block. -/
def replyRecv (b : Build) (slot client : Nat) (st : St) (es : List Event) : Option (St × List Event) :=
  let es := .answer :: es
  if st.inTcb = true then
    let r := replyTcb { st with inTcb := false } es
    beginRecv b slot client r.1 r.2
  else
    match unprotect b st es with
    | none => none
    | some r =>
      let r := sendShadow r.1 r.2
      beginRecv b slot client r.1 r.2

/-- What a server thread does while it handles a request and at the end of it. -/
inductive Act
  /-- something that protects the reply capability and then waits on an endpoint: `begin_send` with a lock
  (rpc-connector.c:363-375), the `_wait` of an event (seL4Notification-to.template.c:116-120,
  seL4NotificationQueue-to.template.c:113-117) or of a semaphore (component.common.c:246-251). `fail` is an
  error of saving. -/
  | protectedWait (fail : Nat)
  /-- waiting on an endpoint without protecting (a template that is not cooperative) -/
  | plainWait
  /-- the answer is sent, and the next request comes from `next` -/
  | reply (next : Nat)
  /-- an error while unmarshalling or marshalling: `goto begin_recv`, rpc-connector-common-to.c:110-148,
  204-207, 257-260; the next request comes from `next` -/
  | discard (next : Nat)

def step (b : Build) (slot : Nat) (a : Act) (st : St) (es : List Event) : Option (St × List Event) :=
  match a with
  | .protectedWait fail => (protect b fail st es).map fun r => wait r.1 r.2
  | .plainWait => some (wait st es)
  | .reply next => replyRecv b slot next st es
  | .discard next => beginRecv b slot next st (.drop :: es)

/-- The thread when it starts. -/
def fresh : St := ⟨0, false, 0, none, none⟩

def steps (b : Build) (slot : Nat) : List Act → St → List Event → Option (St × List Event)
  | [], st, es => some (st, es)
  | a :: as, st, es => (step b slot a st es).bind fun r => steps b slot as r.1 r.2

/-- The server: `recv_first_rpc`, rpc-connector.c:237-271, and then the loop of
rpc-connector-common-to.c:90-262. What happened, the last event first; `none` if an assertion fails. -/
def server (b : Build) (slot first : Nat) (as : List Act) : Option (St × List Event) :=
  (beginRecv b slot first fresh []).bind fun r => steps b slot as r.1 r.2

/-- The calls of the interface of tls.h, in any order (the thread receives a request before it declares). -/
inductive Call
  | recvDeclare (slot client : Nat)
  | protect (fail : Nat)
  | unprotect

def call (b : Build) (c : Call) (st : St) (es : List Event) : Option (St × List Event) :=
  match c with
  | .recvDeclare slot client => beginRecv b slot client st es
  | .protect fail => protect b fail st es
  | .unprotect => unprotect b st es

def calls (b : Build) : List Call → St → List Event → Option (St × List Event)
  | [], st, es => some (st, es)
  | c :: cs, st, es => (call b c st es).bind fun r => calls b cs r.1 r.2

end Verif.ReplyCap
