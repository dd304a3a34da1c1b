import Verif.ReplyCap.Model
import Verif.CakeRpc.Model

/-!
# Model: the reply capability of a server in CakeML

The server of `seL4RPCCall` in CakeML keeps its reply capability with the functions of tls.c, as the one in C
does, but reaches them through the foreign function interface: every capability crosses it as the bytes of an
array. The thread and the kernel are those of `Verif.ReplyCap.Model`; here are the arrays, and which slots the
kernel is asked for. The contents of messages are those of `Verif.CakeRpc.Model`. `none` is a program that
stops: an exception of CakeML, a failed assertion, or a thread that the kernel has nothing to do for.
-/

namespace Verif.CakeReply

open Verif.CakeRpc (Buf put intToBytes)
open Verif.ReplyCap (St Event Build)
open Verif.Marshal (dec)

/-- What is fixed when the server is generated: the word size (`macros.get_word_size`), the numbers in the
source (`namespace.ep`, `namespace.reply_cap_slot`, `namespace.cnode`; rpc-connector.c:200, 219-222), whether
`might_block` (objects.py:993-996) holds and whether `assert` is active; and the thread's capability space: the
slots with the capability to the endpoint and the one to the CNode. -/
structure Server where
  ws : Nat
  ep : Nat
  slot : Nat
  cnode : Nat
  mightBlock : Bool
  asserts : Bool
  epSlot : Nat
  cnodeSlot : Nat

/-- The thread: what tls.h has and the kernel knows (`Verif.ReplyCap.St`), `cnode_cap` (tls.h:27), the slot in
which the kernel saved the reply capability, and `ConInternal.ipcbuf`. -/
structure Thread where
  st : St
  cnode : Nat
  savedIn : Nat
  buf : Buf

abbrev Run := Thread × List Event

/-- `memcpy` of a word out of an array; `none` if the array is too short (the code does not look). -/
def wordAt (ws : Nat) (a : Buf) (off : Nat) : Option Nat :=
  if off + ws ≤ a.length then some (dec ((a.drop off).take ws)) else none

/-- `Word8Array.copy (int_to_bytes w ws) 0 ws a 1`, as in component.environment.start.cakeml:70, 81, 91, 101, 111. -/
def putCap (ws : Nat) (w : Int) (a : Buf) : Option Buf :=
  match put .subscript a 1 (intToBytes w ws) with
  | .ok a => some a
  | .error _ => none

/-- `#(set_tls_cnode_cap) "" (Utils.int_to_bytes cnode 8)`, rpc-connector.c:237-248, and
`ffiset_tls_cnode_cap`, libcamkescakeml/src/ipc.c:32-37. -/
def setCnode (s : Server) (t : Thread) : Option Thread :=
  (wordAt s.ws (intToBytes s.cnode 8) 0).map fun c => { t with cnode := c }

/-- `Utils.camkes_declare_reply_cap`, component.environment.start.cakeml:107-114, and
`fficamkes_declare_reply_cap`, ipc.c:13-18. -/
def declare (s : Server) (r : Run) : Option Run :=
  (putCap s.ws s.slot (List.replicate (1 + s.ws) 0)).bind fun a =>
  (wordAt s.ws a 1).bind fun slot =>
  (ReplyCap.declare ⟨s.asserts, decide (r.1.cnode ≠ 0)⟩ slot r.1.st r.2).map fun q => ({ r.1 with st := q.1 }, q.2)

/-- `fficlear_tls_reply_cap_in_tcb`, ipc.c:20-30: the array of two bytes afterwards. The result of
`camkes_unprotect_reply_cap` is not looked at. -/
def ffiClear (s : Server) (r : Run) : Option (Run × Buf) :=
  if r.1.st.inTcb = true then some (({ r.1 with st := { r.1.st with inTcb := false } }, r.2), [0, 1])
  else (ReplyCap.unprotect ⟨s.asserts, decide (r.1.cnode ≠ 0)⟩ r.1.st r.2).map fun q => (({ r.1 with st := q.1 }, q.2), [0, 0])

/-- `Utils.clear_tls_reply_cap_in_tcb`, component.environment.start.cakeml:116-121. -/
def clear (s : Server) (r : Run) : Option (Run × Bool) :=
  (ffiClear s r).bind fun q => (q.2[1]?).map fun v => (q.1, decide (v ≠ 0))

/-- `Utils.seL4_Recv`, component.environment.start.cakeml:78-86, and `ffiseL4_Recv`, ipc.c:39-52, when a call of
`client` arrives and leaves `msg` in the array. -/
def recv (s : Server) (client : Nat) (msg : Buf) (r : Run) : Option Run :=
  (putCap s.ws s.ep r.1.buf).bind fun a =>
  (wordAt s.ws a 1).bind fun ep =>
  if ep = s.epSlot then
    let q := ReplyCap.recv client r.1.st r.2
    some ({ r.1 with st := q.1, buf := msg }, q.2)
  else none

/-- `Utils.seL4_ReplyRecv`, component.environment.start.cakeml:67-76, and `ffiseL4_ReplyRecv`, ipc.c:54-76. -/
def replyRecv (s : Server) (client : Nat) (msg : Buf) (r : Run) : Option Run :=
  (putCap s.ws s.ep r.1.buf).bind fun a =>
  (wordAt s.ws a 1).bind fun ep =>
  let p := ReplyCap.replyTcb r.1.st r.2
  if ep = s.epSlot then
    let q := ReplyCap.recv client p.1 p.2
    some ({ r.1 with st := q.1, buf := msg }, q.2)
  else none

/-- `Utils.seL4_Send`, component.environment.start.cakeml:88-95, and `ffiseL4_Send`, ipc.c:78-91: nothing happens
if the slot is empty. -/
def send (s : Server) (cap : Nat) (r : Run) : Option Run :=
  (putCap s.ws cap r.1.buf).bind fun a =>
  (wordAt s.ws a 1).map fun c =>
  if c = r.1.savedIn then
    let q := ReplyCap.sendShadow r.1.st r.2
    ({ r.1 with st := q.1, buf := a }, q.2)
  else ({ r.1 with buf := a }, r.2)

/-- `_save_reply_cap`, rpc-connector.c:135-147, the branch for CakeML. -/
def saveReplyCap (s : Server) (r : Run) : Option Run := if s.mightBlock = true then declare s r else some r

/-- `recv_first_rpc`, rpc-connector.c:237-271, the branch for CakeML. -/
def first (s : Server) (client : Nat) (msg : Buf) (r : Run) : Option Run :=
  (if s.mightBlock = true then setCnode s r.1 else some r.1).bind fun t =>
  (recv s client msg (t, r.2)).bind (saveReplyCap s)

/-- `reply_recv`, rpc-connector.c:340-358, the branch for CakeML. -/
def replyNext (s : Server) (client : Nat) (msg : Buf) (r : Run) : Option Run :=
  let r : Run := (r.1, .answer :: r.2)
  (if s.mightBlock = true then
    (clear s r).bind fun q =>
      if q.2 = true then replyRecv s client msg q.1
      else (send s s.slot q.1).bind (recv s client msg)
  else replyRecv s client msg r).bind (saveReplyCap s)

/-- `camkes_protect_reply_cap`, tls.c:36-65. The kernel finds nothing in `cnode_cap` unless it is the slot of
the CNode; `fail` is an error for some other reason. -/
def protect (s : Server) (fail : Nat) (r : Run) : Option Run :=
  (ReplyCap.protect ⟨s.asserts, decide (r.1.cnode ≠ 0)⟩
    (if r.1.cnode = s.cnodeSlot then fail else ReplyCap.invalidCapability) r.1.st r.2).map fun q =>
  ({ r.1 with st := q.1, savedIn := if q.1.shadow = r.1.st.shadow then r.1.savedIn else r.1.st.slot }, q.2)

/-- What the implementation of a method does, and what the loop of the server does after it. -/
inductive Act
  /-- a call of a function in C that protects the reply capability and waits (`seL4_RPCCall` of a component
  that might block, the `_wait` of an event or of a semaphore) -/
  | protectedWait (fail : Nat)
  /-- `Utils.seL4_Wait`, component.environment.start.cakeml:97-105, and `ffiseL4_Wait`, ipc.c:94-101 -/
  | cakeWait
  /-- the answer is sent; the next request comes from `client` -/
  | reply (client : Nat) (msg : Buf)

def step (s : Server) (a : Act) (r : Run) : Option Run :=
  match a with
  | .protectedWait fail => (protect s fail r).map fun q => let w := ReplyCap.wait q.1.st q.2; ({ q.1 with st := w.1 }, w.2)
  | .cakeWait => let w := ReplyCap.wait r.1.st r.2; some ({ r.1 with st := w.1 }, w.2)
  | .reply client msg => replyNext s client msg r

def steps (s : Server) : List Act → Run → Option Run
  | [], r => some r
  | a :: as, r => (step s a r).bind (steps s as)

/-- The thread when it starts, with the array that the connector makes. -/
def fresh (buf : Buf) : Thread := ⟨ReplyCap.fresh, 0, 0, buf⟩

/-- The server: the first request, and then the requests and answers of the loop. What happened, the last
event first. -/
def server (s : Server) (buf : Buf) (client : Nat) (msg : Buf) (as : List Act) : Option Run :=
  (first s client msg (fresh buf, [])).bind (steps s as)

end Verif.CakeReply
