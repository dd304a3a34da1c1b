/-!
# Model: the system calls of an RPC server on both kinds of kernels

The functions of runner/Context.py that make the text of a system call, the compiler's view of the result, and the
server that is made of them: on real-time (MCS) kernels, and on others if the component cannot block. (The servers
of other kernels whose component might block are those of C54.)

The kernel by its contract. On a real-time kernel a call is bound to the reply object that the server receives
with; receiving with an object that still has an unanswered caller cancels that caller, and waiting for something
else leaves it alone. On other kernels the caller is in the thread's TCB, and any receiving or waiting deletes it.
-/

namespace Verif.RtReply

/-- A statement of the generated program: a call of a function, and the variable that the result is stored in. -/
structure Call where
  result : Option String
  fn : String
  args : List String
  deriving DecidableEq

/-- `generate_seL4_Recv`, runner/Context.py:278-282. -/
def genRecv (realtime : Bool) (ep badge reply : String) : Call :=
  if realtime then ⟨none, "seL4_Recv", [ep, badge, reply]⟩
  else ⟨none, "seL4_Recv", [ep, badge]⟩

/-- `generate_seL4_SignalRecv`, Context.py:285-289. -/
def genSignalRecv (realtime : Bool) (res ntfn info ep badge reply : String) : List Call :=
  if realtime then [⟨some res, "seL4_NBSendRecv", [ntfn, info, ep, badge, reply]⟩]
  else [⟨none, "seL4_Signal", [ntfn]⟩, ⟨some res, "seL4_Recv", [ep, badge]⟩]

/-- `generate_seL4_ReplyRecv`, Context.py:292-296. -/
def genReplyRecv (realtime : Bool) (ep info badge reply : String) : Call :=
  if realtime then ⟨none, "seL4_ReplyRecv", [ep, info, badge, reply]⟩
  else ⟨none, "seL4_ReplyRecv", [ep, info, badge]⟩

/-- The names in the program: `info`, `namespace.ep`, the address of `namespace.badge_symbol`,
`namespace.reply_cap_slot` and `init_ntfn`. -/
structure Names where
  info : String
  ep : String
  badge : String
  reply : String
  ntfn : String

/-- `recv_first_rpc`, rpc-connector.c:245-264, for C. -/
def firstCode (realtime passive : Bool) (n : Names) : List Call :=
  if passive then genSignalRecv realtime n.info n.ntfn n.info n.ep n.badge n.reply
  else [{ genRecv realtime n.ep n.badge n.reply with result := some n.info }]

/-- `begin_recv`, rpc-connector.c:290-298. -/
def beginCode (realtime : Bool) (n : Names) : List Call :=
  [{ genRecv realtime n.ep n.badge n.reply with result := some n.info }]

/-- `reply_recv`, rpc-connector.c:326-337, for C: on a real-time kernel, or if the component cannot block. -/
def replyCode (realtime : Bool) (n : Names) : List Call :=
  [{ genReplyRecv realtime n.ep n.info n.badge n.reply with result := some n.info }]

/-! ## Compiling -/

/-- The system calls. -/
inductive Sys
  | recv | replyRecv | signal | signalRecv
  deriving DecidableEq

/-- The number of arguments of a function in the kernel's library; `none` if it has no such function. -/
def arity (mcs : Bool) (fn : String) : Option Nat :=
  if fn = "seL4_Recv" then some (if mcs then 3 else 2)
  else if fn = "seL4_ReplyRecv" then some (if mcs then 4 else 3)
  else if fn = "seL4_Signal" then some 1
  else if fn = "seL4_NBSendRecv" then (if mcs then some 5 else none)
  else none

/-- Whether the compiler accepts a statement. -/
def accepts (mcs : Bool) (c : Call) : Bool := arity mcs c.fn = some c.args.length

/-- What an accepted statement does, by the positions of the parameters in the kernel's library; `none` if it uses the
wrong capabilities or stores its results elsewhere. -/
def meaning (mcs : Bool) (n : Names) (c : Call) : Option Sys :=
  if ¬ accepts mcs c then none
  else if c.fn = "seL4_Signal" then (if c.args = [n.ntfn] then some .signal else none)
  else if c.result ≠ some n.info then none
  else if c.fn = "seL4_Recv" then
    if c.args = (if mcs then [n.ep, n.badge, n.reply] else [n.ep, n.badge]) then some .recv else none
  else if c.fn = "seL4_ReplyRecv" then
    if c.args = (if mcs then [n.ep, n.info, n.badge, n.reply] else [n.ep, n.info, n.badge]) then some .replyRecv else none
  else if c.args = [n.ntfn, n.info, n.ep, n.badge, n.reply] then some .signalRecv else none

/-! ## Running -/

inductive Event
  /-- a request of a client is received -/
  | got (client : Nat)
  /-- the server has the answer to the current request -/
  | answer
  /-- the server gives up the current request -/
  | drop
  /-- the call of a client returns -/
  | returned (client : Nat)
  /-- a method waits for something else -/
  | waited
  /-- the control thread is told that the server is ready; whether the server is waiting then -/
  | ready (waiting : Bool)
  deriving DecidableEq

/-- The caller in the reply object or in the TCB. What happened, the last event first. -/
structure Run where
  caller : Option Nat
  log : List Event
  deriving DecidableEq

/-- The kernel answers the caller. -/
def doReply (r : Run) : Run :=
  match r.caller with
  | some c => ⟨none, .returned c :: r.log⟩
  | none => r

/-- The kernel delivers the next request, that of `client`; an unanswered caller is gone. -/
def doRecv (client : Nat) (r : Run) : Run := ⟨some client, .got client :: r.log⟩

/-- A system call, when the next request is that of `client`. -/
def sys (client : Nat) : Sys → Run → Run
  | .recv, r => doRecv client r
  | .replyRecv, r => doRecv client (doReply r)
  | .signal, r => { r with log := .ready false :: r.log }
  | .signalRecv, r => doRecv client { r with log := .ready true :: r.log }

/-- A piece of the program; `none` if it does not compile or uses the wrong capabilities. -/
def exec (mcs : Bool) (n : Names) (client : Nat) : List Call → Run → Option Run
  | [], r => some r
  | c :: cs, r =>
    match meaning mcs n c with
    | none => none
    | some s => exec mcs n client cs (sys client s r)

/-- What a server does while it handles a request and at the end of it. -/
inductive Act
  /-- the method waits for an event, a semaphore, a lock or an answer of its own; `camkes_protect_reply_cap` is not
  there on a real-time kernel (tls.c:17) -/
  | wait
  /-- the answer is sent, and the next request comes from `next` -/
  | reply (next : Nat)
  /-- an error while unmarshalling or marshalling: `goto begin_recv`, rpc-connector-common-to.c:110-148, 204-207,
  257-260; the next request comes from `next` -/
  | discard (next : Nat)

def step (mcs realtime : Bool) (n : Names) (a : Act) (r : Run) : Option Run :=
  match a with
  | .wait => some ⟨if mcs then r.caller else none, .waited :: r.log⟩
  | .reply next => exec mcs n next (replyCode realtime n) { r with log := .answer :: r.log }
  | .discard next => exec mcs n next (beginCode realtime n) { r with log := .drop :: r.log }

def steps (mcs realtime : Bool) (n : Names) : List Act → Run → Option Run
  | [], r => some r
  | a :: as, r => (step mcs realtime n a r).bind (steps mcs realtime n as)

/-- The server on a kernel: `recv_first_rpc` and the loop of rpc-connector-common-to.c:84-262. `mcs` is the kernel
that it is compiled for, `realtime` the option of the generator (`--realtime`). -/
def server (mcs realtime passive : Bool) (n : Names) (first : Nat) (as : List Act) : Option Run :=
  (exec mcs n first (firstCode realtime passive n) ⟨none, []⟩).bind (steps mcs realtime n as)

end Verif.RtReply
