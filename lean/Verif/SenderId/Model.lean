import Verif.Badges.Model

/-!
# The identity of the caller

Model of `<interface>_get_sender_id` (camkes/templates/rpc-connector.c:110-118), with which the implementation of a method learns who calls,
and of what the threads of the interfaces of a component do with the variable behind it (240-345). Interfaces are numbers; every one has its own
thread and its own variable.
-/

namespace Verif.SenderId

/-- How the component is configured: with the kernel for real-time systems or not; which interfaces might block, and which are passive; and for
every interface the badges that are configured for the clients of its connection, rpc-connector.c:35-48. -/
structure Config where
  realtime : Bool
  mightBlock : Nat → Bool
  passive : Nat → Bool
  explicit : Nat → List (Option Nat)

/-- The badge in the capability of a client, rpc-connector.c:171-181; 0 (no badge) if there is no such client. -/
def Config.badge (g : Config) (i c : Nat) : Nat := (((Badges.allocateBadges (g.explicit i))[c]?).join).getD 0

/-- The system calls of the thread of an interface. All that receive are given the address of the variable of the interface. -/
inductive Call
  | recv
  | signalRecv
  | replyRecv
  | send
  deriving DecidableEq, Repr

/-- `recv_first_rpc`, rpc-connector.c:238-273. -/
def recvFirst (g : Config) (i : Nat) : List Call := if g.passive i then [.signalRecv] else [.recv]

/-- `reply_recv`, rpc-connector.c:300-345, by whether the reply capability is still in the TCB. -/
def replyRecv (g : Config) (i : Nat) (inTcb : Bool) : List Call :=
  if !g.realtime && g.mightBlock i then (if inTcb then [.replyRecv] else [.send, .recv]) else [.replyRecv]

/-- The variables `<interface>_badge`, the system calls that the threads have before them, and which threads are in the implementation of a method. -/
structure State where
  var : Nat → Nat
  todo : Nat → List Call
  inMethod : Nat → Bool

/-- All variables are 0, and every thread is about to receive for the first time. -/
def init (g : Config) : State := ⟨fun _ => 0, fun i => recvFirst g i, fun _ => false⟩

/-- What can happen, with the interface: the implementation of a method returns; a reply is sent on its own; a call of the client with the given
number is received. -/
inductive Event
  | done (i : Nat) (inTcb : Bool)
  | sent (i : Nat)
  | called (i c : Nat)
  deriving DecidableEq, Repr

/-- One event; `none` if it cannot happen. -/
def step (g : Config) (s : State) : Event → Option State
  | .done i inTcb =>
    if s.inMethod i then
      some { s with
        todo := fun j => if j = i then replyRecv g i inTcb else s.todo j
        inMethod := fun j => if j = i then false else s.inMethod j }
    else none
  | .sent i =>
    match s.todo i with
    | .send :: rest => some { s with todo := fun j => if j = i then rest else s.todo j }
    | _ => none
  | .called i c =>
    if c < (g.explicit i).length then
      match s.todo i with
      | [] => none
      | .send :: _ => none
      | _ :: rest =>
        some ⟨fun j => if j = i then g.badge i c else s.var j, fun j => if j = i then rest else s.todo j,
          fun j => if j = i then true else s.inMethod j⟩
    else none

/-- A history. -/
def run (g : Config) : State → List Event → Option State
  | s, [] => some s
  | s, e :: es => match step g s e with | none => none | some s => run g s es

/-- `<interface>_get_sender_id()`, rpc-connector.c:115-117. -/
def senderId (s : State) (i : Nat) : Nat := s.var i

end Verif.SenderId
