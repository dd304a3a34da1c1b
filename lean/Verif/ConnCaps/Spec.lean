import Verif.ConnCaps.Model

/-!
# Specification: what the ends of a connection may do (C126)
-/

namespace Verif.ConnCaps
open Verif.Context

/-- A component (its capability space) holds a capability to an object. -/
def Holds (s : St) (space slot obj : Nat) (rights : Rights) : Prop :=
  (s.core.cnodes space)[slot]? = some (some ⟨obj, rights⟩)

/-- The ends of a side. -/
def Conn.ends (c : Conn) : Side → List End
  | .src => c.srcs
  | .dst => c.dsts

/-- The connectors that have one `to` end, std_connector.camkes:50-61, 84-96. -/
def oneReceiver : Kind → Bool
  | .rpc | .bind | .native => true
  | .notification | .queue => false

/-- What holds of the items of the command line: the end is one of the connection; there is one
receiver where the connector says so; only a connection with one client has a buffer in user space
(seL4RPCCall-from.template.c:24-26); and connections are told apart by their names. -/
structure Proper (items : List Item) : Prop where
  member : ∀ it ∈ items, it.me ∈ it.conn.ends it.side
  receiver : ∀ it ∈ items, oneReceiver it.conn.kind = true → it.conn.dsts.length = 1
  buffer : ∀ it ∈ items, it.side = .src → it.me.lock = true → it.conn.srcs.length = 1
  names : ∀ a ∈ items, ∀ b ∈ items, a.conn.name = b.conn.name → a.conn = b.conn

/-- The slot that the code of an item uses: the `j`-th of those written into it. -/
def Uses (items : List Item) (slots : List (List Nat)) (it : Item) (j slot : Nat) : Prop :=
  ∃ (k : Nat) (l : List Nat), items[k]? = some it ∧ slots[k]? = some l ∧ l[j]? = some slot

/-- Which of its slots a sender uses to reach the receiver `to`: for an RPC connection the last one,
after that of the lock of its buffer; for events the one with the number of the receiver. -/
def sendIndex (c : Conn) (e to_ : End) : Nat :=
  match c.kind with
  | .rpc => if e.lock then 1 else 0
  | .notification | .queue => c.dsts.idxOf to_
  | .bind | .native => 0

/-- No connection has the name of a connection that has a buffer in user space, followed by
`_userspace_buffer`. -/
def NoClash (items : List Item) : Prop :=
  ∀ a ∈ items, ∀ b ∈ items, b.conn.name ≠ a.conn.name ++ "_userspace_buffer".toList

/-- A slot that is not for the channel: those of a receiver after the first one, and the first one of
a client that locks its buffer. -/
def Own (it : Item) (j : Nat) : Prop :=
  (it.side = .dst ∧ 1 ≤ j) ∨ (it.side = .src ∧ it.conn.kind = .rpc ∧ it.me.lock = true ∧ j = 0)

/-- The end is the only client of the connection in its component that has its interface name. -/
def Alone (items : List Item) (c : Conn) (e : End) : Prop :=
  ∀ it ∈ items, it.conn = c → it.side = .src → it.me.space = e.space → it.me.iface = e.iface → it.me = e

end Verif.ConnCaps
