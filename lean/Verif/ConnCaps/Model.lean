import Verif.Context.Model
import Verif.Badges.Model

/-!
# Model: the capabilities that the connector templates give to the ends of a connection

camkes/templates/rpc-connector.c, seL4RPCCall-{from,to}, seL4Notification-{from,to},
seL4NotificationQueue-{from,to}, seL4NotificationBind-{from,to} and seL4NotificationNative-{from,to}.
Requests go to the allocators of the template context, which are those of `Verif.Context`. What is
left out: the capability to its own CNode that a server which might block has
(rpc-connector.c:219), memory (register_shared_variable of the queue connector), labels of objects,
and the text of the generated code, except for the numbers of the slots in it.
-/

namespace Verif.ConnCaps
open Verif.Context

/-- The connectors. seL4RPCCallNoType (std_connector.camkes:91-96) uses the templates of seL4RPCCall. -/
inductive Kind
  | rpc
  | notification
  | queue
  | bind
  | native
  deriving DecidableEq

/-- The two sides of a connection. -/
inductive Side
  | src
  | dst
  deriving DecidableEq

/-- An end of a connection (camkes/ast/objects.py:978-999): its instance, its interface, the address
space of the instance (camkes/runner/__main__.py:287), whether it might block, the badge that its
`<interface>_attributes` setting gives it, and whether the template decides to lock a buffer in user
space (seL4RPCCall-from.template.c:38-45). -/
structure End where
  inst : Text
  iface : Text
  space : Nat
  mightBlock : Bool
  badge : Option Nat
  lock : Bool
  deriving DecidableEq

/-- A connection, camkes/ast/objects.py:380-534. -/
structure Conn where
  name : Text
  kind : Kind
  srcs : List End
  dsts : List End
  deriving DecidableEq

/-- An allocation of a template: the label of the entity, the name of the object (none for a free
slot), the name of the capability, its rights and the badge that is set afterwards. -/
structure Op where
  label : Text
  obj : Option Text
  cap : Text
  want : Rights
  badge : Option Nat
  deriving DecidableEq

/-- `write=True, grantreply=True`. -/
def callRights : Rights := ⟨false, true, false, true⟩
/-- `read=True`. -/
def readRights : Rights := ⟨true, false, false, false⟩
/-- `write=True`. -/
def writeRights : Rights := ⟨false, true, false, false⟩
/-- `read=True, write=True`. -/
def bothRights : Rights := ⟨true, true, false, false⟩
/-- No rights are given. -/
def noneRights : Rights := ⟨false, false, false, false⟩

/-- `alloc(name, type, ...)`: object and capability have the same name, camkes/runner/Context.py:83-88. -/
def alloc (label name : Text) (want : Rights) (badge : Option Nat := none) : Op :=
  ⟨label, some name, name, want, badge⟩

/-- `'<name>_%d' % i`. -/
def numbered (name : Text) (i : Nat) : Text := name ++ ['_'] ++ dec i

def tEp : Text := ['e', 'p']
def tBuffer : Text := ['u', 's', 'e', 'r', 's', 'p', 'a', 'c', 'e', '_', 'b', 'u', 'f', 'f', 'e', 'r', '_', 'e', 'p']
def tReply : Text := ['r', 'e', 'p', 'l', 'y', '_', 'c', 'a', 'p', '_', 's', 'l', 'o', 't']
def tNotification : Text := ['n', 'o', 't', 'i', 'f', 'i', 'c', 'a', 't', 'i', 'o', 'n']
def tHandoff : Text := ['h', 'a', 'n', 'd', 'o', 'f', 'f']
def tLock : Text := ['l', 'o', 'c', 'k']

/-- The badges of the clients, `allocate_badges`, rpc-connector.c:30-62. -/
def clientBadges (c : Conn) : List (Option Nat) := Badges.allocateBadges (c.srcs.map (·.badge))

/-- `badge_magic`, seL4NotificationNative-from.template.c:12 and -to.template.c:15. -/
def magic : Nat := 0xbad1dea

/-- The allocations for a `from` end.
RPC: rpc-connector.c:80 (lock of a buffer) and 171-187, with the badge at the index of the end;
notification: seL4Notification-from.template.c:11-14; queue: seL4NotificationQueue-from.template.c:22-24;
bind: seL4NotificationBind-from.template.c:11-16; native: seL4NotificationNative-from.template.c:16-17. -/
def srcOps (c : Conn) (e : End) : List Op :=
  match c.kind with
  | .rpc =>
    (if e.lock then [alloc c.name tBuffer bothRights] else []) ++
    [⟨c.name, some tEp, tEp ++ ['_'] ++ e.iface, callRights, ((clientBadges c)[c.srcs.idxOf e]?).join⟩]
  | .notification => (List.range c.dsts.length).map (fun i => alloc c.name (numbered tNotification i) writeRights)
  | .queue => (List.range c.dsts.length).map (fun i => alloc c.name (numbered tEp i) bothRights)
  | .bind => [alloc c.name tNotification writeRights e.badge]
  | .native => [alloc c.name tNotification writeRights (some magic)]

/-- The allocations for a `to` end.
RPC: rpc-connector.c:192-222; notification: seL4Notification-to.template.c:42-49; queue:
seL4NotificationQueue-to.template.c:25-37; bind: seL4NotificationBind-to.template.c:12; native:
seL4NotificationNative-to.template.c:19-20. -/
def dstOps (realtime : Bool) (c : Conn) (e : End) : List Op :=
  let id := c.dsts.idxOf e
  match c.kind with
  | .rpc =>
    [⟨c.name, some tEp, tEp ++ ['_'] ++ e.iface, readRights, none⟩] ++
    (if realtime then [alloc c.name tReply noneRights]
     else if e.mightBlock then [⟨c.name, none, tReply, noneRights, none⟩] else [])
  | .notification =>
    [alloc c.name (numbered tNotification id) readRights, alloc c.name (numbered tHandoff id) bothRights,
     alloc c.name (numbered tLock id) bothRights]
  | .queue =>
    [alloc c.name (numbered tEp id) readRights, alloc c.name (numbered tHandoff id) bothRights,
     alloc c.name (numbered tLock id) bothRights]
  | .bind => [alloc c.name tNotification bothRights]
  | .native => [alloc c.name tNotification readRights (some magic)]

/-- An item of the command line, `connector/<name>/<side>/<index>`, camkes/runner/__main__.py:279-287:
the end at the index of the side. -/
structure Item where
  conn : Conn
  side : Side
  me : End
  deriving DecidableEq

/-- The allocations of an item. -/
def ops (realtime : Bool) (it : Item) : List Op :=
  match it.side with
  | .src => srcOps it.conn it.me
  | .dst => dstOps realtime it.conn it.me

/-- The state: that of the allocators, and the badges of the capabilities in the slots of each space. -/
structure St where
  core : Context.St
  badge : Nat → Nat → Option Nat

/-- The state at the start. -/
def start : St := ⟨Context.start, fun _ _ => none⟩

/-- The object of an allocation: `alloc_obj`, or none for a free slot. -/
def makeObj (s : Context.St) (op : Op) : Context.St × Option Nat :=
  match op.obj with
  | none => (s, none)
  | some n => ((allocObj s op.label n).1, some (allocObj s op.label n).2)

/-- One allocation in a capability space: `alloc_obj`, `alloc_cap` and
`cap_space.cnode[cap].set_badge(...)`. -/
def doOp (s : St) (space : Nat) (op : Op) : Except String (St × Nat) :=
  match allocCap (makeObj s.core op).1 space op.label op.cap (makeObj s.core op).2 op.want with
  | .error e => .error e
  | .ok (core, slot) =>
    .ok (⟨core, match op.badge with
      | none => s.badge
      | some b => fun sp i => if sp = space ∧ i = slot then some b else s.badge sp i⟩, slot)

/-- The allocations of a template, with the slots that are answered. -/
def doOps (space : Nat) : St → List Op → Except String (St × List Nat)
  | s, [] => .ok (s, [])
  | s, op :: rest =>
    match doOp s space op with
    | .error e => .error e
    | .ok (s, slot) =>
      match doOps space s rest with
      | .error e => .error e
      | .ok (s, slots) => .ok (s, slot :: slots)

/-- The items of the command line are rendered one after the other, camkes/runner/__main__.py:274-299:
the slots that the code of each item uses. -/
def render (realtime : Bool) : St → List Item → Except String (St × List (List Nat))
  | s, [] => .ok (s, [])
  | s, it :: rest =>
    match doOps it.me.space s (ops realtime it) with
    | .error e => .error e
    | .ok (s, slots) =>
      match render realtime s rest with
      | .error e => .error e
      | .ok (s, all) => .ok (s, slots :: all)

end Verif.ConnCaps
