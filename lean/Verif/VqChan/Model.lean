import Mathlib.Tactic.ByContra

/-!
# Model: registration and lookup of virtqueue channels
(libsel4camkes/src/virtqueue_template.c, libsel4camkes/src/virtqueue.c)

Pointers are numbers, with zero for `NULL`. `max` is `MAX_CAMKES_VIRTQUEUE_ID` (100, virtqueue.h:15) and `width` is
the number of characters that are compared (200, virtqueue.c:86). Names are C strings without the terminator.
-/

namespace Verif.VqChan

/-- `virtqueue_role_t`, libsel4camkes/include/camkes/virtqueue.h:29-33. -/
inductive Role
  | unassigned
  | driver
  | device
  deriving DecidableEq

/-- `camkes_virtqueue_channel_t`, libsel4camkes/include/camkes/virtqueue.h:35-50; a name that is `none` is `NULL`. -/
structure Channel where
  name : Option (List Char)
  queueLen : Nat
  size : Nat
  buffer : Nat
  notify : Nat
  recvNotification : Nat
  recvBadge : Nat
  role : Role
  deriving DecidableEq

/-- An element of a static array before it is assigned. -/
def zero : Channel := ⟨none, 0, 0, 0, 0, 0, 0, .unassigned⟩

/-- The array `camkes_virtqueue_channels` of `max + 1` elements, virtqueue_template.c:10, by index. -/
abbrev Table := Nat → Channel

/-- The results of registering. -/
inductive Reg
  | ok
  /-- the return value -1 -/
  | refused
  /-- memory outside of the array is written -/
  | overrun
  deriving DecidableEq

/-- `camkes_virtqueue_channel_register`, virtqueue_template.c:13-38; the id is an `int`. -/
def register (max : Nat) (t : Table) (id : Int) (c : Channel) : Table × Reg :=
  if id > max then (t, .refused)
  else if c.buffer = 0 ∨ c.notify = 0 then (t, .refused)
  else if id < 0 then (t, .overrun)
  else (fun i => if i = id.toNat then c else t i, .ok)

/-- `get_virtqueue_channel`, virtqueue.c:58-80; the id is an `unsigned`. -/
def getChannel (max : Nat) (t : Table) (role : Role) (id : Nat) : Option Channel :=
  if id > max then none
  else if (t id).role = .unassigned then none
  else if (t id).buffer = 0 then none
  else if (t id).role ≠ role then none
  else some (t id)

/-- `strncmp(a, b, n) == 0`. -/
def strncmpEq : Nat → List Char → List Char → Bool
  | 0, _, _ => true
  | _ + 1, [], [] => true
  | _ + 1, [], _ :: _ => false
  | _ + 1, _ :: _, [] => false
  | n + 1, a :: as, b :: bs => if a = b then strncmpEq n as bs else false

/-- The results of looking up a name. -/
inductive Found
  | id (i : Nat)
  /-- the return value -1 -/
  | missing
  /-- the null pointer is passed to `strncmp` -/
  | fault
  deriving DecidableEq

/-- The loop of `camkes_virtqueue_get_id_from_name`, virtqueue.c:83-91, with `todo` rounds left. -/
def search (width : Nat) (t : Table) (name : List Char) : Nat → Nat → Found
  | 0, _ => .missing
  | todo + 1, i =>
    match (t i).name with
    | none => .fault
    | some n => if strncmpEq width name n then .id i else search width t name todo (i + 1)

/-- `camkes_virtqueue_get_id_from_name`, virtqueue.c:83-91. -/
def getId (max width : Nat) (t : Table) (name : List Char) : Found := search width t name max 0

/-- A registration, and its result. -/
structure Event where
  id : Int
  channel : Channel
  result : Reg
  deriving DecidableEq

/-- Some registrations, with what happened, the last one first. -/
def run (max : Nat) : Table → List Event → List (Int × Channel) → Table × List Event
  | t, es, [] => (t, es)
  | t, es, (id, c) :: cs => run max (register max t id c).1 (⟨id, c, (register max t id c).2⟩ :: es) cs

end Verif.VqChan
