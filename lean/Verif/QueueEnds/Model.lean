import Verif.VqAlloc.Model
import Verif.VqChan.Model
import Verif.MsgQ.Model

/-!
# Model: setting up the two ends of a queue in shared memory (C129)

libsel4camkes/src/virtqueue_common.c:52-94, virtqueue.c:93-165 and msgqueue.c:23-216, on top of the allocator (`Verif.VqAlloc`), of
the registered virtqueues (`Verif.VqChan`) and of the registered message queues (`Verif.MsgQ`). Pointers are numbers, zero is `NULL`.
Sums of pointers do not wrap (the shared memory is in the address space); the size that is left for buffers does, as in C. Not modelled:
the contents of the rings (libvirtqueue), for which an outcome is given, and alignment.
-/

namespace Verif.QueueEnds

open Verif.VqAlloc

/-- The sizes of `vq_vring_avail_t`, `vq_vring_used_t`, `struct vq_vring_used_elem`, `vq_vring_desc_t` and `uint16_t`. -/
structure Sizes where
  avail : Nat
  used : Nat
  elem : Nat
  desc : Nat
  idx : Nat

/-- `virtqueue_driver_t`, as `virtqueue_init_driver` fills it in, virtqueue_common.c:74. -/
structure Driver where
  queueLen : Nat
  avail : Nat
  used : Nat
  desc : Nat
  notify : Nat
  alloc : Alloc

/-- `virtqueue_device_t`, as `virtqueue_init_device` fills it in, virtqueue_common.c:91. -/
structure Device where
  queueLen : Nat
  avail : Nat
  used : Nat
  desc : Nat
  notify : Nat
  cookie : Nat
  deriving DecidableEq

/-- What a function that sets something up ends in: it is set up, an error is returned, or the processor faults. -/
inductive Made (α : Type)
  | made (a : α)
  | error (e : Int)
  | fault

/-- errno.h -/
def EINVAL : Int := 22
def ENOMEM : Int := 12
def EMSGSIZE : Int := 90
def ECOMM : Int := 70
def ENOMSG : Int := 42

/-- `camkes_virtqueue_driver_init_common`, virtqueue_common.c:52-78, with `init_vq_allocator`, virtqueue_common.c:18-50. `heap`: both
allocations succeed. The division in line 35 faults if the blocks have no bytes; before it, the first allocation has to succeed, and
the case that only the second one fails is as if the first one had. -/
def driverInit (m : Machine) (sz : Sizes) (heap : Bool) (driver : Bool) (buffer queueLen size notify bs : Nat) : Made Driver :=
  if driver = false ∨ buffer = 0 then .error EINVAL
  else
    let avail := buffer
    let used := avail + sz.avail + sz.idx * queueLen
    let desc := used + sz.used + sz.elem * queueLen
    let start := desc + sz.desc * queueLen
    let rings := sz.avail + sz.used + sz.idx * queueLen + sz.elem * queueLen + sz.desc * queueLen
    let len := (size + m.W - rings % m.W) % m.W % m.U
    if heap = false then .error ENOMEM
    else if bs = 0 then .fault
    else .made ⟨queueLen, avail, used, desc, notify, init start len bs⟩

/-- `camkes_virtqueue_device_init_common`, virtqueue_common.c:80-94. -/
def deviceInit (sz : Sizes) (device : Bool) (buffer queueLen notify : Nat) : Made Device :=
  if device = false ∨ buffer = 0 then .error EINVAL
  else
    let avail := buffer
    let used := avail + sz.avail + sz.idx * queueLen
    let desc := used + sz.used + sz.elem * queueLen
    let cookie := desc + sz.desc * queueLen
    .made ⟨queueLen, avail, used, desc, notify, cookie⟩

/-! ### Offsets -/

/-- The offset of a buffer that is sent, `camkes_virtqueue_driver_send_buffer`, virtqueue.c:153-156. -/
def Driver.offset (m : Machine) (d : Driver) (p : Nat) : Nat := (p + m.W - d.alloc.base) % m.W

/-- `camkes_virtqueue_driver_offset_to_buffer`, virtqueue.c:146-151. -/
def Driver.pointer (d : Driver) (o : Nat) : Nat := d.alloc.base + o

/-- `camkes_virtqueue_device_offset_to_buffer`, virtqueue.c:141-144. -/
def Device.pointer (v : Device) (o : Nat) : Nat := v.cookie + o

/-! ### Virtqueues by their number -/

/-- What a call did: the result, the end that is set up (`none` if the caller's object is not written), and what is written through the
pointers for the notification and the badge. -/
structure Init (α : Type) where
  ret : Int
  queue : Option α
  notification : Option Nat
  badge : Option Nat

/-- The conversion of an error code to -1, virtqueue.c:113-115 and 137-138; `none` if the processor faults. -/
def finish {α : Type} (n b : Option Nat) : Made α → Option (Init α)
  | .made a => some ⟨0, some a, n, b⟩
  | .error e => some ⟨if e ≠ 0 then -1 else 0, none, n, b⟩
  | .fault => none

/-- `camkes_virtqueue_driver_init_with_recv`, virtqueue.c:93-116. `wantsN`, `wantsB`: the pointers for the notification and the badge are
not `NULL`; `bs` is `BLOCK_SIZE`. -/
def driverById (m : Machine) (sz : Sizes) (bs max : Nat) (t : VqChan.Table) (heap driver wantsN wantsB : Bool) (id : Nat) :
    Option (Init Driver) :=
  if driver = false then some ⟨-1, none, none, none⟩
  else
    match VqChan.getChannel max t .driver id with
    | none => some ⟨-1, none, none, none⟩
    | some c =>
      finish (if wantsN then some c.recvNotification else none) (if wantsB then some c.recvBadge else none)
        (driverInit m sz heap driver c.buffer c.queueLen c.size c.notify bs)

/-- `camkes_virtqueue_device_init_with_recv`, virtqueue.c:118-139. -/
def deviceById (sz : Sizes) (max : Nat) (t : VqChan.Table) (device wantsN wantsB : Bool) (id : Nat) : Option (Init Device) :=
  if device = false then some ⟨-1, none, none, none⟩
  else
    match VqChan.getChannel max t .device id with
    | none => some ⟨-1, none, none, none⟩
    | some c =>
      finish (if wantsN then some c.recvNotification else none) (if wantsB then some c.recvBadge else none)
        (deviceInit sz device c.buffer c.queueLen c.notify)

/-! ### Message queues -/

/-- `camkes_msgqueue_sender_t`, libsel4camkes/include/camkes/msgqueue.h; the channel is `none` until it is filled in. -/
structure Sender where
  initialised : Bool
  channel : Option Driver
  messageSize : Nat

/-- `camkes_msgqueue_receiver_t`, libsel4camkes/include/camkes/msgqueue.h. -/
structure Receiver where
  initialised : Bool
  channel : Option Device
  messageSize : Nat
  poll : Nat
  wait : Nat

/-- Objects that the application has set to zero. -/
def Sender.zero : Sender := ⟨false, none, 0⟩
def Receiver.zero : Receiver := ⟨false, none, 0, 0, 0⟩

/-- What a call ends in, with the registered functions that it called, in their order. -/
inductive Out
  | returned (r : Int) (called : List Nat)
  /-- memory outside of the table is used, there is a division by zero, or `NULL` is called -/
  | fault
  /-- an assertion fails -/
  | aborted
  deriving DecidableEq

/-- `camkes_msgqueue_sender_init`, msgqueue.c:23-57. -/
def senderInit (m : Machine) (sz : Sizes) (heap : Bool) (t : MsgQ.Table) (id : Int) (s : Sender) : Sender × Out :=
  if s.initialised then (s, .returned 0 [])
  else
    match MsgQ.lookup t id .sender with
    | (_, .fault) => (s, .fault)
    | (none, _) => (s, .returned EINVAL [])
    | (some c, _) =>
      match driverInit m sz heap true c.buffer c.queueLen c.bufferSize (c.funcs.getD 0 0) (MsgQ.blockSize c.messageSize) with
      | .fault => (s, .fault)
      | .error e => (s, .returned e [])
      | .made d => ({ s with channel := some d, messageSize := c.messageSize, initialised := true }, .returned 0 [])

/-- `camkes_msgqueue_receiver_init`, msgqueue.c:59-88. -/
def receiverInit (sz : Sizes) (t : MsgQ.Table) (id : Int) (s : Receiver) : Receiver × Out :=
  if s.initialised then (s, .returned 0 [])
  else
    match MsgQ.lookup t id .receiver with
    | (_, .fault) => (s, .fault)
    | (none, _) => (s, .returned EINVAL [])
    | (some c, _) =>
      match deviceInit sz true c.buffer c.queueLen 0 with
      | .fault => (s, .fault)
      | .error e => (s, .returned e [])
      | .made v =>
        ({ s with channel := some v, messageSize := c.messageSize, poll := c.funcs.getD 0 0, wait := c.funcs.getD 1 0,
                  initialised := true }, .returned 0 [])

/-- What the queue does with a message: there is no buffer, no room in the ring, or it is put there. -/
inductive Put
  | noBuffer
  | noRoom
  | put
  deriving DecidableEq

/-- `camkes_msgqueue_send`, msgqueue.c:116-151; what happens to the buffers is in `Verif.MsgQ`. `message`: the pointer is not `NULL`. -/
def send (s : Sender) (message : Bool) (size : Nat) (q : Put) : Out :=
  if message = false then .returned EINVAL []
  else if s.initialised = false then .returned EINVAL []
  else if size > s.messageSize then .returned EMSGSIZE []
  else
    match q with
    | .noBuffer => .returned ENOMEM []
    | .noRoom => .returned ECOMM []
    | .put =>
      match s.channel with
      | none => .fault
      | some d => if d.notify = 0 then .fault else .returned 0 [d.notify]

/-- `camkes_msgqueue_poll`, msgqueue.c:153-164; `answer` is what the functions return. -/
def poll (s : Receiver) (answer : Nat → Int) : Out :=
  if s.initialised = false then .returned EINVAL []
  else if s.poll = 0 then .fault
  else .returned (answer s.poll) [s.poll]

/-- `camkes_msgqueue_wait`, msgqueue.c:166-179. -/
def wait (s : Receiver) : Out :=
  if s.initialised = false then .returned EINVAL []
  else if s.wait = 0 then .fault
  else .returned 0 [s.wait]

/-- `camkes_msgqueue_get`, msgqueue.c:181-217; `message` is the length of the next message in the ring. -/
def get (s : Receiver) (buffer : Bool) (size : Nat) (message : Option Nat) : Out :=
  if buffer = false then .returned EINVAL []
  else if s.initialised = false then .returned EINVAL []
  else if size < s.messageSize then .returned EMSGSIZE []
  else
    match message with
    | none => .returned ENOMSG []
    | some k => if size ≥ k then .returned 0 [] else .aborted

/-- The calls with one sender. The table is the one at the time of the call. -/
inductive SCall
  | init (heap : Bool) (t : MsgQ.Table) (id : Int)
  | send (message : Bool) (size : Nat) (q : Put)

def sstep (m : Machine) (sz : Sizes) (s : Sender) : SCall → Sender × Out
  | .init heap t id => senderInit m sz heap t id s
  | .send message size q => (s, send s message size q)

/-- The sender after some calls. -/
def srun (m : Machine) (sz : Sizes) : Sender → List SCall → Sender
  | s, [] => s
  | s, c :: cs => srun m sz (sstep m sz s c).1 cs

/-- The calls with one receiver. -/
inductive RCall
  | init (t : MsgQ.Table) (id : Int)
  | poll (answer : Nat → Int)
  | wait
  | get (buffer : Bool) (size : Nat) (message : Option Nat)

def rstep (sz : Sizes) (s : Receiver) : RCall → Receiver × Out
  | .init t id => receiverInit sz t id s
  | .poll answer => (s, poll s answer)
  | .wait => (s, wait s)
  | .get buffer size message => (s, get s buffer size message)

/-- The receiver after some calls. -/
def rrun (sz : Sizes) : Receiver → List RCall → Receiver
  | s, [] => s
  | s, c :: cs => rrun sz (rstep sz s c).1 cs

/-- A call with a pointer to no sender, msgqueue.c:25-28 and 118-120. -/
def snull : SCall → Out
  | .init _ _ _ => .returned EINVAL []
  | .send _ _ _ => .returned EINVAL []

/-- A call with a pointer to no receiver, msgqueue.c:61-64, 155-157, 168-170 and 183-185. -/
def rnull : RCall → Out
  | .init _ _ => .returned EINVAL []
  | .poll _ => .returned EINVAL []
  | .wait => .returned EINVAL []
  | .get _ _ _ => .returned EINVAL []

end Verif.QueueEnds
