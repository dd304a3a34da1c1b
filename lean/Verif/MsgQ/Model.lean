import Verif.VqAlloc.Model

/-!
# Model: message queues between components (C73)

libsel4camkes/src/msgqueue.c and msgqueue_template.c, on top of the block allocator of virtqueues (`Verif.VqAlloc`).

One thread of the sender and one thread of the receiver take steps in any order; copying a message is one step for each byte. The
rings (libvirtqueue) are used by their contract: two queues that give their elements in the order in which they were put, and `q`
descriptors, one for each buffer that is in a ring or held by the receiver. Offsets are from the first buffer. Not modelled:
notifications (`notify`, `poll`, `wait`).
-/

namespace Verif.MsgQ

open Verif.VqAlloc

/-- What the sender is doing: nothing, or copying a message into the buffer at `p`, msgqueue.c:138. -/
inductive Snd
  | idle
  | copying (p : Nat) (data : List Nat) (i : Nat)

/-- What the receiver is doing: nothing, or copying a message of `k` bytes out of the buffer at offset `o`, msgqueue.c:212. -/
inductive Rcv
  | idle
  | copying (o k i : Nat) (bytes : List Nat)

/-- The queue: the allocator, the shared memory, the two rings (offset and length), and the two threads. -/
structure Sys where
  a : Alloc
  mem : Nat → Nat
  avail : List (Nat × Nat)
  used : List (Nat × Nat)
  snd : Snd
  rcv : Rcv

/-- The size of the messages for the sender (`sender->message_size`) and for the receiver, and the length of the rings. -/
structure Cfg where
  ms : Nat
  mr : Nat
  q : Nat

inductive Act
  /-- the sender calls `camkes_msgqueue_send` -/
  | send (data : List Nat)
  /-- it goes on -/
  | sendStep
  /-- the receiver calls `camkes_msgqueue_get` with a buffer of this size -/
  | get (size : Nat)
  /-- it goes on -/
  | getStep

/-- What can be observed: `send` is called with a message that is not too long; what it returns (`0`, `ECOMM`, `ENOMEM`,
`EMSGSIZE`); what `get` returns (`0` with the message, `ENOMSG`, `EMSGSIZE`), or that its assertion fails. -/
inductive Event
  | begun (data : List Nat)
  | sent (data : List Nat)
  | noRing
  | noMem
  | tooLong (data : List Nat)
  | got (data : List Nat)
  | noMsg
  | tooSmall (size : Nat)
  | aborted
  deriving DecidableEq

/-- The buffers that the receiver holds. -/
def Rcv.held : Rcv → Nat
  | .idle => 0
  | .copying _ _ _ _ => 1

/-- One step, with the events, the last one first. -/
def step (m : Machine) (c : Cfg) (s : Sys) : Act → Sys × List Event
  -- msgqueue.c:116-135, with `msgqueue_alloc_buffer`, msgqueue.c:90-114
  | .send data =>
    match s.snd with
    | .copying _ _ _ => (s, [])
    | .idle =>
      if data.length > c.ms then (s, [.tooLong data])
      else
        match s.used with
        | (o, _) :: us => ({ s with used := us, snd := .copying (s.a.base + o) data 0 }, [.begun data])
        | [] =>
          match alloc s.a c.ms with
          | none => (s, [.noMem, .begun data])
          | some (p, a') => ({ s with a := a', snd := .copying p data 0 }, [.begun data])
  -- msgqueue.c:137-150, with `camkes_virtqueue_driver_send_buffer`, virtqueue.c:153-165
  | .sendStep =>
    match s.snd with
    | .idle => (s, [])
    | .copying p data i =>
      if i < data.length then
        ({ s with mem := write s.mem (p - s.a.base + i) [data.getD i 0], snd := .copying p data (i + 1) }, [])
      else if s.avail.length + s.used.length + s.rcv.held < c.q then
        ({ s with avail := s.avail ++ [(p - s.a.base, data.length)], snd := .idle }, [.sent data])
      else
        ({ s with mem := write s.mem (p - s.a.base) (List.replicate data.length 0), a := free m s.a p, snd := .idle }, [.noRing])
  -- msgqueue.c:181-211
  | .get size =>
    match s.rcv with
    | .copying _ _ _ _ => (s, [])
    | .idle =>
      if size < c.mr then (s, [.tooSmall size])
      else
        match s.avail with
        | [] => (s, [.noMsg])
        | (o, k) :: av =>
          if size ≥ k then ({ s with avail := av, rcv := .copying o k 0 [] }, []) else (s, [.aborted])
  -- msgqueue.c:212-216
  | .getStep =>
    match s.rcv with
    | .idle => (s, [])
    | .copying o k i bytes =>
      if i < k then ({ s with rcv := .copying o k (i + 1) (bytes ++ [s.mem (o + i)]) }, [])
      else ({ s with used := s.used ++ [(o, k)], rcv := .idle }, [.got bytes])

def run (m : Machine) (c : Cfg) : Sys → List Event → List Act → Sys × List Event
  | s, es, [] => (s, es)
  | s, es, a :: as => run m c (step m c s a).1 ((step m c s a).2 ++ es) as

/-- The size of the blocks, msgqueue.c:40-43. -/
def blockSize (ms : Nat) : Nat := if ms &&& (ms - 1) = 0 then ms else 2 ^ (Nat.log2 ms + 1)

/-- `camkes_msgqueue_sender_init`, msgqueue.c:40-56, with `init_vq_allocator`, virtqueue_common.c:18-50: `base` and `len` are the
memory after the rings; `none` if the division in line 35 is by zero. -/
def initSender (base len ms : Nat) : Option Alloc := if blockSize ms = 0 then none else some (init base len (blockSize ms))

/-- A new queue. -/
def start (a : Alloc) (mem : Nat → Nat) : Sys := ⟨a, mem, [], [], .idle, .idle⟩

/-! ### Registration -/

inductive Role
  | sender
  | receiver
  deriving DecidableEq

/-- `camkes_msgqueue_channel_t`, libsel4camkes/include/camkes/msgqueue_template.h:17-34, for a channel that has a role. The functions
are numbers, zero is `NULL`; a sender has one, a receiver two. -/
structure Channel where
  role : Role
  buffer : Nat
  queueLen : Nat
  bufferSize : Nat
  messageSize : Nat
  funcs : List Nat
  deriving DecidableEq

/-- Results of the functions. -/
inductive Res
  | ok
  | einval
  /-- memory outside the table is used -/
  | fault
  deriving DecidableEq

/-- The table, msgqueue_template.c:11, and its length, msgqueue_template.h:9. -/
abbrev Table := Nat → Option Channel

def maxId : Nat := 100

/-- `camkes_msgqueue_channel_register_sender` and `_receiver`, msgqueue_template.c:14-98. (`num_registered_msgqueue_channels` stays zero, so that
the test in line 22 never holds.) -/
def register (t : Table) (id : Int) (c : Channel) : Table × Res :=
  if id ≥ maxId then (t, .einval)
  else if id < 0 then (t, .fault)
  else if (t id.toNat).isSome then (t, .einval)
  else if c.buffer = 0 then (t, .einval)
  else if c.messageSize ≥ c.bufferSize then (t, .einval)
  else if 0 ∈ c.funcs then (t, .einval)
  else (fun x => if x = id.toNat then some c else t x, .ok)

/-- `camkes_msgqueue_channel_get`, msgqueue_template.c:100-118. -/
def lookup (t : Table) (id : Int) (role : Role) : Option Channel × Res :=
  if id ≥ maxId then (none, .einval)
  else if id < 0 then (none, .fault)
  else
    match t id.toNat with
    | none => (none, .einval)
    | some c => if c.role ≠ role then (none, .einval) else (some c, .ok)

/-- Registrations, the last one first, on a table without channels. -/
def table : List (Int × Channel) → Table
  | [] => fun _ => none
  | (id, c) :: rs => (register (table rs) id c).1

end Verif.MsgQ
