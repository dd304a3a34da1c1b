import Mathlib.Data.List.Perm.Basic
import Mathlib.Data.List.Nodup

/-!
# Model: the block allocator of a virtqueue and scatter/gather (libsel4camkes/src/virtqueue.c,
libsel4camkes/src/virtqueue_common.c)
-/

namespace Verif.VqAlloc

/-- The machine: the number of values of `uintptr_t` and `size_t`, and of `unsigned`. -/
structure Machine where
  W : Nat
  U : Nat

/-- `struct vq_buf_alloc`, virtqueue_common.h:12-19. -/
structure Alloc where
  base : Nat
  bs : Nat
  n : Nat
  head : Nat
  next : Nat → Nat

/-- `init_vq_allocator`, virtqueue_common.c:18-50, when memory for it can be allocated. -/
def init (base len bs : Nat) : Alloc := ⟨base, bs, len / bs, 0, fun i => i + 1⟩

/-- `camkes_virtqueue_buffer_alloc`, virtqueue.c:19-38. -/
def alloc (a : Alloc) (size : Nat) : Option (Nat × Alloc) :=
  if size > a.bs then none
  else if a.head = a.n then none
  else some (a.base + a.bs * a.head, { a with head := a.next a.head })

/-- `OFFSET_TO_IDX` of the difference of two pointers, converted to `int`, virtqueue.c:48; `none` if it is
negative. -/
def index (m : Machine) (a : Alloc) (p : Nat) : Option Nat :=
  let i := ((p + m.W - a.base) % m.W / a.bs) % m.U
  if 2 * i < m.U then some i else none

/-- `camkes_virtqueue_buffer_free`, virtqueue.c:40-56. -/
def free (m : Machine) (a : Alloc) (p : Nat) : Alloc :=
  match index m a p with
  | none => a
  | some i => if i ≥ a.n then a else { a with next := fun k => if k = i then a.head else a.next k, head := i }

/-- The calls of a driver. -/
inductive Call
  | alloc (size : Nat)
  | free (p : Nat)

/-- What happened. -/
inductive Event
  | allocated (p : Nat)
  | refused (size : Nat)
  | freed (p : Nat)
  deriving DecidableEq

def step (m : Machine) (a : Alloc) : Call → Alloc × Event
  | .alloc size => match alloc a size with
    | none => (a, .refused size)
    | some (p, a') => (a', .allocated p)
  | .free p => (free m a p, .freed p)

def run (m : Machine) : Alloc → List Event → List Call → Alloc × List Event
  | a, es, [] => (a, es)
  | a, es, c :: cs => run m (step m a c).1 ((step m a c).2 :: es) cs

/-- `camkes_virtqueue_driver_init_common`, virtqueue_common.c:60-71: where the buffers start and how long
they are, for the size `rings` of the three rings (virtqueue_common.c:61-67). -/
def driverInit (m : Machine) (buffer size rings bs : Nat) : Alloc :=
  init (buffer + rings) ((size + m.W - rings) % m.W % m.U) bs

/-! ### Scatter and gather -/

/-- A message in the ring: offsets and lengths of its buffers. The ring itself (libvirtqueue) is used by
its contract: a chain is read in the order in which it was added. -/
abbrev Chain := List (Nat × Nat)

/-- The allocator of the driver and the shared memory, by offset from the first buffer. -/
structure Vq where
  a : Alloc
  mem : Nat → Nat

/-- `memcpy`. -/
def write (mem : Nat → Nat) (o : Nat) (data : List Nat) : Nat → Nat :=
  fun x => if o ≤ x ∧ x < o + data.length then data.getD (x - o) 0 else mem x

def readAt (mem : Nat → Nat) (o k : Nat) : List Nat := (List.range k).map fun j => mem (o + j)

/-- `camkes_virtqueue_driver_scatter_send_buffer`, virtqueue.c:181-205, with `chain_vq_buf`,
virtqueue.c:167-179, which fails when the ring has no more room (`ring`). `BLOCK_SIZE` is the block size of
the allocator (virtqueue.c:114). The fuel is the length of the data. -/
def send (v : Vq) : Nat → List Nat → Nat → Chain → Vq × Option Chain
  | 0, _, _, chain => (v, some chain)
  | fuel + 1, data, ring, chain =>
    if data = [] then (v, some chain)
    else
      let k := min data.length v.a.bs
      match alloc v.a k with
      | none => (v, none)
      | some (p, a') =>
        let v' : Vq := ⟨a', write v.mem (p - v.a.base) (data.take k)⟩
        match ring with
        | 0 => (v', none)
        | ring + 1 => send v' fuel (data.drop k) ring (chain ++ [(p - v.a.base, k)])

/-- `camkes_virtqueue_device_gather_copy_buffer`, virtqueue.c:249-271: the bytes that are copied, and
whether it succeeds. -/
def gatherCopy (mem : Nat → Nat) : Nat → Chain → List Nat × Bool
  | 0, _ => ([], true)
  | _ + 1, [] => ([], false)
  | size + 1, (o, k) :: chain =>
    let c := min (size + 1) k
    let r := gatherCopy mem (size + 1 - c) chain
    (readAt mem o c ++ r.1, r.2)

/-- `camkes_virtqueue_device_scatter_copy_buffer`, virtqueue.c:226-247: writing an answer into the buffers
of a message. -/
def scatterCopy (mem : Nat → Nat) : List Nat → Chain → (Nat → Nat) × Bool
  | [], _ => (mem, true)
  | _ :: _, [] => (mem, false)
  | d :: data, (o, k) :: chain =>
    let c := min (d :: data).length k
    scatterCopy (write mem o ((d :: data).take c)) ((d :: data).drop c) chain

/-- `camkes_virtqueue_driver_gather_copy_buffer`, virtqueue.c:207-224: the bytes that are copied; the buffers
are freed. -/
def collect (m : Machine) : Vq → Nat → Chain → Vq × List Nat
  | v, _, [] => (v, [])
  | v, room, (o, k) :: chain =>
    let c := min room k
    let r := collect m ⟨free m v.a (v.a.base + o), v.mem⟩ (room - c) chain
    (r.1, readAt v.mem o c ++ r.2)

end Verif.VqAlloc
