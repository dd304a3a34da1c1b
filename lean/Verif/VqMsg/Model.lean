import Verif.VqAlloc.Model

/-!
# Model: messages through a virtqueue, in both directions (libsel4camkes/src/virtqueue.c:181-271)

A driver sends messages; the device reads them and writes answers into their buffers, in any order; the
driver collects the answers, in any order. The rings of libvirtqueue are used by their contract: a chain
that was added is handed to the device and back with the same buffers.
-/

namespace Verif.VqMsg

open Verif.VqAlloc

/-- The state: memory and allocator, the messages in the rings, and the number of messages so far. -/
structure Sys where
  v : Vq
  msgs : List (Nat × Chain)
  count : Nat

inductive Act
  /-- `camkes_virtqueue_driver_scatter_send_buffer`, with room for `ring` buffers in the ring -/
  | send (data : List Nat) (ring : Nat)
  /-- `camkes_virtqueue_device_gather_copy_buffer` -/
  | receive (id size : Nat)
  /-- `camkes_virtqueue_device_scatter_copy_buffer` -/
  | respond (id : Nat) (data : List Nat)
  /-- `camkes_virtqueue_driver_gather_copy_buffer` -/
  | collect (id size : Nat)

inductive Event
  | sent (id : Nat) (data : List Nat)
  | failed (data : List Nat)
  | received (id size : Nat) (bytes : List Nat) (ok : Bool)
  | responded (id : Nat) (data : List Nat) (ok : Bool)
  | collected (id size : Nat) (bytes : List Nat)
  /-- no such message -/
  | unknown
  deriving DecidableEq

def find (id : Nat) (ms : List (Nat × Chain)) : Option Chain := (ms.find? (·.1 == id)).map (·.2)

def step (m : Machine) (s : Sys) : Act → Sys × Event
  | .send data ring =>
    match send s.v data.length data ring [] with
    | (v, none) => ({ s with v := v }, .failed data)
    | (v, some chain) => (⟨v, (s.count, chain) :: s.msgs, s.count + 1⟩, .sent s.count data)
  | .receive id size =>
    match find id s.msgs with
    | none => (s, .unknown)
    | some chain => (s, .received id size (gatherCopy s.v.mem size chain).1 (gatherCopy s.v.mem size chain).2)
  | .respond id data =>
    match find id s.msgs with
    | none => (s, .unknown)
    | some chain => ({ s with v := { s.v with mem := (scatterCopy s.v.mem data chain).1 } }, .responded id data (scatterCopy s.v.mem data chain).2)
  | .collect id size =>
    match find id s.msgs with
    | none => (s, .unknown)
    | some chain =>
      ({ s with v := (VqAlloc.collect m s.v size chain).1, msgs := s.msgs.filter (fun x => !(x.1 == id)) },
        .collected id size (VqAlloc.collect m s.v size chain).2)

def run (m : Machine) : Sys → List Event → List Act → Sys × List Event
  | s, es, [] => (s, es)
  | s, es, a :: as => run m (step m s a).1 ((step m s a).2 :: es) as

/-- A new queue. -/
def start (base len bs : Nat) (mem : Nat → Nat) : Sys := ⟨⟨init base len bs, mem⟩, [], 0⟩

end Verif.VqMsg
