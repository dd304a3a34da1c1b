/-!
# Model: client threads that call through a shared buffer (camkes/templates/rpc-connector-common-from.c)

The method function of the generated client, when the connector has a buffer shared by the threads of the
component and a lock for it (rpc-connector.c:74-83). One step of a thread is what it does between two points
at which other threads can observe it. The semaphore of libsel4sync and `seL4_Call` are used by their
contracts.
-/

namespace Verif.ClientLock

/-- Where a thread is, with the parameters of its call. -/
inductive Pc
  | idle
  /-- it holds the lock and marshals -/
  | sending (v : Nat)
  /-- it is blocked in `seL4_Call` -/
  | calling (v : Nat)
  /-- the reply has arrived, and it unmarshals -/
  | reading (v : Nat)
  deriving DecidableEq

/-- The contents of the shared buffer. -/
inductive Buf
  | empty
  | request (v : Nat)
  | reply (r : Nat)
  deriving DecidableEq

/-- What a program that uses the interface sees. -/
inductive Event
  | called (t v : Nat)
  | returned (t r : Nat)
  /-- the call returned after an error was reported -/
  | failed (t : Nat)
  deriving DecidableEq

structure St where
  /-- the counter of the lock, rpc-connector.c:81 -/
  sem : Nat
  buf : Buf
  pc : Nat → Pc

def setPc (st : St) (t : Nat) (p : Pc) : St := { st with pc := fun u => if u = t then p else st.pc u }

/-- What the server does with the buffer: it answers a request. -/
def serve (f : Nat → Nat) : Buf → Buf
  | .request v => .reply (f v)
  | b => b

/-- One step, and what is seen of it. -/
inductive Step (f : Nat → Nat) : St → List Event → St → List Event → Prop
  /-- `begin_send`, rpc-connector-common-from.c:53, rpc-connector.c:362-375 -/
  | begin (st : St) (es : List Event) (t v : Nat) : st.pc t = .idle → 0 < st.sem →
      Step f st es (setPc { st with sem := st.sem - 1 } t (.sending v)) (.called t v :: es)
  /-- marshalling succeeds, rpc-connector-common-from.c:62; then `perform_call` -/
  | marshal (st : St) (es : List Event) (t v : Nat) : st.pc t = .sending v →
      Step f st es (setPc { st with buf := .request v } t (.calling v)) es
  /-- an error in marshalling, rpc-connector-common-from.c:63-75: it returns -/
  | marshalError (st : St) (es : List Event) (t v : Nat) : st.pc t = .sending v →
      Step f st es (setPc st t .idle) (.failed t :: es)
  /-- the server receives the call, and replies -/
  | serve (st : St) (es : List Event) (t v : Nat) : st.pc t = .calling v →
      Step f st es (setPc { st with buf := serve f st.buf } t (.reading v)) es
  /-- unmarshalling succeeds, `release_recv`, rpc-connector-common-from.c:80-99, rpc-connector.c:401-406 -/
  | finish (st : St) (es : List Event) (t v r : Nat) : st.pc t = .reading v → st.buf = .reply r →
      Step f st es (setPc { st with sem := st.sem + 1 } t .idle) (.returned t r :: es)
  /-- an error in unmarshalling, rpc-connector-common-from.c:81-93: it returns -/
  | unmarshalError (st : St) (es : List Event) (t v : Nat) : st.pc t = .reading v →
      Step f st es (setPc st t .idle) (.failed t :: es)

/-- At the beginning the lock is free. -/
def start : St := ⟨1, .empty, fun _ => .idle⟩

/-- What can be reached from a state, in any interleaving. -/
inductive Reach (f : Nat → Nat) (st0 : St) (es0 : List Event) : St → List Event → Prop
  | refl : Reach f st0 es0 st0 es0
  | step {st es st' es'} : Reach f st0 es0 st es → Step f st es st' es' → Reach f st0 es0 st' es'

end Verif.ClientLock
