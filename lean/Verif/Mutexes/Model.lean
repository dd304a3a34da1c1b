import Verif.CapAlloc.Model

/-!
# Model: mutexes made at run time (C72)

libsel4camkes/src/sync.c:17-80, on top of the pool of capabilities (`Verif.CapAlloc`). Not modelled: locking and unlocking,
which are libsel4sync's.
-/

namespace Verif.Mutexes

open Verif.CapAlloc

/-- The pool, and the mutexes in the heap: the address and the capability of the notification (`notification.cptr`). -/
structure Sys where
  pool : List Node
  live : List (Nat × Nat)

/-- The calls of a component. `other` is a call of the allocator by another user of it; `mem` is what `calloc` returns and
`good` tells whether `sync_mutex_init` succeeds. -/
inductive Call
  | other (c : CapAlloc.Call)
  | newMutex (mem : Option Nat) (good : Bool)
  | freeMutex (addr : Nat)

/-- What can be observed: the calls of the allocator, and what the functions return. -/
inductive Event
  | cap (e : CapAlloc.Event)
  | made (addr cap : Nat)
  | failed
  | freed (addr cap : Nat)
  deriving DecidableEq

/-- Undefined behaviour, which is not followed: memory that is not fresh, freeing what is not a mutex (any more), and another user that frees
the notification of a mutex. -/
def Legal (s : Sys) : Call → Prop
  | .other (.free p) => ∀ x ∈ s.live, x.2 ≠ p
  | .other _ => True
  | .newMutex mem _ => ∀ a ∈ mem, ∀ x ∈ s.live, x.1 ≠ a
  | .freeMutex addr => ∃ x ∈ s.live, x.1 = addr

/-- `camkes_mutex_new`, sync.c:18-49; `none` if an assertion of the allocator fails. `ntfn` and `rw` are the type and the rights in sync.c:26. -/
def newMutex (ntfn rw : Nat) (s : Sys) (mem : Option Nat) (good : Bool) : Option (Sys × List Event) :=
  let r := alloc s.pool ntfn 0 rw
  if r.2 = 0 then some ({ s with pool := r.1 }, [.failed, .cap (.allocated ntfn 0 rw 0)])
  else
    match mem with
    | none => (free r.1 r.2).map fun pool => ({ s with pool := pool }, [.failed, .cap (.freed r.2), .cap (.allocated ntfn 0 rw r.2)])
    | some a =>
      if good then some ({ pool := r.1, live := (a, r.2) :: s.live }, [.made a r.2, .cap (.allocated ntfn 0 rw r.2)])
      else (free r.1 r.2).map fun pool => ({ s with pool := pool }, [.failed, .cap (.freed r.2), .cap (.allocated ntfn 0 rw r.2)])

/-- `camkes_mutex_free`, sync.c:68-80. -/
def freeMutex (s : Sys) (addr : Nat) : Option (Sys × List Event) :=
  match s.live.find? (fun x => x.1 = addr) with
  | none => none
  | some x => (free s.pool x.2).map fun pool => ({ pool := pool, live := s.live.filter fun y => !decide (y.1 = addr) }, [.freed addr x.2, .cap (.freed x.2)])

/-- One call, with the events, the last one first. -/
def step (ntfn rw : Nat) (s : Sys) : Call → Option (Sys × List Event)
  | .other c => (CapAlloc.step s.pool c).map fun r => ({ s with pool := r.1 }, [.cap r.2])
  | .newMutex mem good => newMutex ntfn rw s mem good
  | .freeMutex addr => freeMutex s addr

/-- A history from the start of the component, in which every call is legal; no assertion fails. -/
inductive Reach (ntfn rw : Nat) : Sys → List Event → Prop
  | start : Reach ntfn rw ⟨[], []⟩ []
  | call {s : Sys} {es : List Event} (c : Call) {s' : Sys} {new : List Event} : Reach ntfn rw s es → Legal s c → step ntfn rw s c = some (s', new) →
      Reach ntfn rw s' (new ++ es)

end Verif.Mutexes
