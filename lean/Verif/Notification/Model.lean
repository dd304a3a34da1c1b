/-!
# Model: the receiving end of the event connectors
(camkes/templates/seL4Notification-to.template.c and seL4NotificationQueue-to.template.c)

A transition system: one event thread runs `__run`, any number of application threads call `poll`,
`wait` and `reg_callback`. Every access to shared memory is a step of its own. The semaphores of
libsel4sync, which is not part of the repository, are taken at their contract: the binary semaphore is
a lock that is granted to one thread at a time or reports an error; the counting semaphore has a
counter that is changed atomically, a waiter that brings it below zero blocks, and a post that finds it
below zero hands over to one blocked waiter. The two templates differ only in how an event arrives and
in reporting (not modelled) where the other drops an event silently.
-/

namespace Verif.Notification

/-- The variables shared by the threads: the lock, `callback` (`none` is the null pointer),
`callback_arg` and `handoff_value`,
seL4Notification-to.template.c:48-65 and seL4NotificationQueue-to.template.c:30-52. -/
structure Shared where
  lock : Bool
  slot : Option Nat
  arg : Nat
  value : Int

/-- Where the event thread is in `__run`, seL4Notification-to.template.c:67-111,
seL4NotificationQueue-to.template.c:54-101; local variables are arguments. -/
inductive RunPc
  | waiting
  | locking
  | reading
  | clearing (cb : Option Nat)
  | readingArg (cb : Option Nat)
  | deciding (cb : Option Nat) (arg : Nat)
  | posting
  | sending
  | unlocking (cb : Option Nat) (arg : Nat)
  | calling (cb : Nat) (arg : Nat)
  deriving DecidableEq

/-- Where an application thread is: outside, blocked in `wait`, or in `reg_callback`,
seL4Notification-to.template.c:117-170, seL4NotificationQueue-to.template.c:107-158. -/
inductive AppPc
  | idle
  | blocked
  | regLock (cb arg : Nat)
  | regPoll (cb arg : Nat)
  | regCheck (cb arg : Nat)
  | regStore (cb arg : Nat)
  | regStoreArg (arg : Nat)
  | unlockCall (cb arg : Nat)
  | unlockReturn
  | calling (cb arg : Nat)
  deriving DecidableEq

/-- What can be seen from outside. -/
inductive Event
  | quiet
  /-- an event arrived at the event thread -/
  | received
  /-- an event was dropped (no lock, or the counter is at its limit) -/
  | dropped
  /-- `poll` returned true -/
  | polled
  /-- `wait` returned after an event -/
  | waited
  /-- the callback slot was written by `reg_callback` -/
  | registered (cb arg : Nat)
  /-- `reg_callback` returned -1 -/
  | refused
  /-- the event thread called a callback -/
  | called (cb arg : Nat)
  /-- `reg_callback` called the callback itself -/
  | direct (cb arg : Nat)
  deriving DecidableEq

/-- The steps of `__run` by itself. `maxv` is `INT_MAX`. Receiving: 69 (56-65 in the queue connector);
lock: 71-76 (67-76); reading and clearing the slot: 79-81 (78-80); deciding: 83-95 (82-92); posting:
93-95 (92); unlock: 98 (95); calling: 101-106 (98-100). -/
inductive RunStep (maxv : Int) : Shared → RunPc → Event → Shared → RunPc → Prop
  | receive (s) : RunStep maxv s .waiting .received s .locking
  | noLock (s) : RunStep maxv s .locking .dropped s .waiting
  | lock (s) (h : s.lock = false) : RunStep maxv s .locking .quiet { s with lock := true } .reading
  | seen (s) : RunStep maxv s .reading .quiet s (.clearing s.slot)
  | clear (s cb) : RunStep maxv s (.clearing cb) .quiet { s with slot := none } (.readingArg cb)
  | seenArg (s cb) : RunStep maxv s (.readingArg cb) .quiet s (.deciding cb s.arg)
  | keep (s cb arg) : RunStep maxv s (.deciding (some cb) arg) .quiet s (.unlocking (some cb) arg)
  | room (s arg) (h : s.value ≠ maxv) : RunStep maxv s (.deciding none arg) .quiet s .posting
  | full (s arg) (h : s.value = maxv) : RunStep maxv s (.deciding none arg) .dropped s (.unlocking none arg)
  | post (s) (h : 0 ≤ s.value) : RunStep maxv s .posting .quiet { s with value := s.value + 1 } (.unlocking none 0)
  | postWaiter (s) (h : s.value < 0) : RunStep maxv s .posting .quiet { s with value := s.value + 1 } .sending
  | unlock (s arg) : RunStep maxv s (.unlocking none arg) .quiet { s with lock := false } .waiting
  | unlockCall (s cb arg) : RunStep maxv s (.unlocking (some cb) arg) .quiet { s with lock := false } (.calling cb arg)
  | call (s cb arg) : RunStep maxv s (.calling cb arg) (.called cb arg) s .waiting

/-- The steps of an application thread by itself. `minv` is `INT_MIN`. `poll`: 113-119 (103-109);
`wait`: 121-135 (111-125); `reg_callback`: 137-170 (127-158). -/
inductive AppStep (minv : Int) : Shared → AppPc → Event → Shared → AppPc → Prop
  | poll (s) (h : 0 < s.value) : AppStep minv s .idle .polled { s with value := s.value - 1 } .idle
  | pollFail (s) (h : s.value ≤ 0) : AppStep minv s .idle .quiet s .idle
  | waitNow (s) (h : 0 < s.value) : AppStep minv s .idle .waited { s with value := s.value - 1 } .idle
  | waitBlock (s) (h : s.value ≤ 0) (hm : s.value ≠ minv) : AppStep minv s .idle .quiet { s with value := s.value - 1 } .blocked
  | waitError (s) (h : s.value = minv) : AppStep minv s .idle .quiet s .idle
  | reg (s cb arg) (h : 0 < s.value) : AppStep minv s .idle .quiet { s with value := s.value - 1 } (.calling cb arg)
  | regNone (s cb arg) (h : s.value ≤ 0) : AppStep minv s .idle .quiet s (.regLock cb arg)
  | noLock (s cb arg) : AppStep minv s (.regLock cb arg) .refused s .idle
  | lock (s cb arg) (h : s.lock = false) : AppStep minv s (.regLock cb arg) .quiet { s with lock := true } (.regPoll cb arg)
  | again (s cb arg) (h : 0 < s.value) : AppStep minv s (.regPoll cb arg) .quiet { s with value := s.value - 1 } (.unlockCall cb arg)
  | againNone (s cb arg) (h : s.value ≤ 0) : AppStep minv s (.regPoll cb arg) .quiet s (.regCheck cb arg)
  | occupied (s cb arg) (h : s.slot ≠ none) : AppStep minv s (.regCheck cb arg) .refused s .unlockReturn
  | vacant (s cb arg) (h : s.slot = none) : AppStep minv s (.regCheck cb arg) .quiet s (.regStore cb arg)
  | store (s cb arg) : AppStep minv s (.regStore cb arg) (.registered cb arg) { s with slot := some cb } (.regStoreArg arg)
  | storeArg (s arg) : AppStep minv s (.regStoreArg arg) .quiet { s with arg := arg } .unlockReturn
  | unlockCall (s cb arg) : AppStep minv s (.unlockCall cb arg) .quiet { s with lock := false } (.calling cb arg)
  | unlockReturn (s) : AppStep minv s .unlockReturn .quiet { s with lock := false } .idle
  | call (s cb arg) : AppStep minv s (.calling cb arg) (.direct cb arg) s .idle

/-- The whole system. -/
structure State where
  shared : Shared
  run : RunPc
  apps : List AppPc

/-- Any thread may step; a post that found waiters hands over to any one that is blocked (the send and
the receive on the endpoint `handoff`). -/
inductive Step (minv maxv : Int) : State → Event → State → Prop
  | run (s s' r r' e apps) (h : RunStep maxv s r e s' r') : Step minv maxv ⟨s, r, apps⟩ e ⟨s', r', apps⟩
  | app (s s' r a a' e l1 l2) (h : AppStep minv s a e s' a') : Step minv maxv ⟨s, r, l1 ++ a :: l2⟩ e ⟨s', r, l1 ++ a' :: l2⟩
  | handOver (s l1 l2) : Step minv maxv ⟨s, .sending, l1 ++ .blocked :: l2⟩ .waited ⟨s, .unlocking none 0, l1 ++ .idle :: l2⟩

/-- The initial state with `n` application threads. -/
def start (n : Nat) : State := ⟨⟨false, none, 0, 0⟩, .waiting, List.replicate n .idle⟩

/-- Executions, with what was seen, first event first. -/
inductive Exec (minv maxv : Int) (n : Nat) : List Event → State → Prop
  | start : Exec minv maxv n [] (start n)
  | step (tr s e s') (h : Exec minv maxv n tr s) (hs : Step minv maxv s e s') : Exec minv maxv n (tr ++ [e]) s'

end Verif.Notification
