import Mathlib.Data.List.Basic
import Mathlib.Tactic.Tauto
import Mathlib.Tactic.ByContra

/-!
# Model: error handlers of a component (C71)

Registration of handlers (libsel4camkes/src/error.c:52-64, camkes/templates/helpers/error.c:14-36) and what the code that found an
error does (`ERR`, libsel4camkes/include/camkes/error.h:220-268). The mode `GUARD`, in which an error is an assumption of a verifier, is
not modelled.

Handlers are numbers, zero is `NULL` and one is `default_error_handler`; interfaces and errors are numbers. Outside: what the
handlers of the component return.
-/

namespace Verif.Errors

/-- How the component is configured, error.h:220-268. -/
inductive Mode
  | configurable
  | abort
  | discard
  deriving DecidableEq

/-- `camkes_error_action_t`, error.h:153-187. -/
inductive Action
  | invalid
  | discard
  | ignore
  | abort
  | halt
  deriving DecidableEq

/-- What the code does after an error. -/
inductive Outcome
  /-- the statement given for this case, which leaves the function -/
  | left
  /-- it goes on as if there was no error -/
  | goesOn
  /-- the thread is stopped; on a debug kernel the system is halted first -/
  | stopped (halted : Bool)
  /-- the result of the handler is none of the four, error.h:247-248 -/
  | undefined
  /-- a null pointer is called -/
  | fault
  deriving DecidableEq

/-- The handlers: `err` in error.c:52 and the variables of the interfaces, helpers/error.c:20. -/
structure St where
  common : Nat
  own : Nat → Nat

/-- At the start, error.c:52 and helpers/error.c:20. -/
def start : St := ⟨1, fun _ => 0⟩

/-- What happens in a component. -/
inductive Call
  /-- `camkes_register_error_handler`, error.c:59-64 -/
  | register (h : Nat)
  /-- the function of an interface, helpers/error.c:22-27 -/
  | registerFor (i h : Nat)
  /-- an error in the code of an interface -/
  | raised (i err : Nat)
  deriving DecidableEq

/-- What can be observed: what a registration returned, which handler got an error and what was done then. -/
inductive Event
  | registered (h old : Nat)
  | registeredFor (i h old : Nat)
  | handled (i err h : Nat) (o : Outcome)
  /-- an error that no handler is told about -/
  | silent (i err : Nat) (o : Outcome)
  deriving DecidableEq

/-- `default_error_handler`, error.c:15-49, and the handlers of the component. -/
def returns (handler : Nat → Nat → Action) (h err : Nat) : Action := if h = 1 then .halt else handler h err

/-- The handler of an interface, helpers/error.c:29-35, with `camkes_error`, error.c:54-57: which handler is called. -/
def chosen (s : St) (i : Nat) : Nat := if s.own i = 0 then s.common else s.own i

/-- `ERR`, error.h:229-250; `debug` tells whether the kernel has `seL4_DebugHalt` (error.h:214-218). -/
def act (debug : Bool) : Action → Outcome
  | .discard => .left
  | .ignore => .goesOn
  | .halt => .stopped debug
  | .abort => .stopped false
  | .invalid => .undefined

def step (handler : Nat → Nat → Action) (mode : Mode) (debug : Bool) (s : St) : Call → St × Event
  | .register h => ({ s with common := h }, .registered h s.common)
  | .registerFor i h => ({ s with own := fun x => if x = i then h else s.own x }, .registeredFor i h (s.own i))
  | .raised i err =>
    (s, match mode with
      | .configurable =>
        let h := chosen s i
        if h = 0 then .handled i err 0 .fault else .handled i err h (act debug (returns handler h err))
      | .abort => .silent i err (.stopped false)
      | .discard => .silent i err .left)

/-- A history, the last call first. -/
def run (handler : Nat → Nat → Action) (mode : Mode) (debug : Bool) : List Call → St × List Event
  | [] => (start, [])
  | c :: cs =>
    let r := run handler mode debug cs
    let s := step handler mode debug r.1 c
    (s.1, s.2 :: r.2)

end Verif.Errors
