import Verif.RtReply.Model

/-!
# Specification (C137)

The log of a run has the last event first.
-/

namespace Verif.RtReply

/-- What became of a request. -/
inductive Fate
  | answered | dropped
  deriving DecidableEq

/-- The requests in order, with what the server decided about each but the last. -/
def fates : Nat → List Act → List (Nat × Fate)
  | _, [] => []
  | c, .wait :: as => fates c as
  | c, .reply d :: as => (c, .answered) :: fates d as
  | c, .discard d :: as => (c, .dropped) :: fates d as

/-- The server may wait: on a real-time kernel always, on others never. -/
def MayWait (k : Bool) (as : List Act) : Prop := k = true ∨ ∀ a ∈ as, a ≠ .wait

/-- The clients of the requests that the actions receive. -/
def nexts : List Act → List Nat
  | [] => []
  | .wait :: as => nexts as
  | .reply d :: as => d :: nexts as
  | .discard d :: as => d :: nexts as

/-- The clients whose requests the server decided to answer, in order. -/
def answeredOf (l : List (Nat × Fate)) : List Nat := (l.filter (·.2 = .answered)).map (·.1)

/-- The clients whose call returned, in order. -/
def returnedOf (log : List Event) : List Nat :=
  log.reverse.filterMap fun e => match e with | .returned c => some c | _ => none

/-- The clients that requests came from, in order. -/
def gotOf (log : List Event) : List Nat :=
  log.reverse.filterMap fun e => match e with | .got c => some c | _ => none

/-- The times the control thread was told that the server is ready, and whether the server was waiting then. -/
def readyOf (log : List Event) : List Bool :=
  log.reverse.filterMap fun e => match e with | .ready b => some b | _ => none

end Verif.RtReply
