import Verif.MsgQ.Model

/-!
# Specification: message queues between components (C73)

Only the events are used, the last one first.
-/

namespace Verif.MsgQ

/-- The messages that were sent, the first one first. -/
def sentMsgs : List Event → List (List Nat)
  | [] => []
  | .sent d :: es => sentMsgs es ++ [d]
  | _ :: es => sentMsgs es

/-- The messages that the receiver got, the first one first. -/
def gotMsgs : List Event → List (List Nat)
  | [] => []
  | .got d :: es => gotMsgs es ++ [d]
  | _ :: es => gotMsgs es

/-- The message of the call of `send` that has not returned yet, and what had happened before the call. -/
def pending : List Event → Option (List Nat × List Event)
  | [] => none
  | .begun d :: es => some (d, es)
  | .sent _ :: _ => none
  | .noRing :: _ => none
  | .noMem :: _ => none
  | _ :: es => pending es

/-- The number of messages that are under way. -/
def underWay (es : List Event) (k : Nat) : Prop := (sentMsgs es).length = (gotMsgs es).length + k

/-- Everything that is returned is right, for messages of at most `ms` bytes, buffers of at least `mr` bytes, `n` blocks of
memory and `q` places in the rings: `send` succeeds for the message it was called with; it fails only if a message is too long,
if `n` messages are under way, or if `q` messages were under way when it was called; `get` returns the oldest message that it has
not returned yet, and fails only if its buffer is too small or there is none. -/
def Right (ms mr n q : Nat) : List Event → Prop
  | [] => True
  | .begun d :: es => (pending es = none ∧ d.length ≤ ms) ∧ Right ms mr n q es
  | .sent d :: es => (∃ before, pending es = some (d, before)) ∧ Right ms mr n q es
  | .noRing :: es => (∃ d before, pending es = some (d, before) ∧ underWay before q) ∧ Right ms mr n q es
  | .noMem :: es => ((pending es).isSome ∧ underWay es n) ∧ Right ms mr n q es
  | .tooLong d :: es => ms < d.length ∧ Right ms mr n q es
  | .got d :: es => (∃ rest, sentMsgs es = gotMsgs es ++ d :: rest) ∧ Right ms mr n q es
  | .noMsg :: es => sentMsgs es = gotMsgs es ∧ Right ms mr n q es
  | .tooSmall size :: es => size < mr ∧ Right ms mr n q es
  | .aborted :: _ => False

/-- The first registration of a number that is acceptable. -/
def Acceptable (id : Int) (c : Channel) : Prop := 0 ≤ id ∧ id < 100 ∧ c.buffer ≠ 0 ∧ c.messageSize < c.bufferSize ∧ 0 ∉ c.funcs

/-- The channel of a number: the first acceptable registration counts. The last one is first in the list. -/
def channelOf (id : Int) : List (Int × Channel) → Option Channel → Prop
  | [], r => r = none
  | (i, c) :: rs, r => (∃ old, channelOf id rs (some old) ∧ r = some old) ∨
    (channelOf id rs none ∧ ((i = id ∧ Acceptable i c ∧ r = some c) ∨ (¬ (i = id ∧ Acceptable i c) ∧ r = none)))

end Verif.MsgQ
