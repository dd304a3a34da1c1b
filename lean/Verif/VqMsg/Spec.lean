import Verif.VqMsg.Model

/-!
# Specification: messages through a virtqueue (C57)
-/

namespace Verif.VqMsg

/-- What a message contains: what was sent, and over it the last answers of the device. -/
def content (id : Nat) : List Event → Option (List Nat)
  | [] => none
  | .sent i d :: es => if i = id then some d else content id es
  | .responded i d _ :: es =>
    if i = id then (content id es).map fun c => d.take c.length ++ c.drop d.length else content id es
  | .collected i _ _ :: es => if i = id then none else content id es
  | _ :: es => content id es

/-- C57, for everything that happened: what is received or collected is what the message contains, and the
result tells whether there was enough of it. -/
def Right : List Event → Prop
  | [] => True
  | .received id size bytes ok :: es =>
    (∃ c, content id es = some c ∧ bytes = c.take size ∧ (ok = true ↔ size ≤ c.length)) ∧ Right es
  | .responded id d ok :: es => (∃ c, content id es = some c ∧ (ok = true ↔ d.length ≤ c.length)) ∧ Right es
  | .collected id size bytes :: es => (∃ c, content id es = some c ∧ bytes = c.take size) ∧ Right es
  | _ :: es => Right es

/-- The number of blocks that a message needs. -/
def need (bs : Nat) (data : List Nat) : Nat := (data.length + bs - 1) / bs

end Verif.VqMsg
