import Verif.CakeReply.Model
import Verif.ReplyCap.Spec

/-!
# Specification (C135)

The events, and `answered`, `returned`, `SavedBeforeWait` and `Reported`, are those of C54 and C56.
-/

namespace Verif.CakeReply

/-- The server was generated for the capability space it runs in: the numbers are words, the endpoint and the
CNode are where the source says, and the slot for the reply capability is not the null slot. -/
structure Server.Ok (s : Server) : Prop where
  ws : s.ws = 4 ∨ s.ws = 8
  ep : s.ep = s.epSlot ∧ s.ep < 2 ^ (8 * s.ws)
  cnode : s.cnode = s.cnodeSlot ∧ s.cnode ≠ 0 ∧ s.cnode < 2 ^ (8 * s.ws)
  slot : s.slot ≠ 0 ∧ s.slot < 2 ^ (8 * s.ws)

/-- The arrays of messages have room for a capability. -/
def Room (s : Server) : Act → Prop
  | .reply _ msg => 1 + s.ws ≤ msg.length
  | _ => True

/-- The same action of a server in C. -/
def inC : Act → ReplyCap.Act
  | .protectedWait fail => .protectedWait fail
  | .cakeWait => .plainWait
  | .reply client _ => .reply client

/-- A server that waits only with the reply capability protected, and whose savings work. -/
def Protects : List Act → Prop
  | [] => True
  | .protectedWait fail :: as => fail = 0 ∧ Protects as
  | .cakeWait :: _ => False
  | .reply _ _ :: as => Protects as

/-- The server only answers. -/
def OnlyAnswers (as : List Act) : Prop := ∀ a ∈ as, ∃ client msg, a = .reply client msg

/-- The clients that the actions receive requests from. -/
def clients : List Act → List Nat
  | [] => []
  | .reply c _ :: as => c :: clients as
  | _ :: as => clients as

end Verif.CakeReply
