import Verif.QueueEnds.Model
import Verif.VqAlloc.Spec

/-!
# Specification: the two ends of a queue in shared memory (C129)
-/

namespace Verif.QueueEnds

open Verif.VqAlloc (Machine)

/-- The sizes of the three rings, for a queue of `q` elements, in the order in which they are in the memory. -/
def availSize (sz : Sizes) (q : Nat) : Nat := sz.avail + sz.idx * q
def usedSize (sz : Sizes) (q : Nat) : Nat := sz.used + sz.elem * q
def descSize (sz : Sizes) (q : Nat) : Nat := sz.desc * q

/-- The bytes that the rings need. -/
def ringBytes (sz : Sizes) (q : Nat) : Nat := availSize sz q + usedSize sz q + descSize sz q

/-- The memory from `buffer` on is one ring after the other, and then the buffers. -/
def LaidOut (sz : Sizes) (q buffer avail used desc data : Nat) : Prop :=
  avail = buffer ∧ used = avail + availSize sz q ∧ desc = used + usedSize sz q ∧ data = desc + descSize sz q

/-- A channel of a message queue is registered with this number for this role. -/
def Registered (t : MsgQ.Table) (id : Int) (role : MsgQ.Role) (c : MsgQ.Channel) : Prop :=
  0 ≤ id ∧ id < 100 ∧ t id.toNat = some c ∧ c.role = role

/-- A virtqueue is registered with this number for this role; numbers up to `max`. -/
def Offered (max : Nat) (t : VqChan.Table) (id : Nat) (role : VqChan.Role) (c : VqChan.Channel) : Prop :=
  id ≤ max ∧ t id = c ∧ c.role = role ∧ c.buffer ≠ 0

/-- A table in which each channel has memory and functions, as registration makes sure. -/
def Whole (t : MsgQ.Table) : Prop :=
  ∀ i c, t i = some c → c.buffer ≠ 0 ∧ 0 < c.messageSize ∧
    match c.role with
    | .sender => ∃ n, n ≠ 0 ∧ c.funcs = [n]
    | .receiver => ∃ p w, p ≠ 0 ∧ w ≠ 0 ∧ c.funcs = [p, w]

/-- The numbers and the tables of the calls are in order. -/
def SOrder : SCall → Prop
  | .init _ t id => 0 ≤ id ∧ Whole t
  | .send _ _ _ => True

def ROrder : RCall → Prop
  | .init t id => 0 ≤ id ∧ Whole t
  | _ => True

/-- The first call of a history that connects the sender, and to which channel. -/
inductive SFirst : List SCall → MsgQ.Channel → Prop
  | here {t id c cs} : Registered t id .sender c → SFirst (.init true t id :: cs) c
  | noMemory {t id c cs} : SFirst cs c → SFirst (.init false t id :: cs) c
  | unknown {heap t id c cs} : (∀ c', ¬ Registered t id .sender c') → SFirst cs c → SFirst (.init heap t id :: cs) c
  | other {message size q c cs} : SFirst cs c → SFirst (.send message size q :: cs) c

/-- The first call of a history that connects the receiver, and to which channel. -/
inductive RFirst : List RCall → MsgQ.Channel → Prop
  | here {t id c cs} : Registered t id .receiver c → RFirst (.init t id :: cs) c
  | unknown {t id c cs} : (∀ c', ¬ Registered t id .receiver c') → RFirst cs c → RFirst (.init t id :: cs) c
  | other {o c cs} : (∀ t id, o ≠ .init t id) → RFirst cs c → RFirst (o :: cs) c

/-- What a call with a sender that is connected to a channel has to do. -/
def SConnected (c : MsgQ.Channel) : SCall → Out
  | .init _ _ _ => .returned 0 []
  | .send false _ _ => .returned 22 []
  | .send true size q =>
    if c.messageSize < size then .returned 90 []
    else match q with
      | .noBuffer => .returned 12 []
      | .noRoom => .returned 70 []
      | .put => .returned 0 c.funcs

/-- What a call with a sender that is not connected has to do. -/
def SLoose (o : SCall) (r : Out) : Prop :=
  match o with
  | .init heap t id =>
    (∀ c, Registered t id .sender c → r = .returned (if heap then 0 else 12) []) ∧
    ((∀ c, ¬ Registered t id .sender c) → r = .returned 22 [])
  | .send _ _ _ => r = .returned 22 []

/-- What a call with a receiver that is connected to a channel has to do; a message is not longer than the channel allows. -/
def RConnected (c : MsgQ.Channel) (o : RCall) (r : Out) : Prop :=
  match o with
  | .init _ _ => r = .returned 0 []
  | .poll answer => ∃ p w, c.funcs = [p, w] ∧ r = .returned (answer p) [p]
  | .wait => ∃ p w, c.funcs = [p, w] ∧ r = .returned 0 [w]
  | .get false _ _ => r = .returned 22 []
  | .get true size message =>
    (size < c.messageSize → r = .returned 90 []) ∧
    (c.messageSize ≤ size → (message = none → r = .returned 42 []) ∧ ∀ k, message = some k → k ≤ c.messageSize → r = .returned 0 [])

/-- What a call with a receiver that is not connected has to do. -/
def RLoose (o : RCall) (r : Out) : Prop :=
  match o with
  | .init t id =>
    (∀ c, Registered t id .receiver c → r = .returned 0 []) ∧ ((∀ c, ¬ Registered t id .receiver c) → r = .returned 22 [])
  | _ => r = .returned 22 []

end Verif.QueueEnds
