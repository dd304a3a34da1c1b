import Verif.ClientLock.Model

/-!
# Specification: clients with a shared buffer (C58)
-/

namespace Verif.ClientLock

/-- The parameters of the call that a thread is in. -/
def pending (t : Nat) : List Event → Option Nat
  | [] => none
  | .called u v :: es => if u = t then some v else pending t es
  | .returned u _ :: es => if u = t then none else pending t es
  | .failed u :: es => if u = t then none else pending t es

/-- Every call that returned gave the answer to its own parameters. -/
def Right (f : Nat → Nat) : List Event → Prop
  | [] => True
  | .returned t r :: es => (∃ v, pending t es = some v ∧ r = f v) ∧ Right f es
  | _ :: es => Right f es

/-- A thread uses the buffer. -/
def Busy (st : St) (t : Nat) : Prop := st.pc t ≠ .idle

/-- Another call can be made: the lock is free, or some thread that uses the buffer will release it. -/
def Live (st : St) : Prop := 0 < st.sem ∨ ∃ t, Busy st t

end Verif.ClientLock
