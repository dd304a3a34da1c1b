import Verif.Sockets.Model

/-!
# Specification: sockets of another component (C68)
-/

namespace Verif.Sockets

/-- The socket that a descriptor stands for according to the history (the last item first): that of the last
call that returned this descriptor, if it has not been closed since. -/
def holder (fd : Nat) : List Item → Option Int
  | [] => none
  | ⟨.socket s, _, .ret r⟩ :: rest => if r = fd then some s else holder fd rest
  | ⟨.accept _ s, _, .ret r⟩ :: rest => if s ≠ -1 ∧ r = fd then some s else holder fd rest
  | ⟨.close f, _, _⟩ :: rest => if f = fd then none else holder fd rest
  | ⟨.openFile, _, .ret r⟩ :: rest => if r = fd then none else holder fd rest
  | _ :: rest => holder fd rest

/-- The call is about an existing descriptor. -/
def Call.fd : Call → Option Nat
  | .accept fd _ | .close fd | .listen fd _ _ | .send _ fd _ _ | .write fd _ _ | .read fd _ _ _ => some fd
  | .socket _ | .openFile => none

/-- `allocate_fd` returns a descriptor that is not in use, if there is one. -/
def Env.Fresh (e : Env) : Prop := ∀ t : Table, (∃ n, t n = none) → t (e.fresh t) = none

end Verif.Sockets
