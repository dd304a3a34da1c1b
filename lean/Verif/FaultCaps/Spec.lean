import Verif.FaultCaps.Model

/-!
# Specification: where the faults of threads go (C127)

What the kernel does with a fault: it sends a message through the capability in the slot that the TCB names, in the
capability space of the thread; the capability must allow to send and to grant a reply. The receiver sees the badge.
-/

namespace Verif.FaultCaps
open Verif.Context

/-- A fault of a thread whose TCB is `o` and whose capabilities are those of `space` reaches the endpoint `ep` with this
badge. -/
def Reaches (s : St) (space o ep badge : Nat) : Prop :=
  ∃ f r, s.fault o = some f ∧ (s.core.cnodes space)[f]? = some (some ⟨ep, r⟩) ∧ r.write = true ∧
    (r.grant = true ∨ r.grantreply = true) ∧ s.badge space f = some badge

/-- A component can receive from an endpoint through a slot. -/
def Receives (s : St) (space slot ep : Nat) : Prop :=
  ∃ r, (s.core.cnodes space)[slot]? = some (some ⟨ep, r⟩) ∧ r.read = true

/-- A slot holds a capability to an object. -/
def HasCap (s : St) (space slot o : Nat) : Prop := ∃ r, (s.core.cnodes space)[slot]? = some (some ⟨o, r⟩)

/-- An object has a name. -/
def Named (s : St) (o : Nat) (name : Text) : Prop := (name, o) ∈ s.core.objects

/-- What is true of all states of the allocators: a slot belongs to one capability name, and an object to one name. -/
structure Sound (s : Context.St) : Prop where
  bound : ∀ sp l k slot, s.capStore sp l k = some slot → slot < (s.cnodes sp).length
  inj : ∀ sp l k l' k' slot, s.capStore sp l k = some slot → s.capStore sp l' k' = some slot → l = l' ∧ k = k'
  below : ∀ p ∈ s.objects, p.2 < s.nextObj
  names : (s.objects.map (·.1)).Nodup
  objs : (s.objects.map (·.2)).Nodup
  store : ∀ l k o, s.objStore l k = some o → ∃ n, k = n ++ ['_', 'o', 'b', 'j'] ∧ (n, o) ∈ s.objects
  caps : ∀ (sp i : Nat) c, (s.cnodes sp)[i]? = some (some c) → ∃ n, (n, c.obj) ∈ s.objects

/-- The names that the threads of a component need are not in use. -/
def Fresh (s : Context.St) (space : Nat) (inst : Text) (names : List Text) : Prop :=
  (∀ n ∈ names, s.capStore space inst (capKey (n ++ tTcb)) = none ∧ s.capStore space inst (capKey (tFaultEp_ ++ n)) = none) ∧
  s.capStore space inst (capKey tHandler) = none

/-- The connection to the debugger has no capability for a thread of this space yet. -/
def Unconnected (s : Context.St) (space : Nat) (conn : Text) : Prop :=
  ∀ n, s.capStore space conn (capKey (n ++ t_FaultEp)) = none

/-- Thread names end as those that the tool makes: with a digit, `control` or `fault_handler`; here, not with `b`. -/
def Plain (n : Text) : Prop := ∃ a c, n = a ++ [c] ∧ c ≠ 'b'

end Verif.FaultCaps
