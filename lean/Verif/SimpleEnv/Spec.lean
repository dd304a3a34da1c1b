import Verif.SimpleEnv.Model

/-!
# Specification (C138)
-/

namespace Verif.SimpleEnv

/-- The initial capabilities that the interface promises for a thread. -/
inductive Own (f : Conf) (t : Tls) : Init → Nat → Prop
  | cnode : Own f t .cnode f.cnode
  | pd : Own f t .pd f.pd
  | tcb : Own f t .tcb t.tcb
  | sc : f.realtime = true → Own f t .sc t.sc

/-- The answer is a capability that the component has. -/
def Gives (r : Res) (c : Nat) : Prop := r = .cap c

/-- The answer says that there is no such capability. -/
def Nothing (r : Res) : Prop := r = .cap 0 ∨ r = .died

end Verif.SimpleEnv
