import Verif.Context.Model

/-!
# Specification for the template context

Which rights a history of requests has asked for, which object was asked for first, and which tags
are free of trailing digits.
-/

namespace Verif.Context

/-- A decimal digit. -/
def IsDigit (c : Char) : Prop := ∃ d < 10, c = Nat.digitChar d

/-- The tag of an Isabelle symbol does not end with a digit. -/
def PlainTag (t : Option Text) : Prop := ∀ l c, t = some (l ++ [c]) → ¬ IsDigit c

/-- The union of rights. -/
def Rights.union (a b : Rights) : Rights :=
  ⟨a.read || b.read, a.write || b.write, a.grant || b.grant, a.grantreply || b.grantreply⟩

/-- No rights. -/
def noRights : Rights := ⟨false, false, false, false⟩

/-- The rights of all requests for a capability name. -/
def wanted (space : Nat) (label name : Text) : List Req → Rights
  | [] => noRights
  | .cap s l n (some _) w :: rs => if s = space ∧ l = label ∧ n = name then w.union (wanted space label name rs) else wanted space label name rs
  | _ :: rs => wanted space label name rs

/-- The object of the first request for a capability name. -/
def firstObj (space : Nat) (label name : Text) : List Req → Option (Option Nat)
  | [] => none
  | .cap s l n o _ :: rs => if s = space ∧ l = label ∧ n = name then some o else firstObj space label name rs
  | _ :: rs => firstObj space label name rs

end Verif.Context
