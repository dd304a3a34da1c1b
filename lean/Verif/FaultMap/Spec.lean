import Verif.FaultMap.Model

/-!
# Specification: showing where a fault happened (C64)
-/

namespace Verif.FaultMap

/-- The address is in the region. -/
def Region.Has (r : Region) (a : Nat) : Prop := r.start ≤ a ∧ a ≤ r.last

instance (r : Region) (a : Nat) : Decidable (r.Has a) := by unfold Region.Has; infer_instance

/-- What is above a region: the address where it ends, after a note if there is a gap to the region above; nothing
if it touches the region above. -/
def above (r : Region) : Option Region → List Line
  | none => [.address r.last]
  | some u => if r.last + 1 = u.start then [] else [.undescribed, .address r.last]

/-- A picture of regions, the highest first; `up` is the region above. -/
def picture (addr : Nat) : Option Region → List Region → List Line
  | _, [] => []
  | up, r :: rs =>
    above r up ++ [.name r.name] ++ (if r.Has addr then [.fault addr] else []) ++ [.address r.start] ++ picture addr (some r) rs

/-- A description of an address space: no region is inverted, or reaches the last address, and it has no final
entry. -/
def Proper (W : Nat) (regs : List Region) : Prop := ∀ r ∈ regs, r.start ≤ r.last ∧ r.last < W - 1 ∧ ¬ (r.start = 0 ∧ r.last = 0)

end Verif.FaultMap
