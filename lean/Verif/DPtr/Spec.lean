import Verif.DPtr.Model

/-!
# Specification: component-independent pointers into dataports (C63)
-/

namespace Verif.DPtr

/-- The pointer is in the memory of the dataport. -/
def Port.Has (d : Port) (p : Nat) : Prop := d.linked = true ∧ d.base ≤ p ∧ p < d.base + d.size

/-- The pointer points to byte `off` of the memory of connection `id`. -/
def At (ds : List Port) (p : Nat) (id off : Nat) : Prop := ∃ d ∈ ds, d.Has p ∧ d.id = id ∧ p = d.base + off

/-- The dataports lie in the address space, not at `NULL`, and do not overlap. -/
structure Layout (e : Env) (ds : List Port) : Prop where
  inside : ∀ d ∈ ds, 0 < d.base ∧ d.base + d.size < e.W
  apart : ds.Pairwise fun a b => ∀ p, a.Has p → ¬ b.Has p

/-- No dataport compares signed numbers, or addresses are shorter than offsets. -/
def Exact (e : Env) (ds : List Port) : Prop := e.W ≤ e.half ∨ ∀ d ∈ ds, d.kind ≠ .mmioLiteral

/-- The failure value of `dataport_wrap_ptr`. -/
def failed : Ptr := ⟨-1, 0⟩

end Verif.DPtr
