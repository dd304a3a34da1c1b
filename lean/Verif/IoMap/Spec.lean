import Verif.IoMap.Model

/-!
# Specification: mapped memory (C50)
-/

namespace Verif.IoMap

/-- A physical address is mapped at a virtual address by a frame of the table. -/
def Backed (frames : List Frame) (paddr vaddr : Nat) : Prop :=
  ∃ f ∈ frames, f.paddr ≤ paddr ∧ paddr < f.paddr + f.size ∧ vaddr = f.vaddr + (paddr - f.paddr)

/-- A range of physical memory can be accessed at a virtual address. -/
def Mapped (frames : List Frame) (paddr size vaddr : Nat) : Prop :=
  ∀ i < size, Backed frames (paddr + i) (vaddr + i)

/-- Frames that follow each other in physical memory. -/
def Consecutive : List Frame → Prop
  | f :: g :: fs => g.paddr = f.paddr + f.size ∧ Consecutive (g :: fs)
  | _ => True

/-- Neighbours in the table that follow each other in physical memory also follow each other in virtual
memory. -/
def VirtualFollows : List Frame → Prop
  | f :: g :: fs => (g.paddr = f.paddr + f.size → g.vaddr = f.vaddr + f.size) ∧ VirtualFollows (g :: fs)
  | _ => True

def Contains (f : Frame) (paddr : Nat) : Prop := f.paddr ≤ paddr ∧ paddr < f.paddr + f.size

/-- The end of the last frame. -/
def lastEnd : List Frame → Nat
  | [] => 0
  | [f] => f.paddr + f.size
  | _ :: fs => lastEnd fs

/-- How often a pointer has been returned by mappings that could be recorded and has not been given back. -/
def outstanding (p : Nat) : List Event → Nat
  | [] => 0
  | .mapped q memory :: es => outstanding p es + (if p ≠ 0 ∧ q = p ∧ memory = true then 1 else 0)
  | .unmapped q _ :: es => outstanding p es - (if q = p then 1 else 0)

end Verif.IoMap
