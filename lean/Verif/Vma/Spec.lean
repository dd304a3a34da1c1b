import Verif.Vma.Model

/-!
# Specification: which memory is mapped (C66)
-/

namespace Verif.Vma

/-- The entry describes this address. -/
def Vma.Has (v : Vma) (a : Nat) : Prop := v.start ≤ a ∧ a < v.stop

/-- The entry describes memory that exists. -/
def Vma.Real (v : Vma) : Prop := v.read = true ∨ v.write = true ∨ v.execute = true

/-- The address is mapped. -/
def Mapped (vmas : List Vma) (a : Nat) : Prop := ∃ v ∈ vmas, v.Has a ∧ v.Real

/-- Every byte of the range is mapped. -/
def AllMapped (vmas : List Vma) (addr len : Nat) : Prop := ∀ a, addr ≤ a → a < addr + len → Mapped vmas a

/-- The entries are in the address space and do not contradict each other. -/
structure Proper (W : Nat) (vmas : List Vma) : Prop where
  inside : ∀ v ∈ vmas, v.stop < W
  agree : ∀ v ∈ vmas, ∀ w ∈ vmas, ∀ a, v.Has a → w.Has a → (v.Real ↔ w.Real)

/-- The memory that a component has: its sections up to the end of its data, its zeroed data, its DMA pool, the stacks
of its threads between their guards (the size asked for, rounded up to pages) and their IPC buffers. -/
def Has (p : Nat) (s : Sections) (ts : List Thread) (a : Nat) : Prop :=
  (s.executableStart ≤ a ∧ a < s.edata) ∨ (s.bssStart ≤ a ∧ a < s.fin) ∨ (s.dma ≤ a ∧ a < s.dma + s.dmaSize) ∨
  ∃ t ∈ ts, (t.stack + p ≤ a ∧ a < t.stack + p + (t.size + p - 1) / p * p) ∨ (t.ipc + p ≤ a ∧ a < t.ipc + p + p)

/-- The linker puts the sections in this order. -/
def Sections.Ordered (s : Sections) : Prop := s.executableStart ≤ s.etext ∧ s.etext ≤ s.preinitStart ∧ s.preinitStart ≤ s.edata

end Verif.Vma
