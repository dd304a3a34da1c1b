import Verif.Flush.Model

/-!
# Specification: cache maintenance of device memory (C69)
-/

namespace Verif.Flush

/-- The byte `o` of a dataport is in the frame with this capability, between these two offsets inclusive. -/
def KCall.Names (k : KCall) (caps : List Nat) (ps o : Nat) : Prop :=
  caps[o / ps]? = some k.cap ∧ k.start ≤ o % ps ∧ o % ps ≤ k.stop

/-- What the kernel does: the second offset is the one *after* the last byte, there must be at least one byte, and the
range must be in the frame. -/
structure Contract (kernel : KCall → Int) (ps : Nat) : Prop where
  ok : ∀ k, k.start < k.stop → k.stop ≤ ps → kernel k = 0
  refused : ∀ k, k.stop ≤ k.start → kernel k ≠ 0

/-- The cache works on lines of `line` bytes. The byte `o` of a dataport is in a line that a call works on. -/
def KCall.Works (k : KCall) (caps : List Nat) (ps line o : Nat) : Prop :=
  caps[o / ps]? = some k.cap ∧ k.start < k.stop ∧ k.start / line ≤ o % ps / line ∧ o % ps / line ≤ (k.stop - 1) / line

/-- A dataport among the frames: its entries are one after the other, nothing before has its address, its frames have
different capabilities. -/
structure Placed (frames : List Frame) (base ps : Nat) (caps : List Nat) : Prop where
  page : 0 < ps
  some_frame : caps ≠ []
  distinct : caps.Nodup
  place : ∃ before paddr after, frames = before ++ region paddr base ps caps ++ after ∧ ∀ f ∈ before, f.vaddr ≠ base

end Verif.Flush
