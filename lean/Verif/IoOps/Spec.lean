import Verif.IoOps.Model

/-!
# What users of the I/O operations rely on
-/

namespace Verif.IoOps

/-- Every operation is there: memory, mapping, ports, DMA, device tree, interrupts, interfaces. -/
def Complete (o : Ops) : Prop :=
  o.malloc = .stdMalloc ∧ (o.mapFn = .plainMap ∨ o.mapFn = .trackedMap) ∧ o.unmapFn = .unmap ∧ o.portIn = .portIn ∧
    o.portOut = .portOut ∧ o.dmaAlloc = .dmaAlloc ∧ o.dmaFree = .dmaFree ∧ o.dmaPin = .dmaPin ∧ o.dmaUnpin = .dmaUnpin ∧
    o.dmaCacheOp = .dmaCacheOp ∧ o.fdtGet = .fdtGet ∧ o.irqCookie ≠ 0 ∧ o.irqRegister = .irqRegister ∧
    o.irqUnregister = .irqUnregister ∧ o.ifRegister = .ifRegister ∧ o.ifUnregister = .ifUnregister ∧ o.ifFind = .ifFind

/-- How many mappings of an address through a structure are still to be unmapped after a history, the last event first. Setting
the structure up begins anew, and an answer 0 means that nothing was mapped. -/
def owed (at_ p : Nat) : List Ev → Nat
  | [] => 0
  | .setup a :: h => if a = at_ then 0 else owed at_ p h
  | .map a q :: h => if a = at_ ∧ q = p ∧ q ≠ 0 then owed at_ p h + 1 else owed at_ p h
  | .unmap a q :: h => if a = at_ ∧ q = p then owed at_ p h - 1 else owed at_ p h

/-- The history uses only structures that were set up before. -/
def UsesSetUp : List Ev → Prop
  | [] => True
  | .setup a :: h => a ≠ 0 ∧ UsesSetUp h
  | .map a _ :: h => Ev.setup a ∈ h ∧ UsesSetUp h
  | .unmap a _ :: h => Ev.setup a ∈ h ∧ UsesSetUp h

/-- There is always memory. -/
def Plenty (e : Env) : Prop := e.stdErr = 0 ∧ ∀ n, e.memory n = true

end Verif.IoOps
