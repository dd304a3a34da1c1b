import Verif.Process.Model

/-!
# Specification: what a program may expect of its process
-/

namespace Verif.Process

/-- Two pieces of memory of the same size that do not overlap. -/
def Apart (a b size : Nat) : Prop := a + size ≤ b ∨ b + size ≤ a

/-- What the toolchain guarantees: threads have TCBs of their own, the two variables are different variables of thread-local storage, arrays and
blocks of `malloc` are where nothing else is. -/
structure Sound (cfg : Cfg) : Prop where
  tcbs : ∀ (i j : Nat) (ti tj : Thread), cfg.threads[i]? = some ti → cfg.threads[j]? = some tj → ti.tcb = tj.tcb → i = j
  index : cfg.indexOff < cfg.size
  tcb : cfg.tcbOff < cfg.size
  differ : cfg.indexOff ≠ cfg.tcbOff
  array : cfg.staticBase ≠ 0
  arrayApart : cfg.initial + cfg.size ≤ cfg.staticBase ∨ cfg.staticBase + (cfg.threads.length - 1) * cfg.static_ ≤ cfg.initial
  blocks : ∀ i j, i < j → j < cfg.threads.length - 1 → cfg.malloc i ≠ 0 → cfg.malloc j ≠ 0 → Apart (cfg.malloc i) (cfg.malloc j) cfg.size
  blocksApart : ∀ i, i < cfg.threads.length - 1 → cfg.malloc i ≠ 0 → Apart cfg.initial (cfg.malloc i) cfg.size

/-- A state that the component can get into. -/
def Reachable (cfg : Cfg) (s : St) : Prop := ∃ es, s = run cfg (boot cfg) es

/-- The name of thread `j` of `n`. -/
def ThreadName (faults : Bool) (n j : Nat) (iface name : String) : Prop :=
  (j = 0 → name = "control") ∧ (j ≠ 0 → faults = true → j + 1 = n → name = "fault_handler") ∧
  (j ≠ 0 → (faults = false ∨ j + 1 ≠ n) → name = iface)

/-- What a thread knows of its printing: the bytes that were taken, and the answers. -/
inductive Seen
  | byte (b : Nat)
  | ret (n : Nat)
deriving DecidableEq

/-- The part of an event that thread `j` knows. A function for output takes an `int` as its lowest byte, as `putchar` of C does. -/
def seenBy (j : Nat) : Ev → Option Seen
  | .handler k _ c => if k = j then some (.byte (c % 256).toNat) else none
  | .debug k c => if k = j then some (.byte (c % 256).toNat) else none
  | .lost k c => if k = j then some (.byte (c % 256).toNat) else none
  | .ret k n => if k = j then some (.ret n) else none

/-- What is right for a thread that writes these buffers, one after the other. -/
def promised : List (List Nat) → List Seen
  | [] => []
  | b :: bs => b.map .byte ++ .ret b.length :: promised bs

/-- The buffers that thread `j` writes. -/
def writes (j : Nat) : List CStep → List (List Nat)
  | [] => []
  | .write k b :: es => if k = j then b :: writes j es else writes j es
  | .set _ :: es => writes j es
  | .go _ :: es => writes j es

/-- Thread `j` does not write while it writes. -/
def Sequential (printing signed : Bool) (j : Nat) : Con → List CStep → Prop
  | _, [] => True
  | s, e :: es => (∀ buf, e = .write j buf → s.calls j = none) ∧ Sequential printing signed j (conStep printing signed s e) es

/-- The buffers hold bytes. -/
def Bytes (es : List CStep) : Prop := ∀ j buf, CStep.write j buf ∈ es → ∀ b ∈ buf, b < 256

end Verif.Process
