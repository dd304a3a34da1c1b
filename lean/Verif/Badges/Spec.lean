import Verif.Badges.Model

namespace Verif.Badges.Spec

/-- The word received when several notifications with these badges have been signalled. -/
def received (badges : List Nat) : Nat := badges.foldl (· ||| ·) 0

/-- The badge is one bit of the mask, below the badge width, combined with the base. -/
def IsBitBadge (bb mask base b : Nat) : Prop := ∃ k < bb, mask.testBit k = true ∧ b = 2 ^ k ||| base

/-- The number has only bits of the mask. -/
def Within (mask b : Nat) : Prop := ∀ i, b.testBit i = true → mask.testBit i = true

/-- The badge is a non-empty selection of bits of the mask, combined with the base. -/
def IsMaskBadge (bb mask base b : Nat) : Prop := ∃ s, 0 < s ∧ s < 2 ^ bb ∧ Within mask s ∧ b = s ||| base

/-- The end needs `n` badges: one if it uses the global endpoint of its instance, or one for each
of its interrupts. -/
def Wants (cfg : IrqCfg) (conns : List Conn) (e : End) (n : Nat) : Prop :=
  ∃ c ∈ conns, (c.fromGlobal = true ∧ e ∈ c.fromEnds ∧ n = 1) ∨ (c.toGlobal = true ∧ e ∈ c.toEnds ∧ n = 1) ∨
    (c.threadless = true ∧ e ∈ c.toEnds ∧ cfg.generate e = true ∧ cfg.irqs e = .ok n)

/-- The number of interrupts of an end. -/
def irqCount (cfg : IrqCfg) (e : End) : Nat := match cfg.irqs e with
  | .ok n => n
  | .error _ => 0

/-- The number of badges needed for the global endpoint of an instance. -/
def demand (cfg : IrqCfg) (conns : List Conn) (inst : Nat) : Nat :=
  (conns.map (fun c =>
    (if c.threadless && c.toEnds.any (fun e => e.inst = inst) then ((c.toEnds.filter cfg.generate).map (irqCount cfg)).sum else 0) +
    (if c.fromGlobal then c.fromEnds.countP (fun e => e.inst = inst) else 0) +
    (if c.toGlobal then c.toEnds.countP (fun e => e.inst = inst) else 0))).sum

/-- The end needs `n` badges for its clients: one for each end at the other side. -/
def RpcWants (conns : List RpcConn) (e : End) (n : Nat) : Prop :=
  ∃ c ∈ conns, (c.fromGlobal = true ∧ e ∈ c.fromEnds ∧ n = c.toEnds.length) ∨
    (c.toGlobal = true ∧ e ∈ c.toEnds ∧ n = c.fromEnds.length)

/-- The number of badges needed for the clients of the global RPC endpoint of an instance. -/
def rpcDemand (conns : List RpcConn) (inst : Nat) : Nat :=
  (conns.map (fun c =>
    (if c.fromGlobal then c.fromEnds.countP (fun e => e.inst = inst) * c.toEnds.length else 0) +
    (if c.toGlobal then c.toEnds.countP (fun e => e.inst = inst) * c.fromEnds.length else 0))).sum

end Verif.Badges.Spec
