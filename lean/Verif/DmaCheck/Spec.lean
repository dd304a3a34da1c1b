import Verif.DmaCheck.Model
import Mathlib.Data.List.Nodup

/-! # What the check of the free list is for -/

namespace Verif.DmaCheck

/-- `l` is the list that starts at `head`: each node's `next` is the following one and the last one's
is NULL. -/
def Linked (next : Nat → Nat) : Nat → List Nat → Prop
  | head, [] => head = 0
  | head, a :: l => head = a ∧ a ≠ 0 ∧ Linked next (next a) l

/-- What holds of the machine: addresses are at most `UINTPTR_MAX`, a node has a positive size, a
virtual and its physical address have the same offset in a 4 KiB page, and what a node records is
the upper part of its physical address. -/
structure Machine (m : Mem) : Prop where
  next_le : ∀ a, m.next a ≤ m.umax
  node_pos : 0 < m.node
  lookup_le : ∀ a, a ≤ m.umax → m.lookup a ≤ m.umax
  page : ∀ a, m.lookup a % 4096 = a % 4096
  recorded : ∀ a, m.pu a = 0 ∨ m.pu a = m.lookup a / 4096

/-- No byte is in both intervals. -/
def Apart (a n b k : Nat) : Prop := ∀ x, ¬ ((a ≤ x ∧ x < a + n) ∧ (b ≤ x ∧ x < b + k))

/-- A sound region: physical frame 0 is not in use, it can hold a node, and the addresses just after
it, virtual and physical, exist. -/
structure Sound (m : Mem) (r : Nat) : Prop where
  frame : 4096 ≤ m.lookup r
  holds : m.node ≤ m.size r
  virt : r + m.size r ≤ m.umax
  phys : m.lookup r + m.size r ≤ m.umax

/-- Two regions share memory neither by virtual nor by physical address. -/
def Separate (m : Mem) (r p : Nat) : Prop :=
  Apart r (m.size r) p (m.size p) ∧ Apart (m.lookup r) (m.size r) (m.lookup p) (m.size p)

/-- A sound free list: it comes to an end, its regions are sound, and any two are separate. -/
def SoundList (m : Mem) (head : Nat) : Prop :=
  ∃ l, Linked m.next head l ∧ (∀ r ∈ l, Sound m r) ∧ l.Pairwise (Separate m)

/-- The defect that each assertion reports. -/
def Defect (m : Mem) (head : Nat) : Why → Prop
  | .cycle => ∀ l, ¬ Linked m.next head l
  | .unknown => ∃ l, Linked m.next head l ∧ ∃ r ∈ l, m.lookup r < 4096
  | .empty => ∃ l, Linked m.next head l ∧ ∃ r ∈ l, m.size r = 0
  | .small => ∃ l, Linked m.next head l ∧ ∃ r ∈ l, 0 < m.size r ∧ m.size r < m.node
  | .virtOver => ∃ l, Linked m.next head l ∧ ∃ r ∈ l, m.umax < r + m.size r
  | .physOver => ∃ l, Linked m.next head l ∧ ∃ r ∈ l, m.umax < m.lookup r + m.size r
  | .virtOverlap => ∃ l, Linked m.next head l ∧ ∃ r ∈ l, ∃ p ∈ l, r ≠ p ∧ ¬ Apart r (m.size r) p (m.size p)
  | .physOverlap => ∃ l, Linked m.next head l ∧ ∃ r ∈ l, ∃ p ∈ l, r ≠ p ∧
      ¬ Apart (m.lookup r) (m.size r) (m.lookup p) (m.size p)

/-- The check, with as many rounds as it needs, ends in this way. -/
def Ends (m : Mem) (head : Nat) (x : Res) : Prop := ∃ n, ∀ k, n ≤ k → check m k head = x

end Verif.DmaCheck
