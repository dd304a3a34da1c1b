import Verif.DmaMap.Model

/-!
# Specification: what is behind a virtual address

The linker gives each symbol its own aligned range of addresses; the loader maps the frames of a symbol one after
the other; each frame object has a physical address.
-/

namespace Verif.DmaMap

/-- The frame object and the offset in it that are behind address `v` of a symbol. -/
def Behind (b : Backing) (v f off : Nat) : Prop :=
  b.base ≤ v ∧ v < b.base + b.bytes ∧ b.frames[(v - b.base) / b.frameSize]? = some f ∧ off = (v - b.base) % b.frameSize

/-- An address of a symbol. -/
def Inside (b : Backing) (v : Nat) : Prop := b.base ≤ v ∧ v < b.base + b.bytes

/-- What the linker does: symbols are aligned as they ask for, do not start at zero, and have no byte in common. -/
structure Linked (ms : List Made) : Prop where
  aligned : ∀ m ∈ ms, m.backing.frameSize ∣ m.backing.base
  positive : ∀ m ∈ ms, 0 < m.backing.base
  apart : ms.Pairwise fun m n => ∀ v, ¬ (Inside m.backing v ∧ Inside n.backing v)

/-- A pool that a template made, for a component or for an end of a connection. The page sizes of the architecture
are powers of two. -/
inductive Template (slot : Nat → Nat) : Made → Prop
  | component (ps : List Nat) (large : Bool) (s s' : Verif.Context.St) (inst : Verif.Context.Text) (set : Settings)
      (base : Nat) (m : Made) :
      (∀ p ∈ ps, ∃ k, p = 2 ^ k) → componentPool ps large s inst set slot base = .ok (s', m) → Template slot m
  | connection (ps : List Nat) (s s' : Verif.Context.St) (conn : Verif.Context.Text) (set : Settings) (base : Nat)
      (m : Made) :
      connectionPool ps s conn set slot base = .ok (s', m) → Template slot m

/-- Histories: the generated pools, then any number of calls that look up or store physical addresses. -/
inductive Run (kernel : Nat → Option Nat) (ms : List Made) : List PoolD → Prop
  | start : Run kernel ms (ms.map (·.pool))
  | paddr (w : List PoolD) (ptr : Nat) : Run kernel ms w → Run kernel ms (getPaddr kernel w ptr).1
  | init (w w' : List PoolD) (page n base : Nat) : Run kernel ms w → initPages kernel page n base w = some w' → Run kernel ms w'

/-- The kernel tells the address of each frame: of frame object `f`, whose capability is in `slot f`, it is `phys f`. -/
def Tells (kernel : Nat → Option Nat) (slot : Nat → Nat) (phys : Nat → Nat) (ms : List Made) : Prop :=
  ∀ m ∈ ms, ∀ f ∈ m.backing.frames, kernel (slot f) = some (phys f)

/-- The memory that system calls maintain: bytes of a frame object. -/
def Maintains (slot : Nat → Nat) (calls : List Call) (op : Op) (f off : Nat) : Prop :=
  ∃ c ∈ calls, c.op = op ∧ c.cap = slot f ∧ c.start ≤ off ∧ off < c.stop

end Verif.DmaMap
