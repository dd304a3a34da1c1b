import Verif.Dma.Model

/-!
# Specification: histories of a DMA allocator

What a user may do, and the bytes that blocks consist of.
-/

namespace Verif.Dma

/-- How many of the blocks (start, length) contain the byte `x`. -/
def count (x : Nat) : List (Nat × Nat) → Nat
  | [] => 0
  | b :: bs => (if b.1 ≤ x ∧ x < b.1 + b.2 then 1 else 0) + count x bs

/-- Two blocks have no byte in common. -/
def Apart (b c : Nat × Nat) : Prop := ∀ x, ¬ ((b.1 ≤ x ∧ x < b.1 + b.2) ∧ (c.1 ≤ x ∧ x < c.1 + c.2))

/-- A block is physically contiguous. -/
def Contiguous (e : Env) (start len : Nat) : Prop := ∀ k < len, e.paddr (start + k) = e.paddr start + k

/-- The blocks of a free list. -/
def freeBlocks (free : List Region) : List (Nat × Nat) := free.map (fun r => (r.vaddr, r.size))

/-- The state of a history: the free list of the allocator, the memory that was given to it, as
blocks, and the allocations that are live, as addresses and requested sizes. -/
structure State where
  free : List Region
  given : List (Nat × Nat)
  live : List (Nat × Nat)

/-- The blocks of the live allocations: what was requested, rounded. -/
def liveBlocks (e : Env) (live : List (Nat × Nat)) : List (Nat × Nat) := live.map (fun a => (a.1, roundSize e a.2))

/-- What holds of the compiler and of the machine: a node is a positive multiple of its
alignment, which is a power of two, and
virtual and physical addresses have the same offset in a 4 KiB page. -/
structure EnvOk (e : Env) : Prop where
  A_pow : ∃ m, e.A = 2 ^ m
  R_pos : 0 < e.R
  A_R : e.R % e.A = 0
  page : ∀ v, e.paddr v % 4096 = v % 4096

/-- Histories. The user gives memory that was not given before, in physically contiguous pages; asks
for memory with an alignment that is zero (none) or a power of two; and frees what is live, with the size that was
requested. `J` says which contents of unassigned memory are considered. -/
inductive Reachable (e : Env) (J : (Nat → Bool) → Prop) : State → Prop
  | start : Reachable e J ⟨[], [], []⟩
  | init (s : State) (pool n page : Nat) (cached : Bool) (free : List Region) :
      Reachable e J s → page ≠ 0 → dmaInit e s.free pool (n * page) page cached = some free →
      (∀ x, pool ≤ x → x < pool + n * page → count x s.given = 0) →
      (∀ i < n, Contiguous e (pool + i * page) page) →
      (∀ x, pool ≤ x → x < pool + n * page → e.frame x = some cached) →
      Reachable e J ⟨free, (pool, n * page) :: s.given, s.live⟩
  | alloc (s : State) (junk : Nat → Bool) (size align : Nat) (cached : Bool) :
      Reachable e J s → J junk → (align = 0 ∨ ∃ k, align = 2 ^ k) →
      Reachable e J
        ⟨(dmaAlloc e junk s.free size align cached).2, s.given,
          match (dmaAlloc e junk s.free size align cached).1 with
          | some q => (q, size) :: s.live
          | none => s.live⟩
  | free (s : State) (before after : List (Nat × Nat)) (ptr size : Nat) :
      Reachable e J s → s.live = before ++ (ptr, size) :: after →
      Reachable e J ⟨dmaFree e s.free ptr size, s.given, before ++ after⟩

end Verif.Dma
