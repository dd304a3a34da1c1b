import Verif.DmaPtr.Model
import Verif.Dma.Spec

/-!
# Specification: histories of the DMA allocator, with the memory

Blocks, what they have in common (`Apart`), contiguity and the rounded blocks of live allocations are those of `Verif.Dma.Spec`.
-/

namespace Verif.DmaPtr

open Verif.Dma (Env count Contiguous liveBlocks)

/-- What the compiler ensures: the fields of a node are within it, and are different places. -/
structure LayOk (e : Env) (l : Lay) : Prop where
  c_lt : l.c < e.R
  s_lt : l.s < e.R
  n_lt : l.n < e.R
  p_lt : l.p < e.R
  cs : l.c ≠ l.s
  cn : l.c ≠ l.n
  cp : l.c ≠ l.p
  sn : l.s ≠ l.n
  sp : l.s ≠ l.p
  np : l.n ≠ l.p

/-- A history: the memory, what was given to the allocator, and what is live. -/
structure PState where
  mem : Mem
  given : List (Nat × Nat)
  live : List (Nat × Nat)

/-- Histories. The memory contains anything at first. The user gives memory that was not given before, in physically contiguous pages that
are not in the first page of physical memory; asks for memory, with an alignment that is zero or a power of two; frees what is live, with
the size that was requested; and writes to live allocations, and to all other memory that was not given to the allocator. -/
inductive PReach (e : Env) (l : Lay) : PState → Prop
  | start (m : Mem) : m.head = 0 → PReach e l ⟨m, [], []⟩
  | init (s : PState) (pool n page : Nat) (cached : Bool) (m : Mem) :
      PReach e l s → page ≠ 0 → dmaInit e l s.mem pool (n * page) page cached = some (0, m) →
      (∀ x, pool ≤ x → x < pool + n * page → count x s.given = 0) →
      (∀ i < n, Contiguous e (pool + i * page) page) →
      (∀ x, pool ≤ x → x < pool + n * page → e.frame x = some cached) →
      (∀ x, pool ≤ x → x < pool + n * page → 4096 ≤ e.paddr x) →
      PReach e l ⟨m, (pool, n * page) :: s.given, s.live⟩
  | alloc (s : PState) (fuel size align : Nat) (cached : Bool) (res : Option Nat) (m : Mem) :
      PReach e l s → (align = 0 ∨ ∃ k, align = 2 ^ k) → dmaAlloc e l fuel s.mem size align cached = some (res, m) →
      PReach e l ⟨m, s.given, match res with
        | some q => (q, size) :: s.live
        | none => s.live⟩
  | free (s : PState) (before after : List (Nat × Nat)) (ptr size : Nat) (m : Mem) :
      PReach e l s → s.live = before ++ (ptr, size) :: after → dmaFree e l s.mem ptr size = some m →
      PReach e l ⟨m, s.given, before ++ after⟩
  | write (s : PState) (a v : Nat) :
      PReach e l s → (count a (liveBlocks e s.live) ≠ 0 ∨ count a s.given = 0) →
      PReach e l ⟨s.mem.set a v, s.given, s.live⟩

/-- Following the pointers of the list from `p` to its end: the blocks; `none` if the end is not reached within the bound. -/
def walk (l : Lay) (m : Mem) : Nat → Nat → Option (List (Nat × Nat))
  | 0, _ => none
  | fuel + 1, p => if p = 0 then some [] else (walk l m fuel (next l m p)).map ((p, size l m p) :: ·)

end Verif.DmaPtr
