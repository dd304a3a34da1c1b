import Verif.DmaStats.Model
import Verif.Dma.Spec

/-!
# Specification: what happened to a DMA allocator

A history records the requests, as they were made, and the memory that is live.
-/

namespace Verif.DmaStats

open Verif.Dma

/-- A request: its size and alignment, whether it was granted, how many bytes were free before, whether it had to be
tried again after defragmentation, and by how many regions the free list became shorter then. -/
structure Request where
  size : Nat
  align : Nat
  granted : Bool
  available : Nat
  retried : Bool
  merged : Nat
  deriving DecidableEq, Repr

/-- The bytes of blocks. -/
def bytes (l : List (Nat × Nat)) : Nat := (l.map (·.2)).sum

/-- The bytes that are live: requests, rounded to what the allocator uses for them. -/
def liveBytes (e : Env) (s : State) : Nat := bytes (liveBlocks e s.live)

/-- The bytes that are free. -/
def freeBytes (s : State) : Nat := bytes (freeBlocks s.free)

/-- What is recorded about a request. A request that cannot be met from the free regions as they are is tried again if
it is larger than a node. -/
def record (e : Env) (junk : Nat → Bool) (s : State) (size align : Nat) (cached : Bool) : Request where
  size := size
  align := align
  granted := (dmaAlloc e junk s.free size align cached).1.isSome
  available := freeBytes s
  retried := decide (s.free ≠ [] ∧ allocFrom e junk s.free (roundSize e size) (roundAlign e align) cached = none ∧ e.R < roundSize e size)
  merged := s.free.length - ((defrag e s.free).getD []).length

/-- Histories of an allocator with one pool of `n` pages; `low` is the smallest number of free bytes that there ever
was, `reqs` are the requests, the last one first. -/
inductive Hist (e : Env) (pool n page : Nat) (cached : Bool) : State → Stats → List Request → Nat → Prop
  | init (free : List Region) (st : Stats) :
      0 < page → statInit e [] {} pool (n * page) page cached = some (free, st) →
      (∀ i < n, Contiguous e (pool + i * page) page) →
      (∀ x, pool ≤ x → x < pool + n * page → e.frame x = some cached) →
      Hist e pool n page cached ⟨free, [(pool, n * page)], []⟩ st [] (n * page)
  | alloc (s : State) (st : Stats) (reqs : List Request) (low : Nat) (junk : Nat → Bool) (size align : Nat) (c : Bool)
      (res : Option Nat) (free : List Region) (st' : Stats) :
      Hist e pool n page cached s st reqs low → (align = 0 ∨ ∃ k, align = 2 ^ k) →
      statAlloc e junk s.free st size align c = (res, free, st') →
      Hist e pool n page cached
        ⟨free, s.given, match res with | some q => (q, size) :: s.live | none => s.live⟩ st'
        (record e junk s size align c :: reqs)
        (min low (freeBytes ⟨free, s.given, match res with | some q => (q, size) :: s.live | none => s.live⟩))
  | free (s : State) (st : Stats) (reqs : List Request) (low : Nat) (before after : List (Nat × Nat)) (ptr size : Nat)
      (free : List Region) (st' : Stats) :
      Hist e pool n page cached s st reqs low → s.live = before ++ (ptr, size) :: after →
      statFree e s.free st ptr size = (free, st') →
      Hist e pool n page cached ⟨free, s.given, before ++ after⟩ st' reqs (min low (freeBytes ⟨free, s.given, before ++ after⟩))

/-- What the statistics should be. -/
structure Accurate (e : Env) (size : Nat) (s : State) (st : Stats) (reqs : List Request) (low : Nat) : Prop where
  heap : st.heap = size
  low : st.minHeap = low
  outstanding : st.outstanding = liveBytes e s
  available : st.heap - st.outstanding = freeBytes s
  total : st.total = reqs.length
  exhausted : st.failEmpty = (reqs.filter fun r => !r.granted && r.available == 0).length
  other : st.failOther = (reqs.filter fun r => !r.granted && r.available != 0).length
  defragmented : st.defrags = (reqs.filter (·.retried)).length
  helped : st.succDefrag = (reqs.filter fun r => r.retried && r.granted).length
  coalesced : st.coalesces = ((reqs.filter (·.retried)).map (·.merged)).sum
  average : average st = (reqs.map (·.size)).sum / reqs.length
  largest : (∀ r ∈ reqs, r.size ≤ st.maxAlloc ∧ r.align ≤ st.maxAlign) ∧
    (reqs ≠ [] → (∃ r ∈ reqs, r.size = st.maxAlloc) ∧ ∃ r ∈ reqs, r.align = st.maxAlign)
  smallest : (∀ r ∈ reqs, st.minAlloc ≤ r.size ∧ st.minAlign ≤ r.align) ∧
    (reqs ≠ [] → (∀ r ∈ reqs, r.size < word ∧ r.align ≤ 2147483647) → (∃ r ∈ reqs, r.size = st.minAlloc) ∧ ∃ r ∈ reqs, r.align = st.minAlign)

end Verif.DmaStats
