import Verif.Dma.Model

/-!
# Model: the statistics of the DMA allocator (C90)

The parts of libsel4camkes/src/dma.c that are in `STATS(...)`, which exist without `NDEBUG`: in `free_region`
(432-440), `camkes_dma_init` (487-490), `defrag` (314, 347, 374), `camkes_dma_alloc` (719-741, 746, 788, 793-803) and
`camkes_dma_stats` (272-280). The allocator is the one of `Verif.Dma`; here the same functions are written with
the statistics, and `Props` shows that they compute the same.

Simplifications: counters do not wrap, except the difference in the low water mark, which does; an alignment fits
into an `int`.
-/

namespace Verif.DmaStats

open Verif.Dma

/-- `camkes_dma_stats_t`, libsel4camkes/include/camkes/dma.h, with `total_allocation_bytes` (dma.c:270) in place of the
average. All are zero at first. -/
structure Stats where
  heap : Nat := 0
  minHeap : Nat := 0
  outstanding : Nat := 0
  defrags : Nat := 0
  coalesces : Nat := 0
  total : Nat := 0
  succDefrag : Nat := 0
  failEmpty : Nat := 0
  failOther : Nat := 0
  minAlloc : Nat := 0
  maxAlloc : Nat := 0
  maxAlign : Nat := 0
  minAlign : Nat := 0
  totalBytes : Nat := 0
  deriving DecidableEq, Repr

/-- `SIZE_MAX + 1` of a 64-bit machine. -/
def word : Nat := 18446744073709551616

/-- A difference of two `size_t`. -/
def subWord (a b : Nat) : Nat := if b ≤ a then a - b else a + word - b

/-- The statistics in `free_region`, dma.c:432-440; the size has been rounded (417-426). -/
def onFree (s : Stats) (size : Nat) : Stats :=
  { s with outstanding := if size ≥ s.outstanding then 0 else s.outstanding - size }

/-- `camkes_dma_free`, dma.c:809-832. -/
def statFree (e : Env) (free : List Region) (s : Stats) (ptr size : Nat) : List Region × Stats :=
  if ptr = 0 then (free, s)
  else match e.frame ptr with
    | none => (free, s)
    | some cached => (freeRegion e free ptr size cached, onFree s (roundSize e size))

/-- The loop of `camkes_dma_init` over the pages, dma.c:495-512. -/
def statPages (e : Env) (page : Nat) (cached : Bool) : Nat → Nat → List Region → Stats → List Region × Stats
  | 0, _, free, s => (free, s)
  | n + 1, base, free, s => statPages e page cached n (base + page) (freeRegion e free base page cached) (onFree s (roundSize e page))

/-- `camkes_dma_init` with a page size, dma.c:452-512; `INT_MAX` and `SIZE_MAX` are the first minima. -/
def statInit (e : Env) (free : List Region) (s : Stats) (pool size page : Nat) (cached : Bool) : Option (List Region × Stats) :=
  if page ≤ e.R ∨ pool % page ≠ 0 then none
  else if pool = 0 ∨ pool % e.A ≠ 0 then none
  else if isPow2 page = false ∨ page < e.A then none
  else
    let s := { s with heap := size, minHeap := size, minAlloc := word - 1, minAlign := 2147483647 }
    some (statPages e page cached ((size + page - 1) / page) pool free s)

/-- `defrag`, dma.c:307-386, with the number of coalescing operations; see `Verif.Dma.defragLoop`. -/
def statLoop (e : Env) : Nat → List Region → List Region → Bool → Nat → Option (List Region × Nat)
  | _, before, [], _, n => some (before, n)
  | 0, _, _ :: _, _, _ => none
  | fuel + 1, before, p :: rest, stale, n =>
    match findPartner e p before with
    | none => statLoop e fuel (before ++ [p]) rest false n
    | some (a, q, b, true) =>
      let q' := grow q p.size
      let rest' := if stale then p :: rest else rest
      match a with
      | [] => statLoop e fuel [q'] (b ++ rest') false (n + 1)
      | _ :: _ => statLoop e fuel a (q' :: b ++ rest') false (n + 1)
    | some (a, q, b, false) =>
      statLoop e fuel (a ++ b) (grow p q.size :: rest) (stale || b.isEmpty) (n + 1)

/-- `defrag` with its statistics. -/
def statDefrag (e : Env) (free : List Region) (s : Stats) : Option (List Region × Stats) :=
  match statLoop e ((2 * free.length + 1) * (free.length + 1) + free.length + 1) [] free false s.coalesces with
  | none => none
  | some (out, n) => some (out, { s with defrags := s.defrags + 1, coalesces := n })

/-- The statistics at the start of `camkes_dma_alloc`, dma.c:719-739. -/
def onRequest (s : Stats) (size align : Nat) : Stats :=
  { s with
    total := s.total + 1
    minAlloc := if size < s.minAlloc then size else s.minAlloc
    maxAlloc := if size > s.maxAlloc then size else s.maxAlloc
    minAlign := if align < s.minAlign then align else s.minAlign
    maxAlign := if align > s.maxAlign then align else s.maxAlign
    totalBytes := s.totalBytes + size }

/-- The statistics at the end of a successful `camkes_dma_alloc`, dma.c:795-803. -/
def onSuccess (s : Stats) (size : Nat) : Stats :=
  { s with
    outstanding := s.outstanding + size
    minHeap := if subWord s.heap (s.outstanding + size) < s.minHeap then subWord s.heap (s.outstanding + size) else s.minHeap }

/-- `camkes_dma_alloc`, dma.c:714-807. -/
def statAlloc (e : Env) (junk : Nat → Bool) (free : List Region) (s : Stats) (size align : Nat) (cached : Bool) :
    Option Nat × List Region × Stats :=
  let s := onRequest s size align
  if free = [] then (none, free, { s with failEmpty := s.failEmpty + 1 })
  else
    let align := roundAlign e align
    let size := roundSize e size
    match allocFrom e junk free size align cached with
    | some (q, free') => (some q, free', onSuccess s size)
    | none =>
      if size > e.R then
        match statDefrag e free s with
        | none => (none, free, s)
        | some (free', s) =>
          match allocFrom e junk free' size align cached with
          | some (q, free'') => (some q, free'', onSuccess { s with succDefrag := s.succDefrag + 1 } size)
          | none => (none, free', { s with failOther := s.failOther + 1 })
      else (none, free, { s with failOther := s.failOther + 1 })

/-- `average_allocation`, dma.c:272-280. -/
def average (s : Stats) : Nat := if s.total > 0 then s.totalBytes / s.total else 0

end Verif.DmaStats
