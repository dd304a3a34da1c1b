/-! # The consistency check of the DMA free list

libsel4camkes/src/dma.c:194-259, compiled in with `DEBUG_DMA`. -/

namespace Verif.DmaCheck

/-- The memory the check reads. A node of the free list is at its own virtual address; `next`, `size`
and `pu` (the upper part of the physical address, zero if it has not been looked up) are its fields,
libsel4camkes/src/dma.c:56-83. `lookup` is `camkes_dma_get_paddr`, `node` is `sizeof(region_t)` and
`umax` is `UINTPTR_MAX`. NULL is 0. -/
structure Mem where
  umax : Nat
  node : Nat
  next : Nat → Nat
  size : Nat → Nat
  pu : Nat → Nat
  lookup : Nat → Nat

/-- The assertions, in the order of the code. `unknown` stands for those of `extract_paddr`,
libsel4camkes/src/dma.c:132 and 136, with which the one of line 222 coincides. -/
inductive Why
  | cycle | unknown | empty | small | virtOver | physOver | virtOverlap | physOverlap
  deriving DecidableEq, Repr

/-- How a loop ends: not within the steps considered, with every assertion true, or at the first
assertion that is false. -/
inductive Res
  | more | pass | fail (w : Why)
  deriving DecidableEq, Repr

/-- Arithmetic of `uintptr_t`. -/
def wrap (m : Mem) (n : Nat) : Nat := n % (m.umax + 1)

/-- `try_extract_paddr`, libsel4camkes/src/dma.c:93-103, with 4 KiB pages. -/
def tryPaddr (up r : Nat) : Nat := if up ≠ 0 then up * 4096 + r % 4096 else 0

/-- `extract_paddr`, libsel4camkes/src/dma.c:123-138; `none` if one of its assertions is false.
Simplification: what `save_paddr` (lines 85-91) stores in the node is used here but not kept; the
theorem `saving_changes_nothing` shows that keeping it makes no difference. -/
def extract (m : Mem) (r : Nat) : Option Nat :=
  let p := tryPaddr (m.pu r) r
  if p = 0 then
    let q := m.lookup r
    if q = 0 then none
    else
      let p' := tryPaddr (q / 4096) r
      if p' = 0 then none else some p'
  else some p

/-- The search for a cycle (Brent's algorithm), libsel4camkes/src/dma.c:207-216. Simplification:
`power` and `lambda` are unbounded; the program's are of type `int`. -/
def brent (m : Mem) : Nat → Nat → Nat → Nat → Nat → Res
  | 0, _, _, _, _ => .more
  | fuel + 1, tortoise, hare, power, lambda =>
    if hare = 0 then .pass
    else if tortoise = hare then .fail .cycle
    else if power = lambda then brent m fuel hare (m.next hare) (power * 2) (0 + 1)
    else brent m fuel tortoise (m.next hare) power (lambda + 1)

/-- The assertions on one region, libsel4camkes/src/dma.c:220-233. -/
def regionBad (m : Mem) (r : Nat) : Option Why :=
  match extract m r with
  | none => some .unknown
  | some p =>
    if ¬ 0 < m.size r then some .empty
    else if ¬ m.node ≤ m.size r then some .small
    else if ¬ m.size r ≤ m.umax - r then some .virtOver
    else if ¬ m.size r ≤ m.umax - p then some .physOver
    else none

/-- The loop over the regions, libsel4camkes/src/dma.c:219-234. -/
def regions (m : Mem) : Nat → Nat → Res
  | 0, _ => .more
  | fuel + 1, r =>
    if r = 0 then .pass
    else match regionBad m r with
      | some w => .fail w
      | none => regions m fuel (m.next r)

/-- One of the two starts lies in the other interval, libsel4camkes/src/dma.c:245-246 and 249-250. -/
def meets (m : Mem) (r rs p ps : Nat) : Bool :=
  (p ≤ r && r < wrap m (p + ps)) || (r ≤ p && p < wrap m (r + rs))

/-- The assertions on a pair of regions, libsel4camkes/src/dma.c:240-251. -/
def pairBad (m : Mem) (r p : Nat) : Option Why :=
  match extract m r, extract m p with
  | some rp, some pp =>
    if meets m r (m.size r) p (m.size p) then some .virtOverlap
    else if meets m rp (m.size r) pp (m.size p) then some .physOverlap
    else none
  | _, _ => some .unknown

/-- The inner loop, over the regions before `r`, libsel4camkes/src/dma.c:238-252. -/
def inner (m : Mem) (r : Nat) : Nat → Nat → Res
  | 0, _ => .more
  | fuel + 1, p =>
    if p = r then .pass
    else match pairBad m r p with
      | some w => .fail w
      | none => inner m r fuel (m.next p)

/-- The outer loop, libsel4camkes/src/dma.c:237-253. -/
def outer (m : Mem) (head : Nat) : Nat → Nat → Res
  | 0, _ => .more
  | fuel + 1, r =>
    if r = 0 then .pass
    else match inner m r (fuel + 1) head with
      | .pass => outer m head fuel (m.next r)
      | x => x

/-- `check_consistency`, libsel4camkes/src/dma.c:199-254; every loop is followed for at most `fuel`
rounds. -/
def check (m : Mem) (fuel head : Nat) : Res :=
  if head = 0 then .pass
  else match brent m fuel head (m.next head) 1 1 with
    | .pass =>
      match regions m fuel head with
      | .pass => outer m head fuel head
      | x => x
    | x => x

end Verif.DmaCheck
