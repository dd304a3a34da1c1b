import Verif.Dma.Model

/-!
# Model: the free list of the DMA allocator as it is in the memory (libsel4camkes/src/dma.c)

`Verif.Dma` has the free list as a list of regions. Here it is what it is in C: a pointer `head` and nodes that are in the free memory
itself, linked by pointers, which the user may overwrite by accident. A field of a node is one cell, at the address of its first byte;
values are not bounded. Results are `none` if an assertion is false or a loop has not ended within the given number of rounds.
Statistics and the debugging checks are left out, as in `Verif.Dma`, whose arithmetic on sizes and addresses is used here (`roundSize`,
`roundAlign`, `place`).
-/

namespace Verif.DmaPtr

open Verif.Dma (Env Region roundSize roundAlign place isPow2)

/-- The offsets of the fields `cached`, `size`, `next` and `paddr_upper` of `region_t`, libsel4camkes/src/dma.c:56-83. -/
structure Lay where
  c : Nat
  s : Nat
  n : Nat
  p : Nat

/-- The variable `head`, libsel4camkes/src/dma.c:38-41, and the memory. -/
structure Mem where
  head : Nat
  cell : Nat → Nat

/-- Writing a cell. -/
def Mem.set (m : Mem) (a v : Nat) : Mem := { m with cell := fun x => if x = a then v else m.cell x }

/-- The fields of the node at `r`. -/
def size (l : Lay) (m : Mem) (r : Nat) : Nat := m.cell (r + l.s)
def next (l : Lay) (m : Mem) (r : Nat) : Nat := m.cell (r + l.n)
def pu (l : Lay) (m : Mem) (r : Nat) : Nat := m.cell (r + l.p)
def flag (l : Lay) (m : Mem) (r : Nat) : Bool := m.cell (r + l.c) != 0

/-- `save_paddr`, libsel4camkes/src/dma.c:85-91. -/
def savePaddr (l : Lay) (m : Mem) (r a : Nat) : Mem := m.set (r + l.p) (a / 4096)

/-- `try_extract_paddr`, libsel4camkes/src/dma.c:93-103. -/
def tryPaddr (l : Lay) (m : Mem) (r : Nat) : Nat := if pu l m r ≠ 0 then pu l m r * 4096 + r % 4096 else 0

/-- `extract_paddr`, libsel4camkes/src/dma.c:123-138. -/
def extract (e : Env) (l : Lay) (m : Mem) (r : Nat) : Option (Nat × Mem) :=
  if tryPaddr l m r = 0 then
    if e.paddr r = 0 then none
    else
      let m' := savePaddr l m r (e.paddr r)
      if tryPaddr l m' r = 0 then none else some (tryPaddr l m' r, m')
  else some (tryPaddr l m r, m)

/-- `calculate_paddr_for_new_region`, libsel4camkes/src/dma.c:110-120. -/
def newPaddr (l : Lay) (m : Mem) (r p offset : Nat) : Option Mem :=
  if offset ≤ size l m p then some (savePaddr l m r (if tryPaddr l m p ≠ 0 then tryPaddr l m p + offset else 0)) else none

/-- `prepend_node`, libsel4camkes/src/dma.c:141-147. -/
def prepend (l : Lay) (m : Mem) (node : Nat) : Mem := { m.set (node + l.n) m.head with head := node }

/-- `remove_node`, libsel4camkes/src/dma.c:149-159. -/
def remove (l : Lay) (m : Mem) (previous node : Nat) : Mem :=
  if previous = 0 then { m with head := next l m node } else m.set (previous + l.n) (next l m node)

/-- `replace_node`, libsel4camkes/src/dma.c:161-174. -/
def replace (l : Lay) (m : Mem) (previous old new : Nat) : Mem :=
  let m := m.set (new + l.n) (next l m old)
  if previous = 0 then { m with head := new } else m.set (previous + l.n) new

/-- `shrink_node`, libsel4camkes/src/dma.c:176-183. -/
def shrink (l : Lay) (m : Mem) (node k : Nat) : Option Mem :=
  if 0 < k ∧ k < size l m node then some (m.set (node + l.s) (size l m node - k)) else none

/-- `grow_node`, libsel4camkes/src/dma.c:185-192. -/
def grow (l : Lay) (m : Mem) (node k : Nat) : Option Mem :=
  if 0 < k then some (m.set (node + l.s) (size l m node + k)) else none

/-- `free_region`, libsel4camkes/src/dma.c:406-450. -/
def freeRegion (e : Env) (l : Lay) (m : Mem) (ptr sz : Nat) (cached : Bool) : Option Mem :=
  if ptr = 0 ∨ ptr % e.A ≠ 0 then none
  else
    let m := m.set (ptr + l.p) 0
    let m := m.set (ptr + l.s) (roundSize e sz)
    let m := m.set (ptr + l.c) (if cached then 1 else 0)
    some (prepend l m ptr)

/-- `camkes_dma_free`, libsel4camkes/src/dma.c:809-832. -/
def dmaFree (e : Env) (l : Lay) (m : Mem) (ptr sz : Nat) : Option Mem :=
  if ptr = 0 then some m
  else match e.frame ptr with
    | none => some m
    | some cached => freeRegion e l m ptr sz cached

/-- The loop of `camkes_dma_init` over the pages, libsel4camkes/src/dma.c:495-512; `n` is the number of pages that remain. -/
def addPages (e : Env) (l : Lay) (page : Nat) (cached : Bool) : Nat → Nat → Mem → Option Mem
  | 0, _, m => some m
  | n + 1, base, m =>
    match freeRegion e l m base page cached with
    | none => none
    | some m => addPages e l page cached n (base + page) m

/-- `camkes_dma_init`, libsel4camkes/src/dma.c:452-512 and 558-561, with a page size: the result, and the memory. -/
def dmaInit (e : Env) (l : Lay) (m : Mem) (pool sz page : Nat) (cached : Bool) : Option (Int × Mem) :=
  if page ≤ e.R ∨ pool % page ≠ 0 then some (-1, m)
  else if pool = 0 ∨ pool % e.A ≠ 0 then some (-1, m)
  else if isPow2 page = false ∨ page < e.A then some (-1, m)
  else match addPages e l page cached ((sz + page - 1) / page) pool m with
    | none => none
    | some m => some (0, m)

/-- What the inner loop of `defrag` finds, with the node before it. -/
inductive Found
  | nothing
  | before (qprev q : Nat)
  | after (qprev q : Nat)
  deriving DecidableEq

/-- The inner loop of `defrag`, libsel4camkes/src/dma.c:325-341 and 369, for the region of `psize` bytes at `p` and `pstart`. `before`: the
region `q` ends where `p` starts; `after`: it starts where `p` ends. -/
def search (e : Env) (l : Lay) (p pstart psize : Nat) (pcached : Bool) (pprev : Nat) : Nat → Mem → Nat → Nat → Option (Mem × Found)
  | 0, _, _, _ => none
  | fuel + 1, m, qprev, q =>
    if q = p then some (m, .nothing)
    else match extract e l m q with
      | none => none
      | some (qstart, m) =>
        if pprev = 0 then none
        else if p = q + size l m q ∧ pstart = qstart + size l m q ∧ pcached = flag l m q then some (m, .before qprev q)
        else if p + psize = q ∧ pstart + psize = qstart ∧ pcached = flag l m q then some (m, .after qprev q)
        else search e l p pstart psize pcached pprev fuel m q (next l m q)

/-- The outer loop of `defrag`, libsel4camkes/src/dma.c:314-383. The first number bounds its rounds, the second one those of the inner
loop. -/
def defrag (e : Env) (l : Lay) : Nat → Nat → Mem → Nat → Nat → Option Mem
  | 0, _, m, _, p => if p = 0 then some m else none
  | fuel + 1, inner, m, pprev, p =>
    if p = 0 then some m
    else match extract e l m p with
      | none => none
      | some (pstart, m) =>
        match search e l p pstart (size l m p) (flag l m p) pprev inner m 0 m.head with
        | none => none
        | some (m, .nothing) => defrag e l fuel inner m p (next l m p)
        | some (m, .before qprev q) =>
          match grow l m q (size l m p) with
          | none => none
          | some m =>
            let m := remove l m pprev p
            let p := if qprev = 0 then m.head else qprev
            defrag e l fuel inner m p (next l m p)
        | some (m, .after qprev q) =>
          match grow l m p (size l m q) with
          | none => none
          | some m =>
            let m := remove l m qprev q
            defrag e l fuel inner m pprev (next l m pprev)

/-- `try_alloc_from_free_region`, libsel4camkes/src/dma.c:603-687: the address, and the memory. -/
def carve (e : Env) (l : Lay) (m : Mem) (sz align prev p : Nat) : Option (Option Nat × Mem) :=
  let top := p + size l m p - sz
  match place e ⟨p, size l m p, 0, false⟩ sz align (top + 1) (top - top % align) with
  | none => some (none, m)
  | some q =>
    let suffix := p + size l m p - (q + sz)
    if p = q then
      if size l m p = sz then some (some q, remove l m prev p)
      else
        let r := p + sz
        match newPaddr l (m.set (r + l.s) (size l m p - sz)) r p sz with
        | none => none
        | some m => some (some q, replace l m prev p r)
    else if suffix = 0 then
      match shrink l m p sz with
      | none => none
      | some m => some (some q, m)
    else
      let keep := q - p
      let r := q + sz
      match newPaddr l (m.set (r + l.s) (size l m p - (keep + sz))) r p (keep + sz) with
      | none => none
      | some m => some (some q, prepend l (m.set (p + l.s) keep) r)

/-- `try_alloc_from_free_list`, libsel4camkes/src/dma.c:690-712. (The address of a node is not `NULL`, so that neither is that of a place in
its region.) -/
def tryAlloc (e : Env) (l : Lay) (sz align : Nat) (cached : Bool) : Nat → Mem → Nat → Nat → Option (Option Nat × Mem)
  | 0, _, _, _ => none
  | fuel + 1, m, prev, p =>
    if p = 0 then some (none, m)
    else if size l m p < sz ∨ flag l m p ≠ cached then tryAlloc e l sz align cached fuel m p (next l m p)
    else match carve e l m sz align prev p with
      | none => none
      | some (some q, m) => some (some q, m)
      | some (none, m) => tryAlloc e l sz align cached fuel m p (next l m p)

/-- `camkes_dma_alloc`, libsel4camkes/src/dma.c:714-807; `fuel` bounds the rounds of each loop. -/
def dmaAlloc (e : Env) (l : Lay) (fuel : Nat) (m : Mem) (sz align : Nat) (cached : Bool) : Option (Option Nat × Mem) :=
  if m.head = 0 then some (none, m)
  else
    match tryAlloc e l (roundSize e sz) (roundAlign e align) cached fuel m 0 m.head with
    | none => none
    | some (some q, m) => some (some q, m)
    | some (none, m) =>
      if roundSize e sz > e.R then
        match defrag e l fuel fuel m 0 m.head with
        | none => none
        | some m => tryAlloc e l (roundSize e sz) (roundAlign e align) cached fuel m 0 m.head
      else some (none, m)

end Verif.DmaPtr
