/-!
# Model: the DMA allocator (libsel4camkes/src/dma.c)

The free list is a Lean list of regions, first element first. In C the nodes live inside the free
memory itself; this is the same thing as long as nobody writes to free memory, which is the contract
of an allocator. Addresses and sizes are natural numbers, so overflow of `size_t` and `uintptr_t` is
not modelled (requests within a few bytes of `SIZE_MAX`, pools at the end of the address space).
Statistics and the debugging checks are left out. `ROUND_UP` and `ROUND_DOWN` are libutils macros;
they are taken to round to multiples.
-/

namespace Verif.Dma

/-- What the allocator is compiled and configured with: `sizeof(region_t)`, `alignof(region_t)`, the
physical address of every virtual address in the pools (`camkes_dma_get_paddr`,
libsel4camkes/src/dma.c:563-589) and the cached flag of the frame that an address lies in
(`get_frame_desc`, 388-404; `none` outside of the pools). -/
structure Env where
  R : Nat
  A : Nat
  paddr : Nat → Nat
  frame : Nat → Option Bool

/-- A node of the free list, libsel4camkes/src/dma.c:56-83. `pu` is the upper part of the physical
address; zero if it has not been looked up. -/
structure Region where
  vaddr : Nat
  size : Nat
  pu : Nat
  cached : Bool
  deriving DecidableEq, Repr

/-- `try_extract_paddr`, libsel4camkes/src/dma.c:93-103, with 4 KiB pages; zero if not known. -/
def tryPaddr (r : Region) : Nat := if r.pu ≠ 0 then r.pu * 4096 + r.vaddr % 4096 else 0

/-- `extract_paddr`, libsel4camkes/src/dma.c:123-138. Simplification: the address that has been looked
up is not stored in the node; the theorem `extract_stored` shows that storing it changes nothing. -/
def extract (e : Env) (r : Region) : Nat := if tryPaddr r = 0 then e.paddr r.vaddr else tryPaddr r

/-- `calculate_paddr_for_new_region`, libsel4camkes/src/dma.c:110-120. -/
def newPu (p : Region) (offset : Nat) : Nat := if tryPaddr p ≠ 0 then (tryPaddr p + offset) / 4096 else 0

/-- `shrink_node` and `grow_node`, libsel4camkes/src/dma.c:176-192. -/
def shrink (p : Region) (by_ : Nat) : Region := { p with size := p.size - by_ }
def grow (p : Region) (by_ : Nat) : Region := { p with size := p.size + by_ }

/-- The size that is really used for a request: at least the size of a node and aligned to it,
libsel4camkes/src/dma.c:417-426 and 762-775. -/
def roundSize (e : Env) (size : Nat) : Nat :=
  let s := if size < e.R then e.R else size
  if s % e.A ≠ 0 then (s + e.A - 1) / e.A * e.A else s

/-- The alignment that is really used, libsel4camkes/src/dma.c:746-760. -/
def roundAlign (e : Env) (align : Nat) : Nat :=
  let a := if align = 0 then 1 else align
  if a < e.A then e.A else a

/-! ## Freeing -/

/-- `free_region`, libsel4camkes/src/dma.c:406-450. -/
def freeRegion (e : Env) (free : List Region) (ptr size : Nat) (cached : Bool) : List Region :=
  ⟨ptr, roundSize e size, 0, cached⟩ :: free

/-- `camkes_dma_free`, libsel4camkes/src/dma.c:809-832. -/
def dmaFree (e : Env) (free : List Region) (ptr size : Nat) : List Region :=
  if ptr = 0 then free
  else match e.frame ptr with
    | none => free
    | some cached => freeRegion e free ptr size cached

/-- A power of two (`IS_POWER_OF_2`). -/
def isPow2 (n : Nat) : Bool := n ≠ 0 && n &&& (n - 1) = 0

/-- The loop of `camkes_dma_init` over the pages, libsel4camkes/src/dma.c:495-512; `n` is the number
of pages that remain. -/
def addPages (e : Env) (page : Nat) (cached : Bool) : Nat → Nat → List Region → List Region
  | 0, _, free => free
  | n + 1, base, free => addPages e page cached n (base + page) (freeRegion e free base page cached)

/-- The scan for breaks in physical contiguity, libsel4camkes/src/dma.c:524-542: from `limit`, with
`n` bytes left in the pool; gives the end of the contiguous part, or `none` for the error. -/
def contiguousEnd (e : Env) : Nat → Nat → Nat → Option Nat
  | 0, limit, _ => some limit
  | n + 1, limit, expected =>
    if limit = 0 then none
    else if e.paddr limit = 0 then none
    else if e.paddr limit ≠ expected then some limit
    else contiguousEnd e n (limit + 1) (expected + 1)

/-- The branch of `camkes_dma_init` without a page size, libsel4camkes/src/dma.c:513-557. The first
argument bounds the number of parts (each has at least one byte). -/
def addParts (e : Env) (cached : Bool) (poolEnd : Nat) : Nat → Nat → List Region → Option (List Region)
  | 0, _, free => some free
  | fuel + 1, base, free =>
    if base < poolEnd then
      if e.paddr base = 0 then none
      else match contiguousEnd e (poolEnd - (base + 1)) (base + 1) (e.paddr base + 1) with
        | none => none
        | some limit =>
          let free := if base + e.R ≥ limit then freeRegion e free base 0 cached else free
          addParts e cached poolEnd fuel ((limit + e.A - 1) / e.A * e.A) free
    else some free

/-- `camkes_dma_init`, libsel4camkes/src/dma.c:452-561; `none` is the error return. -/
def dmaInit (e : Env) (free : List Region) (pool size page : Nat) (cached : Bool) : Option (List Region) :=
  if page ≠ 0 ∧ (page ≤ e.R ∨ pool % page ≠ 0) then none
  else if pool = 0 ∨ pool % e.A ≠ 0 then none
  else if page ≠ 0 ∧ (isPow2 page = false ∨ page < e.A) then none
  else if page ≠ 0 then some (addPages e page cached ((size + page - 1) / page) pool free)
  else addParts e cached (pool + size) size pool free

/-! ## Defragmentation -/

/-- `p` immediately follows `q`, libsel4camkes/src/dma.c:341. -/
def follows (e : Env) (p q : Region) : Bool :=
  decide (p.vaddr = q.vaddr + q.size) && decide (extract e p = extract e q + q.size) && p.cached == q.cached

/-- `p` immediately precedes `q`, libsel4camkes/src/dma.c:369. -/
def precedes (e : Env) (p q : Region) : Bool :=
  decide (p.vaddr + p.size = q.vaddr) && decide (extract e p + p.size = extract e q) && p.cached == q.cached

/-- The inner loop over the regions before `p`, libsel4camkes/src/dma.c:325-380: the regions before
the first partner, the partner, those between it and `p`, and whether `p` follows it (otherwise `p`
precedes it). -/
def findPartner (e : Env) (p : Region) : List Region → Option (List Region × Region × List Region × Bool)
  | [] => none
  | q :: qs =>
    if follows e p q then some ([], q, qs, true)
    else if precedes e p q then some ([], q, qs, false)
    else match findPartner e p qs with
      | none => none
      | some (a, r, b, k) => some (q :: a, r, b, k)

/-- `defrag`, libsel4camkes/src/dma.c:307-386. `before` are the nodes before `p`, `rest` starts with `p`.
When the partner that is merged into `p` is the node directly before it, `pprev` is left pointing to
the node that has just been removed; `stale` records this, because a removal of `p` by way of such a
`pprev` would not change the list. The first argument bounds the number of rounds; `none` is a loop
that has not ended within the bound. -/
def defragLoop (e : Env) : Nat → List Region → List Region → Bool → Option (List Region)
  | _, before, [], _ => some before
  | 0, _, _ :: _, _ => none
  | fuel + 1, before, p :: rest, stale =>
    match findPartner e p before with
    | none => defragLoop e fuel (before ++ [p]) rest false
    | some (a, q, b, true) =>
      let q' := grow q p.size
      let rest' := if stale then p :: rest else rest
      match a with
      | [] => defragLoop e fuel [q'] (b ++ rest') false
      | _ :: _ => defragLoop e fuel a (q' :: b ++ rest') false
    | some (a, q, b, false) =>
      defragLoop e fuel (a ++ b) (grow p q.size :: rest) (stale || b.isEmpty)

/-- `defrag`; the bound is large enough (`defrag_terminates`). -/
def defrag (e : Env) (free : List Region) : Option (List Region) :=
  defragLoop e ((2 * free.length + 1) * (free.length + 1) + free.length + 1) [] free false

/-! ## Allocation -/

/-- The scan of `try_alloc_from_free_region` for a place, libsel4camkes/src/dma.c:627-647. The first
argument bounds the number of rounds. -/
def place (e : Env) (p : Region) (size align : Nat) : Nat → Nat → Option Nat
  | 0, _ => none
  | fuel + 1, q =>
    if q = p.vaddr ∨ p.vaddr + e.R ≤ q then
      let suffix := p.vaddr + p.size - (q + size)
      if suffix ≠ 0 ∧ suffix < e.R then place e p size align fuel (q - align) else some q
    else none

/-- `try_alloc_from_free_region`, libsel4camkes/src/dma.c:603-687: the address, what replaces the node,
and what is put at the head of the list. The flag `cached` of a new node is not assigned in C, so it
is whatever the memory at that place contains: `junk`. -/
def carve (e : Env) (junk : Nat → Bool) (p : Region) (size align : Nat) : Option (Nat × List Region × List Region) :=
  let top := p.vaddr + p.size - size
  match place e p size align (top + 1) (top - top % align) with
  | none => none
  | some q =>
    let suffix := p.vaddr + p.size - (q + size)
    if q = p.vaddr then
      if p.size = size then some (q, [], [])
      else some (q, [⟨p.vaddr + size, p.size - size, newPu p size, junk (p.vaddr + size)⟩], [])
    else if suffix = 0 then some (q, [shrink p size], [])
    else
      let offset := q - p.vaddr + size
      some (q, [{ p with size := q - p.vaddr }], [⟨q + size, p.size - offset, newPu p offset, junk (q + size)⟩])

/-- `try_alloc_from_free_list`, libsel4camkes/src/dma.c:690-712: the address, the new list, and what is
to be put at its head. -/
def tryAlloc (e : Env) (junk : Nat → Bool) (size align : Nat) (cached : Bool) :
    List Region → Option (Nat × List Region × List Region)
  | [] => none
  | p :: ps =>
    match (if p.size < size ∨ p.cached ≠ cached then none else carve e junk p size align) with
    | some (q, repl, front) => some (q, repl ++ ps, front)
    | none =>
      match tryAlloc e junk size align cached ps with
      | none => none
      | some (q, ps', front) => some (q, p :: ps', front)

/-- `try_alloc_from_free_list` with the new head in place. -/
def allocFrom (e : Env) (junk : Nat → Bool) (free : List Region) (size align : Nat) (cached : Bool) :
    Option (Nat × List Region) :=
  match tryAlloc e junk size align cached free with
  | none => none
  | some (q, free', front) => some (q, front ++ free')

/-- `camkes_dma_alloc`, libsel4camkes/src/dma.c:714-807: the result (`none` for the null pointer) and
the new free list. -/
def dmaAlloc (e : Env) (junk : Nat → Bool) (free : List Region) (size align : Nat) (cached : Bool) :
    Option Nat × List Region :=
  if free = [] then (none, free)
  else
    let align := roundAlign e align
    let size := roundSize e size
    match allocFrom e junk free size align cached with
    | some (q, free') => (some q, free')
    | none =>
      if size > e.R then
        match defrag e free with
        | none => (none, free)
        | some free' =>
          match allocFrom e junk free' size align cached with
          | some (q, free'') => (some q, free'')
          | none => (none, free')
      else (none, free)

end Verif.Dma
