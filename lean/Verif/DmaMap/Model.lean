import Verif.Context.Model

/-!
# Model: frames, addresses and caches of DMA memory (C89)

What the templates write for a DMA pool (camkes/templates/component.common.c:154-213 and
seL4DMASharedData.template.c:16-55), and the functions of libsel4camkes/src/dma.c that look frames up:
`get_frame_desc` (388-404), the part of `camkes_dma_init` that stores physical addresses (495-506),
`camkes_dma_get_paddr` (563-589), `camkes_dma_get_cptr` (591-600) and `dma_cache_op` for ARM (870-918).

Simplifications: addresses are natural numbers, so that wrapping is not modelled. Writing through a null pointer,
or reading an array beyond its end, is a crash. The error handler of the component returns. The start of a
symbol is chosen by the linker.
-/

namespace Verif.DmaMap

open Verif.Context (Text St registerShared)

/-- `dma_frame_t`, libsel4camkes/include/camkes/dma.h; `paddr` is zero until it is known. -/
structure FrameD where
  cap : Nat
  size : Nat
  vaddr : Nat
  paddr : Nat
  cached : Bool
  deriving DecidableEq, Repr

/-- `dma_pool_t`, libsel4camkes/include/camkes/dma.h; `last` is `end_vaddr`. -/
structure PoolD where
  start : Nat
  last : Nat
  frameSize : Nat
  frames : List FrameD
  deriving DecidableEq, Repr

/-! ## The templates -/

/-- How a build may fail: an exception of a template, an error of the C compiler. -/
inductive Err where
  | template
  | compiler
  deriving DecidableEq, Repr

/-- `macros.ROUND_UP`, camkes/templates/macros.py. -/
def roundUp (x y : Nat) : Nat := (x + y - 1) / y * y

/-- The page size of a pool, component.common.c:161-171; `ps` are the page sizes of the architecture in increasing
order. -/
def poolPage (ps : List Nat) (large : Bool) (pool : Nat) : Nat :=
  if large then (ps.reverse.find? (fun sz => decide (sz ≤ pool))).getD 4096 else 4096

/-- The descriptors that a template writes for the frame capabilities `caps` of a symbol, component.common.c:186-194,
seL4DMASharedData.template.c:30-37. -/
def descs (caps : List Nat) (base page : Nat) (cached : Bool) : List FrameD :=
  caps.zipIdx.map fun c => ⟨c.1, page, base + c.2 * page, 0, cached⟩

/-- A symbol that is backed by frames: where the linker puts it, how long it is, the size of the frames and the
frame objects, and whether the mapping is cached (`add_symbol_with_caps`, camkes/runner/Context.py:515-516). -/
structure Backing where
  base : Nat
  bytes : Nat
  frameSize : Nat
  frames : List Nat
  cached : Bool
  deriving DecidableEq, Repr

/-- What a pool consists of: the structure in the generated code, the symbol, and the physical addresses that are
asked for. -/
structure Made where
  pool : PoolD
  backing : Backing
  paddrs : Option (List Nat)
  deriving DecidableEq, Repr

/-- The settings of a pool: `dma_pool`, `dma_pool_cached` and `dma_pool_paddr`; `size`, `<interface>_cached` and
`paddr` for a connection. -/
structure Settings where
  bytes : Nat
  cached : Bool
  paddr : Option Nat

/-- `register_shared_variable`, camkes/runner/Context.py:455-527, with the static assertions about the symbol,
which has `symbol` bytes. -/
def register (ps : List Nat) (s : St) (key : Text) (size page symbol : Nat) (paddr : Option Nat) :
    Except Err (St × List Nat × Option (List Nat)) :=
  match registerShared ps s key size (some page) paddr with
  | .error _ => .error .template
  | .ok (s', frames, _, paddrs) =>
    if symbol ≤ size ∧ symbol % page = 0 then .ok (s', frames, paddrs) else .error .compiler

/-- The pool of a component, component.common.c:154-213. The variables of the frames are named after the instance,
whose name has dots in it if it is in another component: this is no C. `slot` tells the slots that the capability
space gives to the frames. -/
def componentPool (ps : List Nat) (large : Bool) (s : St) (inst : Text) (set : Settings) (slot : Nat → Nat) (base : Nat) :
    Except Err (St × Made) :=
  let pool := roundUp set.bytes 4096
  let page := poolPage ps large pool
  let num := roundUp pool page / page
  match register ps s (inst ++ ['_', 'd', 'm', 'a']) (num * page) page pool set.paddr with
  | .error e => .error e
  | .ok (s', frames, paddrs) =>
    if frames ≠ [] ∧ '.' ∈ inst then .error .compiler
    else
      .ok (s', { pool := ⟨base, base + page * num - 1, page, descs (frames.map slot) base page set.cached⟩
                 backing := ⟨base, pool, page, frames, set.cached⟩
                 paddrs := paddrs })

/-- The pool of an end of a seL4DMASharedData connection, seL4DMASharedData.template.c:16-55; the size is 4096 if it
is not set. -/
def connectionPool (ps : List Nat) (s : St) (conn : Text) (set : Settings) (slot : Nat → Nat) (base : Nat) :
    Except Err (St × Made) :=
  match register ps s (conn ++ ['_', 'd', 'a', 't', 'a']) set.bytes 4096 (roundUp set.bytes 4096) set.paddr with
  | .error e => .error e
  | .ok (s', frames, paddrs) =>
    .ok (s', { pool := ⟨base, base + set.bytes - 1, 4096, descs (frames.map slot) base 4096 set.cached⟩
               backing := ⟨base, roundUp set.bytes 4096, 4096, frames, set.cached⟩
               paddrs := paddrs })

/-! ## Looking up a frame -/

/-- The lowest bit that is set; the first argument bounds the number of bits that are looked at. -/
def lowBitAux : Nat → Nat → Nat
  | 0, _ => 1
  | bits + 1, n => if n % 2 = 1 then 1 else 2 * lowBitAux bits (n / 2)

/-- `MASK(ffs(n) - 1) + 1`: the lowest bit of `n` that is set, for `n` that is not zero. -/
def lowBit (n : Nat) : Nat := lowBitAux n n

/-- What `get_frame_desc` gives: a null pointer, something that is not a descriptor, or descriptor `j` of pool `i`. -/
inductive Look where
  | null
  | wild
  | desc (i j : Nat)
  deriving DecidableEq, Repr

/-- `get_frame_desc`, libsel4camkes/src/dma.c:388-404; `i` counts the pools. -/
def look (ptr : Nat) : Nat → List PoolD → Look
  | _, [] => .null
  | i, p :: ps =>
    if p.start ≤ ptr ∧ ptr ≤ p.last then
      let low := lowBit p.frameSize
      let base := ptr / low * low
      let num := (base - p.start) / p.frameSize
      if base < p.start ∨ p.frames.length ≤ num then .wild else .desc i num
    else look ptr (i + 1) ps

/-- The descriptor in a place. -/
def descAt (w : List PoolD) (i j : Nat) : Option FrameD := (w[i]?).bind fun p => p.frames[j]?

/-- `frame->paddr = paddr`. -/
def setPaddr (w : List PoolD) (i j paddr : Nat) : List PoolD :=
  w.modify i fun p => { p with frames := p.frames.modify j fun f => { f with paddr := paddr } }

/-- The result of a function that returns a number. -/
inductive Res where
  | crash
  | val (n : Nat)
  deriving DecidableEq, Repr

/-- `camkes_dma_get_paddr`, libsel4camkes/src/dma.c:563-589. `kernel` is `seL4_ARCH_Page_GetAddress`. The offset is
computed before the pointer is checked. -/
def getPaddr (kernel : Nat → Option Nat) (w : List PoolD) (ptr : Nat) : List PoolD × Res :=
  match look ptr 0 w with
  | .null => (w, .crash)
  | .wild => (w, .crash)
  | .desc i j =>
    match descAt w i j with
    | none => (w, .crash)
    | some f =>
      let offset := ptr % lowBit f.size
      if f.paddr ≠ 0 then (w, .val (f.paddr + offset))
      else
        match kernel f.cap with
        | none => (w, .val 0)
        | some p => (setPaddr w i j p, .val (p + offset))

/-- `camkes_dma_get_cptr`, libsel4camkes/src/dma.c:591-600; `seL4_CapNull` is zero. -/
def getCptr (w : List PoolD) (ptr : Nat) : Res :=
  match look ptr 0 w with
  | .null => .val 0
  | .wild => .crash
  | .desc i j =>
    match descAt w i j with
    | none => .crash
    | some f => .val f.cap

/-- The loop of `camkes_dma_init` over the pages, as far as it is about frames, libsel4camkes/src/dma.c:495-506: `n`
pages remain from `base`. `none` is a crash or a failed assertion. -/
def initPages (kernel : Nat → Option Nat) (page : Nat) : Nat → Nat → List PoolD → Option (List PoolD)
  | 0, _, w => some w
  | n + 1, base, w =>
    match look base 0 w with
    | .null => initPages kernel page n (base + page) w
    | .wild => none
    | .desc i j =>
      match descAt w i j with
      | none => none
      | some f =>
        match kernel f.cap with
        | none => none
        | some p => initPages kernel page n (base + page) (setPaddr w i j p)

/-! ## Cache maintenance -/

/-- `dma_cache_op_t`. -/
inductive Op where
  | clean
  | invalidate
  | cleanInvalidate
  deriving DecidableEq, Repr

/-- A system call for cache maintenance: `seL4_ARM_Page_Clean_Data` and so on, with a capability and offsets in the
page. -/
structure Call where
  op : Op
  cap : Nat
  start : Nat
  stop : Nat
  deriving DecidableEq, Repr

/-- `dma_cache_op` on ARM, libsel4camkes/src/dma.c:870-918: the system calls; `none` is a crash. -/
def cacheOp (w : List PoolD) (addr size : Nat) (op : Op) : Option (List Call) :=
  match look addr 0 w with
  | .null => some []
  | .wild => none
  | .desc i j =>
    match descAt w i j with
    | none => none
    | some f =>
      if f.cached = false then some []
      else if f.cap = 0 then some []
      else
        let offset := addr % f.size
        if offset + size > f.size then some []
        else some [⟨op, f.cap, offset, offset + size⟩]

end Verif.DmaMap
