import Verif.IoMap.Model

/-!
# Model: how a component sets up its I/O operations (libsel4camkes/src/io.c, dma.c, irq.c)

`camkes_io_ops` fills a structure of function pointers and cookies that drivers get. Addresses are natural
numbers, 0 is `NULL`.
-/

namespace Verif.IoOps

/-- The functions that the structures can point to. `stale n` is whatever the caller's memory held before. -/
inductive Fn
  | stale (n : Nat)
  | stdMalloc
  | trackedMap | plainMap | unmap
  | portIn | portOut
  | dmaAlloc | dmaFree | dmaPin | dmaUnpin | dmaCacheOp
  | fdtGet
  | irqRegister | irqUnregister
  | ifRegister | ifUnregister | ifFind
  deriving DecidableEq

/-- `ps_io_ops_t`, as far as the library fills it. The functions of `malloc_ops` are one field, because one
call of libplatsupport fills them. -/
structure Ops where
  malloc : Fn
  mapCookie : Nat
  mapFn : Fn
  unmapFn : Fn
  portIn : Fn
  portOut : Fn
  dmaAlloc : Fn
  dmaFree : Fn
  dmaPin : Fn
  dmaUnpin : Fn
  dmaCacheOp : Fn
  fdtCookie : Nat
  fdtGet : Fn
  irqCookie : Nat
  irqRegister : Fn
  irqUnregister : Fn
  ifCookie : Nat
  ifRegister : Fn
  ifUnregister : Fn
  ifFind : Fn
  deriving DecidableEq

/-- What the library allocates: `cookie_t` (io.c:93-97, the list is a Lean list; the first address is that of
the operations of the memory, which is always the one static structure) and `camkes_interface_cookie_t`
(interface_registration.c:46-51: only the pointer to the operations of the memory). -/
inductive Obj
  | mapper (mapped : List Nat)
  | ifaces (mallocOps : Nat)
  deriving DecidableEq

/-- Memory and static variables: the heap (an address is not used twice, which simplifies `calloc`), the next
free address, the number of allocations so far, and `malloc_ops_initialised` and `io_mapper_malloc_ops`
(io.c:41-44; the latter `none` for zeros). -/
structure World where
  heap : List (Nat × Obj)
  next : Nat
  allocs : Nat
  inited : Bool
  static : Option Fn
  deriving DecidableEq

/-- What does not change: whether the build is a debug build, the address of `dtb_symbol` (0 if nothing defines
the weak symbol), the size of the header before the device tree, the result of `ps_new_stdlib_malloc_ops`, and which
allocations succeed. -/
structure Env where
  debug : Bool
  dtb : Nat
  header : Nat
  stdErr : Int
  memory : Nat → Bool

/-- The result of a set-up function: the process ends, or a code is returned. -/
inductive Res (α : Type)
  | died
  | ret (code : Int) (w : World) (x : α)
  deriving DecidableEq

/-- `ps_calloc` of libplatsupport, with the functions of the standard library: fails if these are not set, or if there is no
memory. -/
def calloc (e : Env) (w : World) (fns : Option Fn) (o : Obj) : Option (World × Nat) :=
  if fns = some .stdMalloc ∧ e.memory w.allocs = true then
    some ({ w with heap := (w.next, o) :: w.heap, next := w.next + 1, allocs := w.allocs + 1 }, w.next)
  else none

/-- A failed allocation counts too. -/
def failed (w : World) : World := { w with allocs := w.allocs + 1 }

/-- `camkes_ps_malloc_ops`, io.c:241-260, for an address that is not `NULL`. -/
def mallocOps (e : Env) (w : World) (o : Ops) : Int × World × Ops :=
  if e.stdErr ≠ 0 then (e.stdErr, w, o)
  else
    let o := { o with malloc := .stdMalloc }
    (0, if e.debug then { w with inited := true, static := some .stdMalloc } else w, o)

/-- `camkes_io_mapper`, io.c:194-222, for an address that is not `NULL`. -/
def ioMapper (e : Env) (w : World) (o : Ops) : Res Ops :=
  if ¬ e.debug then .ret 0 w { o with mapCookie := 0, mapFn := .plainMap, unmapFn := .unmap }
  else if ¬ w.inited ∧ e.stdErr ≠ 0 then .died
  else
    let w := if w.inited then w else { w with inited := true, static := some .stdMalloc }
    match calloc e w w.static (.mapper []) with
    | none => .ret (-1) (failed w) o
    | some (w, c) => .ret 0 w { o with mapCookie := c, mapFn := .trackedMap, unmapFn := .unmap }

/-- `camkes_io_port_ops`, io.c:234-243. -/
def portOps (o : Ops) : Ops := { o with portIn := .portIn, portOut := .portOut }

/-- `camkes_dma_manager`, dma.c:926-940. -/
def dmaManager (o : Ops) : Ops :=
  { o with dmaAlloc := .dmaAlloc, dmaFree := .dmaFree, dmaPin := .dmaPin, dmaUnpin := .dmaUnpin,
           dmaCacheOp := .dmaCacheOp }

/-- `camkes_io_fdt`, io.c:268-286. -/
def ioFdt (e : Env) (o : Ops) : Ops :=
  { o with fdtCookie := if e.dtb = 0 then 0 else e.dtb + e.header, fdtGet := .fdtGet }

/-- `camkes_io_fdt_get`, io.c:263-266. -/
def fdtGet (cookie : Nat) : Nat := if cookie ≠ 0 then cookie else 0

/-- `camkes_irq_ops`, irq.c:166-178. -/
def irqOps (o : Ops) : Ops :=
  { o with irqCookie := 0xDEADBEEF, irqRegister := .irqRegister, irqUnregister := .irqUnregister }

/-- `-ENOMEM`. -/
def enomem : Int := -12

/-- `camkes_interface_registration_ops`, interface_registration.c:275-298; `at_` is the address of the operations of the
memory in the caller's structure, which lie at its start. -/
def interfaceOps (e : Env) (w : World) (at_ : Nat) (o : Ops) : Int × World × Ops :=
  match calloc e w (some o.malloc) (.ifaces at_) with
  | none => (enomem, failed w, o)
  | some (w, c) =>
    (0, w, { o with ifCookie := c, ifRegister := .ifRegister, ifUnregister := .ifUnregister, ifFind := .ifFind })

/-- `camkes_io_ops`, io.c:485-506: `at_` is the address of the caller's structure. The chain of `||` stops at the first
function that returns something else than zero, and gives 1 then. -/
def ioOps (e : Env) (w : World) (at_ : Nat) (o : Ops) : Res Ops :=
  if at_ = 0 then .ret (-1) w o
  else
    let (ret, w, o) := mallocOps e w o
    if ret ≠ 0 then .ret ret w o
    else
      match ioMapper e w o with
      | .died => .died
      | .ret ret w o =>
        if ret ≠ 0 then .ret 1 w o
        else
          let o := irqOps (ioFdt e (dmaManager (portOps o)))
          let (ret, w, o) := interfaceOps e w at_ o
          if ret ≠ 0 then .ret 1 w o else .ret 0 w o

/-! ## Use of the operations -/

/-- The object at an address. -/
def getObj : List (Nat × Obj) → Nat → Option Obj
  | [], _ => none
  | (a, x) :: h, c => if a = c then some x else getObj h c

/-- Writes the object at an address. -/
def setObj : List (Nat × Obj) → Nat → Obj → List (Nat × Obj)
  | [], _, _ => []
  | (a, x) :: h, c, y => if a = c then (a, y) :: h else (a, x) :: setObj h c y

/-- Maps memory through the function of the structure: `p` is the answer of `camkes_io_map` (0 if there is no such
memory). `io_map`, io.c:103-121, or `camkes_io_map` itself. `none`: the program jumps to somewhere else or takes something else for
the cookie. -/
def callMap (e : Env) (w : World) (o : Ops) (p : Nat) : Option (World × Nat) :=
  match o.mapFn with
  | .plainMap => some (w, p)
  | .trackedMap =>
    match getObj w.heap o.mapCookie with
    | some (.mapper l) =>
      if p ≠ 0 then
        if w.static = some .stdMalloc ∧ e.memory w.allocs = true then
          some ({ w with heap := setObj w.heap o.mapCookie (.mapper (p :: l)), allocs := w.allocs + 1 }, p)
        else some (failed w, p)
      else some (w, p)
    | _ => none
  | _ => none

/-- Unmaps memory through the function of the structure: the second component tells whether an error is logged. `io_unmap`,
io.c:182-192. -/
def callUnmap (e : Env) (w : World) (o : Ops) (p : Nat) : Option (World × Bool) :=
  if o.unmapFn ≠ .unmap then none
  else if ¬ e.debug then some (w, false)
  else
    match getObj w.heap o.mapCookie with
    | some (.mapper l) =>
      match IoMap.llRemove l p with
      | some l => some ({ w with heap := setObj w.heap o.mapCookie (.mapper l) }, false)
      | none => some (w, true)
    | _ => none

/-- What the drivers of a component do: set up the structure at an address, map memory through it, or unmap it. -/
inductive Ev
  | setup (at_ : Nat)
  | map (at_ p : Nat)
  | unmap (at_ p : Nat)
  deriving DecidableEq

/-- The component: its memory, and the structures at their addresses. -/
structure Sys where
  w : World
  ops : Nat → Ops

/-- One step; the answer is `true` if an error is logged. `none`: the program dies or is undefined. -/
def step (e : Env) (s : Sys) : Ev → Option (Sys × Bool)
  | .setup a =>
    match ioOps e s.w a (s.ops a) with
    | .died => none
    | .ret _ w o => some (⟨w, fun b => if b = a then o else s.ops b⟩, false)
  | .map a p => (callMap e s.w (s.ops a) p).map fun r => (⟨r.1, s.ops⟩, false)
  | .unmap a p => (callUnmap e s.w (s.ops a) p).map fun r => (⟨r.1, s.ops⟩, r.2)

/-- A run: the last state, and the answers. -/
def run (e : Env) : Sys → List Ev → Option (Sys × List Bool)
  | s, [] => some (s, [])
  | s, x :: xs =>
    match step e s x with
    | none => none
    | some (s, b) => (run e s xs).map fun r => (r.1, b :: r.2)

/-- The start of a component: no objects, nothing initialised; the structures hold anything. -/
def start (junk : Nat → Ops) (base : Nat) : Sys := ⟨⟨[], base, 0, false, none⟩, junk⟩

end Verif.IoOps
