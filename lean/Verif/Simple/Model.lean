/-!
# Model: components that make kernel objects themselves (camkes/templates/component.simple.c)

Numbers are natural numbers (the configuration could also hold negative ones). The pools of untyped
memory are given with the number that the pattern of line 53 finds in the name of the attribute. The
names under which the template allocates are formatted from numbers, so they are modelled by the
constructors of `Key`: two names are equal if and only if the keys are.
-/

namespace Verif.Simple

/-- A kernel object, as requested in component.simple.c:30-158. -/
inductive Obj
  | cnode | pd
  | untyped (bits : Nat)
  | deviceUntyped (paddr bits : Nat)
  | ports (first next : Nat)
  | frame (paddr bits : Nat)
  | iospace (domain bus dev fn : Nat)
  | smmu (n : Nat)
  | asidPool | notification
  | irq (n : Nat)
  | empty
  | other (n : Nat)
  deriving DecidableEq

/-- The name of an allocation, component.simple.c:30-31, 60, 75, 102-103, 118, 136, 143, 149-158, 165.
`other` stands for the names that other templates of the component use. -/
inductive Key
  | cnode | pd
  | untyped (bits i : Nat)
  | ports (first last : Nat)
  | frame (paddr : Nat)
  | deviceUntyped (paddr : Nat)
  | iospace (id : Nat)
  | smmu (n : Nat)
  | asidPool | notification
  | irq (n : Nat)
  | holding
  | other (n : Nat)
  deriving DecidableEq

/-- The capabilities of the component, the slot is the position. -/
abbrev Table := List (Key × Obj)

/-- Where a name is, if it is. -/
def position (k : Key) : Table → Option Nat
  | [] => none
  | e :: t => if e.1 = k then some 0 else (position k t).map (· + 1)

/-- `alloc` and `alloc_cap`, camkes/runner/Context.py:387-395, 421-442, as seen from one component:
a name that is there gives the old slot whatever is asked for, another one gets the next slot. -/
def alloc (t : Table) (k : Key) (o : Obj) : Table × Nat :=
  match position k t with
  | some i => (t, i)
  | none => (t ++ [(k, o)], t.length)

/-- Allocations in a loop. -/
def allocAll : Table → List (Key × Obj) → Table × List Nat
  | t, [] => (t, [])
  | t, r :: rs =>
    let a := alloc t r.1 r.2
    let b := allocAll a.1 rs
    (b.1, a.2 :: b.2)

/-- A PCI device as in the attribute `iospaces`, component.simple.c:129. -/
structure Pci where
  domain : Nat
  bus : Nat
  dev : Nat
  fn : Nat
  deriving DecidableEq

/-- A region of the attribute `mmios`, component.simple.c:85. -/
structure Region where
  paddr : Nat
  size : Nat
  bits : Nat
  deriving DecidableEq

/-- The settings of the component: for each attribute `simple_untypedN_pool` the number and the
value, the attributes `ioports`, `mmios`, `untyped_mmios`, `iospaces`, `smmu`, `asid_pool`, `irqs`
and `cnode_size_bits`, and whether the architecture has 64 bits. `section` is the size in bits of an
`seL4_ARM_SectionObject`. -/
structure Config where
  pools : List (Nat × Nat)
  ioports : List (Nat × Nat)
  mmios : List Region
  untypedMmios : List (Nat × Nat)
  iospaces : List Pci
  smmu : List Nat
  asidPool : Bool
  irqs : List Nat
  cnodeSizeBits : Option Nat
  wide : Bool
  sectionBits : Nat

/-- What can go wrong in the template. -/
inductive Err
  | illegalSize
  | keyError
  deriving DecidableEq

/-- The test of the sizes, component.simple.c:57-59, camkes/templates/arch_helpers.py:24-32: it is
inside of the loop over the untyped memory of one pool. -/
def sizesLegal (c : Config) : Bool :=
  c.pools.all (fun p => p.2 == 0 || (4 ≤ p.1 && p.1 ≤ (if c.wide then 47 else 29)))

/-- What is asked for untyped memory, component.simple.c:52-64. -/
def untypedReqs (c : Config) : List (Key × Obj) :=
  c.pools.flatMap (fun p => (List.range p.2).map (fun i => (Key.untyped p.1 i, Obj.untyped p.1)))

/-- The sizes in `untyped_obj_list`, component.simple.c:61. -/
def untypedBits (c : Config) : List Nat :=
  c.pools.flatMap (fun p => (List.range p.2).map (fun _ => p.1))

/-- What is asked for I/O ports, component.simple.c:66-78. -/
def portReqs (c : Config) : List (Key × Obj) :=
  c.ioports.map (fun p => (Key.ports p.1 p.2, Obj.ports p.1 (p.2 + 1)))

/-- `bits_to_frame_type`, component.simple.c:95, as the size of the object. -/
def frameBits (c : Config) (bits : Nat) : Option Nat :=
  if bits = 12 then some 12 else if bits = 20 ∨ bits = 21 then some c.sectionBits else none

/-- `six.moves.range(0, size, 2 ** bits)`, component.simple.c:100. -/
def steps (size step : Nat) : List Nat :=
  (List.range ((size + step - 1) / step)).map (· * step)

/-- What is asked for one region, component.simple.c:100-106; `none` for a `KeyError`. -/
def regionReqs (c : Config) (r : Region) : Option (List (Key × Obj)) :=
  match steps r.size (2 ^ r.bits) with
  | [] => some []
  | offs =>
    (frameBits c r.bits).map (fun b => offs.map (fun o => (Key.frame (r.paddr + o), Obj.frame (r.paddr + o) b)))

/-- The loop over the regions, component.simple.c:97-108: the tables `mmio_cap_lookup_…`. -/
def allocRegions (c : Config) : Table → List Region → Option (Table × List (Region × List Nat))
  | t, [] => some (t, [])
  | t, r :: rs =>
    match regionReqs c r with
    | none => none
    | some reqs =>
      let a := allocAll t reqs
      match allocRegions c a.1 rs with
      | none => none
      | some b => some (b.1, (r, a.2) :: b.2)

/-- `devid`, component.simple.c:134-135. -/
def devid (p : Pci) : Nat := p.domain * 65536 + (p.bus * 256 + p.dev * 8 + p.fn)

/-- What the template knows when it writes the functions. -/
structure Gen where
  cnode : Nat
  pd : Nat
  untypeds : List (Nat × Nat)
  ioports : List (Nat × Nat × Nat)
  mmio : List (Region × List Nat)
  untypedMmio : List (Nat × Nat × Nat)
  iospaces : List (Nat × Nat)
  irqs : List (Nat × Nat)
  holding : Nat

/-- The template up to the holding slot, component.simple.c:30-165, starting with the capabilities
that other templates have allocated. The scheduling control capability and the frames of the boot
information are left out. -/
def gen (c : Config) (t : Table) : Except Err (Table × Gen) :=
  let cn := alloc t .cnode .cnode
  let pd := alloc cn.1 .pd .pd
  if sizesLegal c = false then .error .illegalSize else
  let us := allocAll pd.1 (untypedReqs c)
  let ps := allocAll us.1 (portReqs c)
  match allocRegions c ps.1 c.mmios with
  | none => .error .keyError
  | some ms =>
    let ds := allocAll ms.1 (c.untypedMmios.map (fun u => (Key.deviceUntyped u.1, Obj.deviceUntyped u.1 u.2)))
    let ios := allocAll ds.1 (c.iospaces.map (fun p => (Key.iospace (devid p), Obj.iospace p.domain p.bus p.dev p.fn)))
    let sm := allocAll ios.1 (c.smmu.map (fun n => (Key.smmu n, Obj.smmu n)))
    let asid := if c.asidPool then (alloc sm.1 .asidPool .asidPool).1 else sm.1
    let ntfn := alloc asid .notification .notification
    let irqs := allocAll ntfn.1 (c.irqs.map (fun n => (Key.irq n, Obj.irq n)))
    let h := alloc irqs.1 .holding .empty
    .ok (h.1,
      { cnode := cn.2
        pd := pd.2
        untypeds := us.2.zip (untypedBits c)
        ioports := ps.2.zip c.ioports
        mmio := ms.2
        untypedMmio := (c.untypedMmios.zip ds.2).map (fun u => (u.1.1, u.1.2, u.2))
        iospaces := (c.iospaces.map devid).zip ios.2 ++ c.smmu.zip sm.2
        irqs := c.irqs.zip irqs.2
        holding := h.2 })

/-- `mmio_caps_len[0]`, component.simple.c:91, 96, 105. -/
def mmioCount (g : Gen) : Nat := (g.mmio.map (fun m => m.2.length)).sum

/-- `simple_camkes_untyped_count`, component.simple.c:201-203. -/
def untypedCount (g : Gen) : Nat := g.untypeds.length + g.untypedMmio.length

/-- `simple_camkes_cap_count`, component.simple.c:205-208. -/
def capCount (g : Gen) : Nat :=
  g.untypeds.length + mmioCount g + g.ioports.length + g.iospaces.length + g.untypedMmio.length + 3

/-- An entry of `simple_data.untyped`, component.simple.c:184-189. -/
structure Entry where
  cptr : Nat
  paddr : Nat
  bits : Nat
  device : Bool
  deriving DecidableEq

/-- A static entry that nothing was stored in. -/
def Entry.zero : Entry := ⟨0, 0, 0, false⟩

/-- What `camkes_make_simple` stores, component.simple.c:479-498; `addr` is the result of
`make_frame_get_paddr`. -/
def stored (addr : Nat → Nat) (g : Gen) : List Entry :=
  g.untypeds.map (fun u => if 12 ≤ u.2 then ⟨u.1, addr u.1, u.2, false⟩ else Entry.zero)
    ++ g.untypedMmio.map (fun u => ⟨u.2.2, u.1, u.2.1, true⟩)

/-- `simple_camkes_nth_untyped`, component.simple.c:210-222, for an index of the array. -/
def nthUntyped (addr : Nat → Nat) (g : Gen) (n : Nat) : Option Entry := (stored addr g)[n]?

/-- The cases for the frames, component.simple.c:249-255, with `mmio_counter[0]`. -/
def mmioCase (base n : Nat) : Nat → List (Region × List Nat) → Option Nat
  | _, [] => none
  | counter, m :: ms =>
    if base + counter ≤ n ∧ n < base + counter + m.2.length then m.2[n - (base + counter)]?
    else mmioCase base n (counter + m.2.length) ms

/-- A case for each element of a list, `base` is the first number. -/
def listCase (base n : Nat) (caps : List Nat) : Option Nat :=
  if base ≤ n ∧ n < base + caps.length then caps[n - base]? else none

/-- `simple_camkes_nth_cap`, component.simple.c:236-278; `none` if the assertion fails. -/
def nthCap (addr : Nat → Nat) (g : Gen) (n : Nat) : Option Nat :=
  let u := g.untypeds.length
  let m := mmioCount g
  let p := g.ioports.length
  let s := g.iospaces.length
  if n = 0 then some g.cnode
  else if n = 1 then some g.pd
  else if 2 ≤ n ∧ n ≤ u + 1 then ((stored addr g)[n - 2]?).map (·.cptr)
  else match mmioCase (2 + u) n 0 g.mmio with
  | some c => some c
  | none =>
    match listCase (2 + u + m) n (g.ioports.map (·.1)) with
    | some c => some c
    | none =>
      match listCase (2 + u + m + p) n (g.iospaces.map (·.2)) with
      | some c => some c
      | none =>
        match listCase (2 + u + m + p + s) n (g.untypedMmio.map (·.2.2)) with
        | some c => some c
        | none => if n = u + m + p + s + g.untypedMmio.length + 2 then some g.holding else none

/-- `simple_camkes_get_frame_cap`, component.simple.c:224-234, for a machine with `word` addresses:
the slot that is copied; `none` for `seL4_FailedLookup`. -/
def getFrame (word : Nat) (paddr bits : Nat) : List (Region × List Nat) → Option Nat
  | [] => none
  | m :: ms =>
    if m.1.paddr % word ≤ paddr ∧ paddr < (m.1.paddr % word + m.1.size % word) % word ∧ bits = m.1.bits then
      m.2[(paddr - m.1.paddr % word) / 2 ^ m.1.bits]?
    else getFrame word paddr bits ms

/-- `simple_camkes_get_IOPort_cap`, component.simple.c:308-327: each range that fits replaces the
capability, a null capability is refused. -/
def getPorts (g : Gen) (first last : Nat) : Option Nat :=
  let cap := g.ioports.foldl (fun cap p => if p.2.1 ≤ first ∧ last ≤ p.2.2 then p.1 else cap) 0
  if cap = 0 then none else some cap

/-- A switch over numbers. -/
def switch (n : Nat) : List (Nat × Nat) → Option Nat
  | [] => none
  | c :: cs => if c.1 = n then some c.2 else switch n cs

/-- `simple_camkes_get_iospace`, component.simple.c:330-347; both arguments have 16 bits. -/
def getIospace (g : Gen) (domain device : Nat) : Option Nat := switch (domain * 65536 + device) g.iospaces

/-- `simple_camkes_get_irq`, component.simple.c:390-403. -/
def getIrq (g : Gen) (irq : Nat) : Option Nat := switch irq g.irqs

/-- The size of the CNode, component.simple.c:167-180, 299-306, 486; `CONFIG_WORD_SIZE - CLZL(x)` is
the number of binary digits of `x`. -/
def cnodeSize (c : Config) (g : Gen) : Nat :=
  match c.cnodeSizeBits with
  | some b => b
  | none => Nat.log2 g.holding + 1 + 1

/-- `camkes_get_extended_bootinfo`, component.simple.c:449-462. For each name the memory from the
start of its page on, where the first word is the length; the type that is asked for is compared with
each name. The length is read from the header, `word - 1` is the length `-1`; `maxLen` is compared as an
unsigned number of `word` values. The result is what is copied; `none` for `-1`. -/
def getBootinfo (word : Nat) (infos : List (Nat × Nat × (Nat → Nat))) (type : Nat) (maxLen : Int) : Option (List Nat) :=
  let found := infos.foldl (fun m i => if type = i.1 then some i.2 else m) none
  match found with
  | none => none
  | some i =>
    if i.1 = word - 1 then none
    else
      let max := (maxLen % (word : Int)).toNat
      let len := if i.1 < max then i.1 else max
      some ((List.range len).map i.2)

end Verif.Simple
