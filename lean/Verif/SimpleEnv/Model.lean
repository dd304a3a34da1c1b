/-!
# Model: what a dynamic component is told about itself (component.simple.c)

The functions of the interface `simple` that say which capabilities the component started with, beyond the lists of
C21 and its companions: the initial capabilities, the I/O spaces of the SMMU, scheduling control and address space
identifiers. Capabilities and cores are numbers.
-/

namespace Verif.SimpleEnv

/-- The architectures of the kernel, component.simple.c:380-384, 444. -/
inductive Arch
  | x86 | arm | riscv
  deriving DecidableEq

/-- What is fixed when the component is generated and built: the capabilities `self_cnode` and `self_pd`
(component.simple.c:30-31), `iospaces` (124-145), the core and capability for scheduling control (33-37),
`asidpool` (148-150), the options and the configuration of the kernel. -/
structure Conf where
  cnode : Nat
  pd : Nat
  iospaces : List (Nat × Nat)
  sched : Option (Int × Nat)
  asidPool : Option Nat
  realtime : Bool
  asserts : Bool
  mcs : Bool
  smmu : Bool
  arch : Arch
  nodes : Nat

/-- `simple_data`, component.simple.c:190-198: one for the component (without the size of the CNode and the untypeds,
which are in `Verif.Simple` and `Verif.UntypedAddr`). -/
structure Data where
  inittcb : Nat
  initsc : Nat
  deriving DecidableEq

/-- The thread-local storage of the caller: `tcb_cap` and `sc_cap`, component.simple.c:500-501. -/
structure Tls where
  tcb : Nat
  sc : Nat

/-- The result of a call of one of component.simple.c:280-477. -/
inductive Res
  /-- a capability, or 0 -/
  | cap (c : Nat)
  /-- an error of the kernel's library; 0 is `seL4_NoError` -/
  | error (e : Nat)
  /-- a failed assertion -/
  | died
  /-- C does not say what happens -/
  | undefined
  deriving DecidableEq

/-- `seL4_FailedLookup`, component.simple.c:386. -/
def failedLookup : Nat := 6

/-- The names of initial capabilities. `other` are those that the switch has no case for,
component.simple.c:282-295. -/
inductive Init
  | cnode | pd | tcb | sc | other
  deriving DecidableEq

/-- `simple_camkes_init_cap`, component.simple.c:280-297. -/
def initCap (f : Conf) (d : Data) : Init → Res
  | .cnode => .cap f.cnode
  | .pd => .cap f.pd
  | .tcb => .cap d.inittcb
  | .sc => if f.realtime then .cap d.initsc else if f.asserts then .died else .cap 0
  | .other => if f.asserts then .died else .cap 0

/-- The cases of the switch of `simple_camkes_get_iospace_nth_cap`, the first of which has the number `i`,
component.simple.c:360-367. -/
def ioCases (n : Int) : Nat → List (Nat × Nat) → Res
  | _, [] => .cap 0
  | i, s :: ss => if n = i then .cap s.2 else ioCases n (i + 1) ss

/-- `simple_camkes_get_iospace_nth_cap`, component.simple.c:358-371. -/
def nthIospace (f : Conf) (n : Int) : Res :=
  if f.iospaces.length > 0 then ioCases n 0 f.iospaces else .cap 0

/-- `simple_camkes_get_iospace_cap_count`, component.simple.c:351-356: what is stored, if there is somewhere to store it. -/
def iospaceCount (f : Conf) (there : Bool) : Option Nat × Res :=
  (if there then some f.iospaces.length else none, .error 0)

/-- `simple_camkes_set_ASID`, component.simple.c:378-388; `kernel` is the result of the assignment of a pool to an address
space. The function has no statement for architectures other than two. -/
def setAsid (f : Conf) (kernel : Nat → Nat → Nat) (vspace : Nat) : Res :=
  match f.asidPool with
  | some pool => if f.arch = .x86 ∨ f.arch = .arm then .error (kernel pool vspace) else .undefined
  | none => .error failedLookup

/-- `camkes_simple_sched_ctrl`, component.simple.c:464-473. -/
def schedCtrl (f : Conf) (core : Int) : Res :=
  if f.realtime then
    match f.sched with
    | some (c, cap) => if core = c then .cap cap else .cap 0
    | none => .cap 0
  else .cap 0

/-- `camkes_simple_core_count`, component.simple.c:475-477. -/
def coreCount (f : Conf) : Nat := f.nodes

/-- The functions of the interface, component.simple.c:439-447, 503-526. -/
inductive Fn
  | frameInfo | frameCap | frameMapping | asidAssign | capCount | nthCap | initCap | cnodeSize | untypedCount | nthUntyped
  | userimageCount | nthUserimage | extendedBootinfo | schedCtrl | coreCount | iospaceCount | nthIospace | print | irq | iospace | ioport
  deriving DecidableEq

/-- Which functions the interface has, component.simple.c:439-447, 502-526; the others are null or were never set.
`iommu` is the kernel's configuration. -/
def has (f : Conf) (iommu : Bool) : Fn → Bool
  | .frameInfo => false
  | .frameMapping => false
  | .userimageCount => false
  | .nthUserimage => false
  | .schedCtrl => f.mcs
  | .coreCount => f.mcs
  | .iospaceCount => f.smmu
  | .nthIospace => f.smmu
  | .iospace => iommu
  | .ioport => f.arch = .x86
  | _ => true

/-- The end of `camkes_make_simple`, component.simple.c:499-502: the data is written on each call, by each thread. -/
def make (t : Tls) (_ : Data) : Data := ⟨t.tcb, t.sc⟩

/-- The data after calls of `camkes_make_simple` (component.simple.c:479-527) by threads, in turn. -/
def makes : List Tls → Data → Data
  | [], d => d
  | t :: ts, d => makes ts (make t d)

/-- `simple_data` before any call, component.simple.c:198: static, so zero. -/
def zero : Data := ⟨0, 0⟩

end Verif.SimpleEnv
