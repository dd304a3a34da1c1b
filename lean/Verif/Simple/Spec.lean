import Verif.Simple.Model

/-!
# Specification: components that make kernel objects themselves

What the settings of a component ask for, and when the settings make sense.
-/

namespace Verif.Simple.Spec

open Verif.Simple

/-- The slot `s` holds a capability to `o`. -/
def Holds (t : Table) (s : Nat) (o : Obj) : Prop := ∃ k, t[s]? = some (k, o)

/-- The number of frames that cover a region. -/
def frameCount (r : Region) : Nat := r.size / 2 ^ r.bits + (if r.size % 2 ^ r.bits = 0 then 0 else 1)

/-- The frames that cover a region, one after the other. -/
def frames (r : Region) : List Obj :=
  (List.range (frameCount r)).map (fun i => Obj.frame (r.paddr + i * 2 ^ r.bits) r.bits)

/-- The untyped memory that the settings ask for. -/
def untypeds (c : Config) : List Obj :=
  c.pools.flatMap (fun p => List.replicate p.2 (Obj.untyped p.1))

/-- The untyped device memory that the settings ask for. -/
def deviceUntypeds (c : Config) : List Obj := c.untypedMmios.map (fun u => Obj.deviceUntyped u.1 u.2)

/-- All that the component can list, in this order. -/
def listed (c : Config) : List Obj :=
  [Obj.cnode, Obj.pd] ++ untypeds c ++ c.mmios.flatMap frames
    ++ c.ioports.map (fun p => Obj.ports p.1 (p.2 + 1))
    ++ c.iospaces.map (fun p => Obj.iospace p.domain p.bus p.dev p.fn)
    ++ c.smmu.map Obj.smmu
    ++ deviceUntypeds c

/-- The settings make sense: frames are of a size that the machine has, memory is not given at two
sizes, and PCI devices have legal numbers. -/
structure Sensible (c : Config) : Prop where
  section_bits : c.sectionBits = 20 ∨ c.sectionBits = 21
  frame_bits : ∀ r ∈ c.mmios, r.bits = 12 ∨ r.bits = c.sectionBits
  one_size : ∀ r ∈ c.mmios, ∀ r' ∈ c.mmios, ∀ p b b', Obj.frame p b ∈ frames r → Obj.frame p b' ∈ frames r' → b = b'
  one_untyped : ∀ u ∈ c.untypedMmios, ∀ u' ∈ c.untypedMmios, u.1 = u'.1 → u = u'
  pci : ∀ p ∈ c.iospaces, p.bus < 256 ∧ p.dev < 32 ∧ p.fn < 8

/-- What other templates can have allocated before: the first slot is not usable. -/
def Earlier (t : Table) : Prop :=
  t ≠ [] ∧ ∀ e ∈ t, (∃ n, e.1 = Key.other n) ∨ e = (Key.cnode, Obj.cnode) ∨ e = (Key.pd, Obj.pd)

/-- The address is in the region. -/
def Contains (r : Region) (p : Nat) : Prop := r.paddr ≤ p ∧ p < r.paddr + r.size

/-- Nothing is asked for twice. -/
structure Distinct (c : Config) : Prop where
  pools : (c.pools.map (·.1)).Nodup
  frames : (c.mmios.flatMap frames).Nodup
  ports : c.ioports.Nodup
  untypeds : c.untypedMmios.Nodup
  pci : c.iospaces.Nodup
  smmu : c.smmu.Nodup

end Verif.Simple.Spec
