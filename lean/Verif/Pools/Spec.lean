import Verif.Pools.Model

/-!
# Specification: the objects of a component (C91, C92)
-/

namespace Verif.Pools

/-- Every new capability takes a slot that is not in use and is not null. -/
def Space.Good (sp : Space) : Prop := ∀ used, sp.fresh used ∉ used ∧ sp.fresh used ≠ 0

/-- The value of a text of digits. -/
def number : Text → Nat
  | [] => 0
  | c :: t => (c.toNat - 48) * 10 ^ t.length + number t

/-- The names that the template itself gives to objects. -/
def Generated (n : Text) : Prop :=
  (∃ k, n = "smc_".toList ++ dec k) ∨ (∃ i, n = "tcb_pool_".toList ++ dec i) ∨ (∃ i, n = "ep_pool_".toList ++ dec i) ∨
  (∃ i, n = "notification_pool_".toList ++ dec i) ∨ (∃ t i, n = "untyped_".toList ++ t ++ "_pool_".toList ++ dec i) ∨
  n = "pre_init_ep".toList ∨ n = "interface_init_ep".toList ∨ n = "post_init_ep".toList

/-- The names that the user declares. -/
def declared (c : Config) : List Text := c.mutexes ++ c.semaphores ++ c.binaries

/-- No name is declared twice, none is one that the template uses, a function is listed once, and so
is a size (which is the case for the keys of a configuration). -/
structure Sensible (c : Config) : Prop where
  once : (declared c).Nodup
  free : ∀ n ∈ declared c, ¬ Generated n
  smcs : c.smcs.Nodup
  sizes : (c.untypeds.map (·.1)).Nodup
  digits : ∀ u ∈ c.untypeds, ∀ d ∈ u.1, ∃ k < 10, d = Nat.digitChar k

/-- The capability in a slot is to the object with this name, which is of this kind. -/
def Has (s : State) (slot : Nat) (name : Text) (kind : Kind) : Prop :=
  ∃ e ∈ s.named, e.slot = slot ∧ e.name = name ∧ e.kind = kind

/-- Every slot holds one capability only. -/
def OneEach (s : State) : Prop := ∀ e ∈ s.named, ∀ e' ∈ s.named, e.slot = e'.slot → e = e'

/-- What was allocated before has other names. -/
def Before (s : State) (c : Config) : Prop :=
  OneEach s ∧ ∀ e ∈ s.named, e.slot ∈ s.used ∧ ¬ Generated e.name ∧ e.name ∉ declared c

/-- All slots of the generated code. -/
def allSlots (g : Gen) : List Nat :=
  g.smcs ++ g.mutexes ++ g.semaphores ++ g.binaries ++ g.tcbs ++ g.eps ++ g.notifications ++ g.untypeds ++ g.start

/-- The settings that the template accepts. -/
def Acceptable (c : Config) : Prop :=
  (∀ n ∈ c.binaries, c.value n = none ∨ c.value n = some 0 ∨ c.value n = some 1) ∧
  (∀ ds, c.domains = some ds → c.tcbs ≤ ds.length) ∧
  (∀ u ∈ c.untypeds, 0 < u.2 → 4 ≤ number u.1 ∧ number u.1 ≤ 28)

/-- The sizes of the untyped objects that are asked for, in order. -/
def untypedBits (c : Config) : List Nat := c.untypeds.flatMap (fun u => List.replicate u.2 (number u.1))

/-- The types of objects are different numbers. -/
def Types.Distinct (ty : Types) : Prop :=
  ty.tcb ≠ ty.endpoint ∧ ty.tcb ≠ ty.notification ∧ ty.tcb ≠ ty.untyped ∧ ty.endpoint ≠ ty.notification ∧
  ty.endpoint ≠ ty.untyped ∧ ty.notification ≠ ty.untyped

/-- What some allocations in a row return if there are these capabilities: each of them once, the last one first,
and then null. -/
def Drawn (caps : List Nat) (k : Nat) : List Nat := caps.reverse.take k ++ List.replicate (k - caps.length) 0

/-- The right to read and to write. -/
def readWrite : Rights → Nat
  | .number r w => r ||| w
  | .struct r w => r ||| w

/-- The slots of the untyped objects of a size. -/
def ofBits (b : Nat) : List Nat → List Nat → List Nat
  | b' :: bs, x :: xs => if b' = b then x :: ofBits b bs xs else ofBits b bs xs
  | _, _ => []

end Verif.Pools
