import Verif.Freeze.Model

namespace Verif.Freeze.Spec
open Verif.Freeze

/-- The kinds of interface that can start a connection of the stated kind. -/
def fromKinds : Option EndKind → List Kind
  | some .event => [.emits]
  | some .procedure => [.uses]
  | some .dataport => [.dataport]
  | none => [.emits, .uses, .dataport]

/-- The kinds of interface that can finish a connection of the stated kind. -/
def toKinds : Option EndKind → List Kind
  | some .event => [.consumes]
  | some .procedure => [.provides]
  | some .dataport => [.dataport]
  | none => [.consumes, .provides, .dataport]

/-- The ends of a connection are compatible with each other and with the connector. -/
structure Compatible (c : Connector) (froms tos : List CEnd) : Prop where
  hasFrom : froms ≠ []
  hasTo : tos ≠ []
  oneFrom : c.fromMultiple = false → froms.length = 1
  oneTo : c.toMultiple = false → tos.length = 1
  sameType : c.noTypeCheck = false → ∀ e ∈ froms ++ tos, ∀ f ∈ froms ++ tos, e.type = f.type
  fromKind : ∀ e ∈ froms, e.kind ∈ fromKinds c.fromType
  toKind : ∀ e ∈ tos, e.kind ∈ toKinds c.toType
  fromHw : ∀ e ∈ froms, e.hardware = c.fromHardware
  toHw : ∀ e ∈ tos, e.hardware = c.toHardware

/-- An interface that has to be connected: one that consumes, uses or is a dataport, is not
optional, and does not merely stand for an interface of a nested component. -/
def Mandatory (i : Inst) (f : Iface) : Prop :=
  (f.kind = .consumes ∨ f.kind = .uses ∨ f.kind = .dataport) ∧ f.optional = false ∧ f ∉ i.exported

/-- What an accepted top-level composition guarantees. -/
structure WellConnected (insts : List Inst) (conns : List (List End)) : Prop where
  /-- no interface of any instance is used twice, in one connection or in two -/
  once : conns.flatten.Nodup
  /-- connection ends are interfaces of instances of this composition -/
  exist : ∀ c ∈ conns, ∀ e ∈ c, e.inst ∈ insts ∧ e.iface ∈ e.inst.ifaces
  /-- mandatory interfaces are connected -/
  mandatory : ∀ i ∈ insts, ∀ f ∈ i.ifaces, Mandatory i f → ∃ c ∈ conns, (⟨i, f⟩ : End) ∈ c

/-- The value of attribute `a` of instance `i` in a configuration. -/
def ConfigValue {V : Type} (insts : List (CInst V)) (settings : List (Setting V)) (i a : String) (v : V) : Prop :=
  (∃ s ∈ settings, s.inst = i ∧ s.attr = a ∧ s.value = v) ∨
  ((∀ s ∈ settings, ¬ (s.inst = i ∧ s.attr = a)) ∧
    ∃ x ∈ insts, x.name = i ∧ ∃ d ∈ x.attrs, d.name = a ∧ d.default = some v)

end Verif.Freeze.Spec
