import Verif.Glue.Model

/-!
# Specification: what a call carries, and over which connection
-/

namespace Verif.Glue.Spec

/-- A value of the type of CAmkES with this name. -/
def HasType : Val → String → Prop
  | .int _, t => t ∈ ["int", "int8_t", "int16_t", "int32_t", "int64_t"]
  | .nat _, t => t ∈ ["unsigned int", "uint8_t", "uint16_t", "uint32_t", "uint64_t", "uintptr_t"]
  | .char _, t => t ∈ ["char", "character"]
  | .bool _, t => t = "bool"
  | .string _, t => t = "string"

/-- A value of a type of the theory. -/
def InNative : Val → Native → Prop
  | .int _, n => n = .int
  | .nat _, n => n = .nat
  | .char _, n => n = .char
  | .bool _, n => n = .bool
  | .string _, n => n = .string

/-- A type that the theory can speak of. -/
def Supported (t : String) : Prop := ∃ v, HasType v t

/-- The parameter goes to the server. -/
def Sent (p : Param) : Prop := p.dir = .in_ ∨ p.dir = .inout

/-- The parameter comes back. -/
def Returned (p : Param) : Prop := p.dir = .out ∨ p.dir = .inout

instance (p : Param) : Decidable (Sent p) := inferInstanceAs (Decidable (_ ∨ _))
instance (p : Param) : Decidable (Returned p) := inferInstanceAs (Decidable (_ ∨ _))

/-- The values that go to the server, in the order of the parameters. -/
def arguments (m : Method) (args : String → Val) : List Val := (m.params.filter fun p => Sent p).map fun p => args p.name

/-- The values that come back: the result and the parameters, in their order. -/
def answers (m : Method) (outs : String → Val) : List Val :=
  (match m.ret with | some _ => [outs "return"] | none => []) ++ (m.params.filter fun p => Returned p).map fun p => outs p.name

/-- All types of a method that the theory has to speak of are supported. -/
def Describable (m : Method) : Prop :=
  (∀ t, m.ret = some t → Supported t) ∧ ∀ p ∈ m.params, Sent p ∨ Returned p → Supported p.type

/-- The interface of the instance is an end of the connection. -/
def Attached (c : Conn) (i f : String) : Prop := ⟨i, f⟩ ∈ c.froms ∨ ⟨i, f⟩ ∈ c.tos

/-- No interface is connected twice. -/
def Once (conns : List Conn) : Prop := (conns.flatMap fun c => c.froms ++ c.tos).Nodup

/-- At most one interface of the instance on each side of a connection. -/
def Single (conns : List Conn) (i : String) : Prop :=
  ∀ c ∈ conns, (∀ e ∈ c.froms, ∀ e' ∈ c.froms, e.inst = i → e'.inst = i → e = e') ∧
    ∀ e ∈ c.tos, ∀ e' ∈ c.tos, e.inst = i → e'.inst = i → e = e'

/-- The ends of connections are interfaces of the kind that is joined, of instances with different names, whose interfaces have different
names. -/
structure Joined (is : List Inst) (conns : List Conn) : Prop where
  instances : (is.map Inst.name).Nodup
  interfaces : ∀ i ∈ is, ((i.type.emits ++ i.type.consumes ++ i.type.dataports).map (·.1)).Nodup
  events : ∀ c ∈ conns, c.joins = .event → ∀ e ∈ c.froms, ∃ i ∈ is, i.name = e.inst ∧ ∃ t, (e.iface, t) ∈ i.type.emits
  dataports : ∀ c ∈ conns, c.joins = .dataport → ∀ e ∈ c.froms, ∃ i ∈ is, i.name = e.inst ∧ ∃ t, (e.iface, t) ∈ i.type.dataports

end Verif.Glue.Spec
