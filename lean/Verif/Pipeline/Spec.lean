import Verif.Pipeline.Model
import Verif.Hierarchy.Spec
import Verif.Freeze.Spec

/-!
# What a specification means, in terms of what is written in it
-/

namespace Verif.Pipeline.Spec
open Verif.Pipeline
open Verif.Hierarchy (Str)
open Verif.Hierarchy.Spec (CompAt InstAt EndMeans dotted qualify Path)
variable {V : Type}

/-- The assemblies among the top-level items. -/
def assemblies : List (Item V) → List (Assembly V)
  | [] => []
  | .assembly a :: rest => a :: assemblies rest
  | .other _ :: rest => assemblies rest

/-- The given instances, each with its name, address space and type. -/
def instances : List (Str × Str × Comp V) → Hierarchy.Insts Iface V
  | [] => .nil
  | (n, sp, t) :: rest => .cons n sp t (instances rest)

/-- All assemblies together: the instances, connections and settings of all of them. -/
def whole (first : Assembly V) (rest : List (Assembly V)) : Comp V :=
  .mk (instances (first.instances ++ rest.flatMap (·.instances)))
    (first.connections ++ rest.flatMap (·.connections)) first.exports
    (first.settings ++ rest.flatMap (·.settings)) {}

/-- A connection written in the component at some path has a from-end that means `e`. -/
def FromWritten (root : Comp V) (ty : Str) (e : End) : Prop :=
  ∃ p c k x, CompAt root p c ∧ k ∈ Hierarchy.Spec.conns c ∧ k.type = ty ∧ x ∈ k.froms ∧ EndMeans root p x e

def ToWritten (root : Comp V) (ty : Str) (e : End) : Prop :=
  ∃ p c k x, CompAt root p c ∧ k ∈ Hierarchy.Spec.conns c ∧ k.type = ty ∧ x ∈ k.tos ∧ EndMeans root p x e

/-- One connection, written somewhere in the hierarchy, joins `e` and `e'`. -/
def Together (root : Comp V) (e e' : End) : Prop :=
  ∃ p c k x x', CompAt root p c ∧ k ∈ Hierarchy.Spec.conns c ∧ x ∈ k.froms ++ k.tos ∧
    x' ∈ k.froms ++ k.tos ∧ EndMeans root p x e ∧ EndMeans root p x' e'

/-- Connections, each of which has an end in common with the next, join `e` and `e'`. -/
inductive Joined (root : Comp V) : End → End → Prop
  | one (e e') : Together root e e' → Joined root e e'
  | step (e e' e'') : Joined root e e' → Together root e' e'' → Joined root e e''

/-- The setting `i.a = v` is written somewhere, with all names in full. -/
def Written (root : Comp V) (i a : Str) (v : Hierarchy.Value V) : Prop :=
  ∃ p c s, CompAt root p c ∧ s ∈ Hierarchy.Spec.settings c ∧ qualify p s = ⟨i, a, v⟩

/-- The attribute `a` of the instance with the full name `i` is declared with the default `v`. -/
def HasDefault (root : Comp V) (i a : Str) (v : V) : Prop :=
  ∃ p n sp t, InstAt root p n sp t ∧ dotted (p ++ [n]) = i ∧ (a, some v) ∈ (Hierarchy.Spec.decl t).attrs

/-- `i.a`, in full. -/
def key (i a : Str) : Str := i ++ '.' :: a

/-- The value of the attribute `a` of the instance `i`: what is written, or what the attribute has
that is referred to, or the default. -/
inductive Value (look : V → List Str → Option V) (root : Comp V) : Str → Str → V → Prop
  | lit (i a v) : Written root i a (.lit v) → Value look root i a v
  | ref (i a i' a' v) : Written root i a (.ref (key i' a') []) → '.' ∉ a' →
      Value look root i' a' v → Value look root i a v
  | subscript (i a i' a' lk v w) : Written root i a (.ref (key i' a') lk) → '.' ∉ a' → lk ≠ [] →
      Written root i' a' (.lit v) → look v lk = some w → Value look root i a w
  | refDefault (i a i' a' lk v) : Written root i a (.ref (key i' a') lk) → '.' ∉ a' →
      (∀ u, ¬ Written root i' a' u) → HasDefault root i' a' v → Value look root i a v
  | ownDefault (i a i' a' lk v) : Written root i a (.ref (key i' a') lk) → '.' ∉ a' →
      (∀ u, ¬ Written root i' a' u) → (∀ u, ¬ HasDefault root i' a' u) → HasDefault root i a v →
      Value look root i a v
  | default (i a v) : (∀ u, ¬ Written root i a u) → HasDefault root i a v → Value look root i a v

/-- A reference with a subscript refers to something that is set to a literal, or not set. -/
def SubscriptsDirect (root : Comp V) : Prop :=
  ∀ i a i' a' lk, Written root i a (.ref (key i' a') lk) → '.' ∉ a' → lk ≠ [] →
    ∀ u, Written root i' a' u → ∃ v, u = .lit v

/-- The attributes of a component have different names. -/
def AttributesDistinct (root : Comp V) : Prop :=
  ∀ p n sp t, InstAt root p n sp t → ((Hierarchy.Spec.decl t).attrs.map (·.1)).Nodup

/-- A connection suits its connector. -/
structure Suits (root : Comp V) (c : Freeze.Connector) (froms tos : List End) : Prop where
  hasFrom : froms ≠ []
  hasTo : tos ≠ []
  oneFrom : c.fromMultiple = false → froms.length = 1
  oneTo : c.toMultiple = false → tos.length = 1
  sameType : c.noTypeCheck = false → ∀ e ∈ froms ++ tos, ∀ e' ∈ froms ++ tos, e.iface.type = e'.iface.type
  fromKind : ∀ e ∈ froms, e.iface.kind ∈ Freeze.Spec.fromKinds c.fromType
  toKind : ∀ e ∈ tos, e.iface.kind ∈ Freeze.Spec.toKinds c.toType
  fromHw : ∀ e ∈ froms, ∀ p n sp t, InstAt root p n sp t → e.inst = some (dotted (p ++ [n])) →
    (Hierarchy.Spec.decl t).hardware = c.fromHardware
  toHw : ∀ e ∈ tos, ∀ p n sp t, InstAt root p n sp t → e.inst = some (dotted (p ++ [n])) →
    (Hierarchy.Spec.decl t).hardware = c.toHardware

/-- The interface `f` of an instance of `t` has to be connected: it consumes, uses or is a dataport,
is not optional, and does not stand for an interface of a nested instance. -/
def MustConnect (t : Comp V) (f : Iface) : Prop :=
  f ∈ (Hierarchy.Spec.decl t).ifaces ∧ (f.kind = .consumes ∨ f.kind = .uses ∨ f.kind = .dataport) ∧
    f.optional = false ∧ ∀ x ∈ Hierarchy.Spec.exports t, x.dest ≠ f

end Verif.Pipeline.Spec
