import Verif.Hierarchy.Model

namespace Verif.Hierarchy.Spec
open Verif.Hierarchy
variable {F V : Type}

abbrev Path := List Str

def instList : Insts F V → List (Str × Str × Comp F V)
  | .nil => []
  | .cons n sp t rest => (n, sp, t) :: instList rest

def insts : Comp F V → List (Str × Str × Comp F V) | .mk is _ _ _ _ => instList is
def conns : Comp F V → List (Conn F) | .mk _ cs _ _ _ => cs
def exports : Comp F V → List (Export F) | .mk _ _ es _ _ => es
def settings : Comp F V → List (Setting V) | .mk _ _ _ ss _ => ss
def decl : Comp F V → Decl F V | .mk _ _ _ _ d => d

/-- Walking down the hierarchy along instance names; the empty path is the assembly itself. -/
inductive CompAt : Comp F V → Path → Comp F V → Prop
  | here (c) : CompAt c [] c
  | down (c n sp t p d) : (n, sp, t) ∈ insts c → CompAt t p d → CompAt c (n :: p) d

/-- Instance `n` (with its declared address space and type) of the component at path `p`. -/
def InstAt (root : Comp F V) (p : Path) (n sp : Str) (t : Comp F V) : Prop :=
  ∃ c, CompAt root p c ∧ (n, sp, t) ∈ insts c

/-- The names of a path joined by dots. -/
def dotted : Path → Str
  | [] => []
  | [n] => n
  | n :: p => n ++ '.' :: dotted p

/-- What earlier stages guarantee: instances of one composition have distinct names (C08)
without dots, connection ends and exports refer to instances of their composition, and the
assembly itself has no interfaces of its own to connect or export. -/
structure WellFormed (root : Comp F V) : Prop where
  distinct : ∀ p c, CompAt root p c → ((insts c).map (·.1)).Nodup
  dotFree : ∀ p c, CompAt root p c → ∀ i ∈ insts c, '.' ∉ i.1
  ends : ∀ p c, CompAt root p c → ∀ k ∈ conns c, ∀ e ∈ k.froms ++ k.tos, ∀ i, e.inst = some i →
    i ∈ (insts c).map (·.1)
  sources : ∀ p c, CompAt root p c → ∀ x ∈ exports c, x.srcInst ∈ (insts c).map (·.1)
  rootEnds : ∀ k ∈ conns root, ∀ e ∈ k.froms ++ k.tos, e.inst ≠ none
  rootExports : exports root = []

/-- In component `c`, interface `f` stands for interface `g` of instance `i`: the last export
statement with destination `f` says so. -/
def ExportedAs (c : Comp F V) (f : F) (i : Str) (g : F) : Prop :=
  ∃ pre post, exports c = pre ++ ⟨i, g, f⟩ :: post ∧ ∀ x ∈ post, x.dest ≠ f

/-- `(q, g)` is the underlying interface of interface `f` of the instance at path `p`. -/
inductive Underlying (root : Comp F V) : Path → F → Path → F → Prop
  | done (p f c) : CompAt root p c → (∀ x ∈ exports c, x.dest ≠ f) → Underlying root p f p f
  | export (p f c i g q h) : CompAt root p c → ExportedAs c f i g →
      Underlying root (p ++ [i]) g q h → Underlying root p f q h

/-- End `e'` of the flattened connection is what end `e`, written in the component at `p`, means. -/
def EndMeans (root : Comp F V) (p : Path) (e e' : End F) : Prop :=
  ∃ q g, Underlying root (p ++ e.inst.toList) e.iface q g ∧ e' = ⟨some (dotted q), g⟩

inductive EndsMean (root : Comp F V) (p : Path) : List (End F) → List (End F) → Prop
  | nil : EndsMean root p [] []
  | cons (e e' es es') : EndMeans root p e e' → EndsMean root p es es' →
      EndsMean root p (e :: es) (e' :: es')

/-- Connection `k'` of the flattened assembly is what `k`, written in the component at `p`, means. -/
structure ConnMeans (root : Comp F V) (p : Path) (k k' : Conn F) : Prop where
  name : k'.name = dotted (p ++ [k.name])
  type : k'.type = k.type
  froms : EndsMean root p k.froms k'.froms
  tos : EndsMean root p k.tos k'.tos

/-- Qualifying a setting written in the component at `p`. -/
def qualify (p : Path) (s : Setting V) : Setting V :=
  ⟨dotted (p ++ [s.inst]), s.attr,
    match s.value with
    | .ref r lk => .ref (dotted (p ++ [r])) lk
    | .lit v => .lit v⟩

end Verif.Hierarchy.Spec
