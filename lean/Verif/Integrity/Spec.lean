import Verif.Integrity.Model

/-!
# Specification: which label belongs to what
-/

namespace Verif.Integrity.Spec

open Labels (Dict)

/-- The object was allocated under the label `k` (the name of an instance, an address space or a connection). -/
def Under (s : Space) (o : Obj) (k : String) : Prop := ∃ os, (k, os) ∈ s ∧ o ∈ os

/-- `k` belongs to the group labelled `l`; what is in no group is its own group. -/
def InGroup (g : Dict) (k l : String) : Prop := Labels.get g k = some l ∨ (Labels.get g k = none ∧ l = k)

/-- The constant that stands for the object called `n`: dots are replaced. -/
def constant (n : String) : String := String.ofList (n.toList.map fun c => if c = '.' then '\'' else c) ++ "_id"

/-- A name that can be made a constant: the first character is a letter or an underscore. -/
def Named (n : String) : Prop := ∃ c cs, n.toList = c :: cs ∧ (c.isAlpha = true ∨ c = '_')

/-- The name is that of a root untyped. -/
def Root (n : String) : Prop := ∃ rest, n.toList = "root_untyped_".toList ++ rest

/-- The entries give this label, and no other, to the constant. -/
def Labels (es : List Entry) (c l : String) : Prop :=
  (∃ e ∈ es, e.const = c ∧ e.label = l) ∧ ∀ e ∈ es, e.const = c → e.label = l

/-- The objects are told apart: no two have one name, and no name has a quote. -/
def Distinct (s : Space) : Prop :=
  ((s.flatMap fun p => p.2.map Obj.name)).Nodup ∧ ∀ p ∈ s, ∀ o ∈ p.2, '\'' ∉ o.name.toList

/-- An object with this label and name has been allocated. -/
def Allocated (s : Space) (p : String × String) : Prop := ∃ o, Under s o p.1 ∧ o.name = p.2

/-- An identifier of CAmkES, with the dots that instances inside of components have. -/
def Identifier (n : String) : Prop := Named n ∧ ∀ c ∈ n.toList, c.isAlphanum = true ∨ c = '_' ∨ c = '.'

end Verif.Integrity.Spec
