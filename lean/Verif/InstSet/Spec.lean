import Verif.InstSet.Model

/-!
# Specification (C140)
-/

namespace Verif.InstSet

/-- A value names a core of the machine. -/
def Core (value : Text → Option Int) (nodes : Nat) (v : Val) : Prop := ∃ n : Nat, shown value v = some (n : Int) ∧ n < nodes

/-- The instance has settings for the affinity of single threads. -/
def Single (k : Config) (me : Text) : Prop := ∃ pre, pre ≠ [] ∧ ∃ v, k me (pre ++ "affinity".toList) = some v

/-- The affinity was written without a sign. -/
def Unsigned (value : Text → Option Int) (k : Config) (me : Text) : Prop :=
  ∀ v a, k me "affinity".toList = some v → shown value v = some a → 0 ≤ a

/-- The size of a CNode that was asked for in the address space, in bits. -/
def Asked (parse : Text → Option Int) (k : Config) (space : Text) (n : Int) : Prop :=
  (k space "cnode_size_bits".toList = some (.num n) ∧ n ≠ 0) ∨
    ∃ s, k space "cnode_size_bits".toList = some (.str s) ∧ s ≠ [] ∧ parse s = some n

end Verif.InstSet
