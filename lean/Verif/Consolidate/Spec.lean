import Verif.Consolidate.Model

namespace Verif.Consolidate.Spec
open Verif.Consolidate
variable {E T : Type}

/-- Connections number `c` and `d` have an end in common. -/
def Shares (conns : List (Conn E T)) (c d : Nat) : Prop :=
  ∃ k l e, conns[c]? = some k ∧ conns[d]? = some l ∧ e ∈ k.tos ++ k.froms ∧ e ∈ l.tos ++ l.froms

/-- Linked by a chain of shared ends. -/
inductive Linked (conns : List (Conn E T)) : Nat → Nat → Prop
  | refl (c) : Linked conns c c
  | step (c d f) : Linked conns c d → Shares conns d f → Linked conns c f

/-- Connection `r` is the merge of the connections numbered `s`. -/
structure MergeOf (conns : List (Conn E T)) (s : List Nat) (r : Conn E T) : Prop where
  nonempty : s ≠ []
  froms : ∀ e, e ∈ r.froms ↔ ∃ c ∈ s, ∃ k, conns[c]? = some k ∧ e ∈ k.froms
  tos : ∀ e, e ∈ r.tos ↔ ∃ c ∈ s, ∃ k, conns[c]? = some k ∧ e ∈ k.tos
  type : ∀ c ∈ s, ∀ k, conns[c]? = some k → k.type = r.type
  single : ∀ c, s = [c] → conns[c]? = some r
  /-- the new name: the old ones in order, joined by dots -/
  name : s.length ≠ 1 → ∃ l : List String, l.Perm (s.filterMap fun c => (conns[c]?).map (·.name)) ∧ l.Pairwise (· ≤ ·) ∧
    r.name = ".".intercalate l

inductive MergesOf (conns : List (Conn E T)) : List (List Nat) → List (Conn E T) → Prop
  | nil : MergesOf conns [] []
  | cons (s r ss rs) : MergeOf conns s r → MergesOf conns ss rs → MergesOf conns (s :: ss) (r :: rs)

/-- The classes of the linked relation, each exactly once. -/
structure Classes (conns : List (Conn E T)) (classes : List (List Nat)) : Prop where
  cover : ∀ c, c < conns.length → ∃ s ∈ classes, c ∈ s
  disjoint : classes.Pairwise fun s t => ∀ c, c ∈ s → c ∉ t
  linked : ∀ s ∈ classes, ∀ c ∈ s, c < conns.length ∧ ∀ d, d < conns.length → (d ∈ s ↔ Linked conns c d)

end Verif.Consolidate.Spec
