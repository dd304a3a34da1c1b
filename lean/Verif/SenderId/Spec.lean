import Verif.SenderId.Model

/-! Who is calling, from the history alone. -/

namespace Verif.SenderId

/-- The call that the interface `i` handles after the history is one of the client `c`: its call was received, and since then no method of the
interface has returned, and no other call was received there. -/
def Handles (i c : Nat) (h : List Event) : Prop :=
  ∃ before after, h = before ++ .called i c :: after ∧
    ∀ e ∈ after, (∀ d, e ≠ .called i d) ∧ ∀ b, e ≠ .done i b

/-- The badges that are configured for the clients of an interface are different from each other. -/
def Config.Distinct (g : Config) (i : Nat) : Prop :=
  ∀ a b n : Nat, (g.explicit i)[a]? = some (some n) → (g.explicit i)[b]? = some (some n) → a = b

end Verif.SenderId
