import Verif.Timing.Model

/-!
# Specification of the time stamps

In terms of the history of the program alone.
-/

namespace Verif.Timing.Spec

/-- The use of the macro at `site` has the first point. -/
def IsFirst (points : List String) (nameAt : Nat → String) (site : Nat) : Prop :=
  points.head? = some (nameAt site)

instance (points : List String) (nameAt : Nat → String) (site : Nat) :
    Decidable (IsFirst points nameAt site) := by unfold IsFirst; infer_instance

/-- How often the first point was passed since the last reset: the number of the iteration the
program is in, plus one. -/
def passes (points : List String) (nameAt : Nat → String) : List Event → Nat
  | [] => 0
  | e :: l => match e with
    | .reset => passes points nameAt l
    | .stamp site _ =>
      passes points nameAt l
        + (if IsFirst points nameAt site ∧ Event.reset ∉ l then 1 else 0)

/-- The last event in `hist` that passed `point` in the iteration `n` since the last reset
happened at the cycle count `t`. -/
def Passed (points : List String) (nameAt : Nat → String) (hist : List Event) (n : Nat)
    (point : String) (t : Nat) : Prop :=
  ∃ before site after, hist = before ++ .stamp site t :: after ∧ nameAt site = point
    -- there is no reset after it
    ∧ .reset ∉ after
    -- it is in the iteration `n`
    ∧ passes points nameAt (before ++ [.stamp site t]) = n + 1
    -- and none after it is one for this point in this iteration
    ∧ ∀ mid site' t' rest, after = mid ++ .stamp site' t' :: rest → nameAt site' = point →
        passes points nameAt (before ++ .stamp site t :: mid ++ [.stamp site' t']) ≠ n + 1

/-- Every use of the macro has one of the points. -/
def Known (points : List String) (nameAt : Nat → String) (hist : List Event) : Prop :=
  ∀ site t, .stamp site t ∈ hist → nameAt site ∈ points

/-- No stretch without a reset is so long that the iterations cannot be counted any more. -/
def Countable (points : List String) (nameAt : Nat → String) (hist : List Event) : Prop :=
  ∀ l, l <+: hist → passes points nameAt l ≤ 2 ^ 31

end Verif.Timing.Spec
