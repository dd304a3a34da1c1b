import Verif.VqChan.Model

/-!
# Specification: virtqueue channels (C59)
-/

namespace Verif.VqChan

/-- The channel last registered with an id. -/
def current (id : Nat) : List Event → Option Channel
  | [] => none
  | e :: es => if e.result = .ok ∧ e.id = id then some e.channel else current id es

/-- The name last registered with an id. -/
def nameOf (id : Nat) (es : List Event) : Option (List Char) := (current id es).bind (·.name)

/-- The property: a name that is registered is found, and what is found is registered under the name. -/
def NamesFound (max width : Nat) : Prop :=
  ∀ cs : List (Int × Channel), (∀ p ∈ cs, 0 ≤ p.1 ∧ p.1 ≤ max ∧ p.2.name ≠ none) → ∀ name,
    let r := run max (fun _ => zero) [] cs
    match getId max width r.1 name with
    | .id i => nameOf i r.2 = some name
    | .missing => ∀ i, nameOf i r.2 ≠ some name
    | .fault => False

end Verif.VqChan
