import Verif.Compose.Model

/-!
# C12: composing several assemblies
-/

namespace Verif.Compose
variable {I C E S D X : Type}

namespace Spec

/-- Collect something from every assembly in source order. -/
def fromAll {α : Type} (f : Assembly I C E S D → List α) : List (Item I C E S D X) → List α
  | [] => []
  | .assembly a :: rest => f a ++ fromAll f rest
  | .other _ :: rest => fromAll f rest

/-- The items that are not assemblies, in order. -/
def others : List (Item I C E S D X) → List X
  | [] => []
  | .assembly _ :: rest => others rest
  | .other x :: rest => x :: others rest

def HasAssembly (items : List (Item I C E S D X)) : Prop := ∃ a, Item.assembly a ∈ items

end Spec
open Spec

theorem absorb_fold (a : Assembly I C E S D) (as : List (Assembly I C E S D)) :
    (as.foldl absorb a) = ⟨a.instances ++ (as.flatMap (·.instances)),
      a.connections ++ (as.flatMap (·.connections)), a.exports,
      a.settings ++ (as.flatMap (·.settings)), a.schedule⟩ := by
  induction as generalizing a with
  | nil => simp
  | cons b as ih => simp [ih, absorb]

theorem fromAll_assemblies {α : Type} (f : Assembly I C E S D → List α) (items : List (Item I C E S D X)) :
    fromAll f items = (assemblies items).flatMap f := by
  induction items with
  | nil => rfl
  | cons i items ih => cases i <;> simp [fromAll, assemblies, ih]

theorem others_drop (items : List (Item I C E S D X)) :
    others (dropAssemblies items) = others items ∧ assemblies (dropAssemblies items) = [] := by
  induction items with
  | nil => exact ⟨rfl, rfl⟩
  | cons i items ih => cases i <;> simp [others, dropAssemblies, assemblies, ih]

/-- **C12.** If there is an assembly, composition succeeds and leaves exactly one assembly, in the
place of the first. Its instances, connections and settings are those of all
assemblies in source order, and all other items stay as they were. -/
theorem compose_keeps (items : List (Item I C E S D X)) (h : HasAssembly items) :
    ∃ pre a post, compose items = .ok (pre ++ .assembly a :: post) ∧
      assemblies (pre ++ post) = [] ∧
      others (pre ++ .assembly a :: post) = others items ∧
      a.instances = fromAll (·.instances) items ∧
      a.connections = fromAll (·.connections) items ∧
      a.settings = fromAll (·.settings) items ∧
      (∃ first rest, items = pre ++ .assembly first :: rest) := by
  induction items with
  | nil => obtain ⟨a, ha⟩ := h; simp at ha
  | cons i items ih =>
    cases i with
    | assembly a =>
      refine ⟨[], _, _, rfl, by simpa using (others_drop items).2, ?_, ?_, ?_, ?_, a, items, rfl⟩
      · simp [others, (others_drop items).1]
      · simp [fromAll, fromAll_assemblies, absorb_fold]
      · simp [fromAll, fromAll_assemblies, absorb_fold]
      · simp [fromAll, fromAll_assemblies, absorb_fold]
    | other x =>
      have h' : HasAssembly items := by
        obtain ⟨a, ha⟩ := h
        exact ⟨a, by simpa using ha⟩
      obtain ⟨pre, a, post, h1, h2, h3, h4, h5, h6, first, rest, h7⟩ := ih h'
      refine ⟨.other x :: pre, a, post, ?_, ?_, ?_, ?_, ?_, ?_, first, rest, ?_⟩
      · simp [compose, h1]
      · simpa [assemblies] using h2
      · simpa [others] using h3
      · simpa [fromAll] using h4
      · simpa [fromAll] using h5
      · simpa [fromAll] using h6
      · simp [h7]

/-- **C12 (errors).** Composition fails exactly if there is no assembly. -/
theorem compose_error_iff (items : List (Item I C E S D X)) :
    compose items = .error .parseError ↔ ¬ HasAssembly items := by
  constructor
  · intro h hh
    obtain ⟨pre, a, post, h1, _⟩ := compose_keeps items hh
    rw [h] at h1; cases h1
  · intro h
    induction items with
    | nil => rfl
    | cons i items ih =>
      cases i with
      | assembly a => exact absurd ⟨a, by simp⟩ h
      | other x =>
        have : ¬ HasAssembly items := fun ⟨a, ha⟩ => h ⟨a, by simp [ha]⟩
        simp [compose, ih this]

/-- **C12 does not extend to schedules and exports.** There are two assemblies whose second
schedule (and export) is dropped without an error. -/
theorem later_schedule_dropped :
    ∃ (a b : Assembly Nat Nat Nat Nat (List Nat)) (r : Assembly Nat Nat Nat Nat (List Nat)),
      compose (X := Nat) [.assembly a, .assembly b] = .ok [.assembly r] ∧
      a.schedule = [] ∧ b.schedule ≠ [] ∧ r.schedule = [] ∧ b.exports ≠ [] ∧ r.exports = [] :=
  ⟨⟨[1], [], [], [], []⟩, ⟨[2], [], [7], [], [3]⟩, ⟨[1, 2], [], [], [], []⟩, rfl, rfl, by decide, rfl,
    by decide, rfl⟩

example : compose [.other 5, .assembly ⟨[1], [2], ([] : List Nat), [3], 0⟩, .other 6, .assembly ⟨[4], [], [], [8], 0⟩] =
    .ok [.other 5, .assembly ⟨[1, 4], [2], [], [3, 8], 0⟩, .other 6] := rfl

end Verif.Compose
