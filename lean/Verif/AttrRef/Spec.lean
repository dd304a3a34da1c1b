import Verif.AttrRef.Model

namespace Verif.AttrRef.Spec
open Verif.AttrRef
variable {K V : Type}

/-- Setting number `j` is the only setting of attribute `r`. -/
def OnlySetting (s : List (Setting K V)) (r : Key) (j : Nat) : Prop :=
  (∃ v, s[j]? = some ⟨r, v⟩) ∧ ∀ (i : Nat) v, s[i]? = some ⟨r, v⟩ → i = j

/-- Attribute `r` is not set. -/
def NotSet (s : List (Setting K V)) (r : Key) : Prop := ∀ (i : Nat) v, s[i]? ≠ some ⟨r, v⟩

/-- Attribute `r` is set more than once. -/
def SetTwice (s : List (Setting K V)) (r : Key) : Prop :=
  ∃ (i j : Nat) (v w : Val K V), i ≠ j ∧ s[i]? = some ⟨r, v⟩ ∧ s[j]? = some ⟨r, w⟩

/-- Setting `i` is a reference to the attribute set by setting `j`. -/
def Next (s : List (Setting K V)) (i j : Nat) : Prop :=
  ∃ k r lk, s[i]? = some ⟨k, .ref r lk⟩ ∧ OnlySetting s r j

/-- The value setting `i` stands for: its literal, or what the referenced setting stands for
(subscripted if the reference says so), or the default of the referenced attribute, or failing
that its own default. -/
inductive Means (env : Env K V) (s : List (Setting K V)) : Nat → V → Prop
  | lit (i k v) : s[i]? = some ⟨k, .lit v⟩ → Means env s i v
  | follow (i k r j v) : s[i]? = some ⟨k, .ref r []⟩ → OnlySetting s r j → Means env s j v →
      Means env s i v
  | subscript (i k r lk j v w) : s[i]? = some ⟨k, .ref r lk⟩ → lk ≠ [] → OnlySetting s r j →
      Means env s j v → env.look v lk = some w → Means env s i w
  | default (i k r lk d) : s[i]? = some ⟨k, .ref r lk⟩ → NotSet s r → env.default r = some d →
      Means env s i d
  | ownDefault (i k r lk d) : s[i]? = some ⟨k, .ref r lk⟩ → NotSet s r → env.default r = none →
      env.default k = some d → Means env s i d

inductive Reach (s : List (Setting K V)) : Nat → Nat → Prop
  | refl (i) : Reach s i i
  | step (i j k) : Next s i j → Reach s j k → Reach s i k

/-- The chain of references from setting `i` runs into a circle. -/
def Circular (s : List (Setting K V)) (i : Nat) : Prop :=
  ∃ m m', Reach s i m ∧ Next s m m' ∧ Reach s m' m

/-- References with a subscript refer to literal settings only. -/
def SubscriptsDirect (s : List (Setting K V)) : Prop :=
  ∀ (i : Nat) k r lk, s[i]? = some ⟨k, .ref r lk⟩ → lk ≠ [] → ∀ (j : Nat) v, s[j]? = some ⟨r, v⟩ → ∃ w, v = .lit w

end Verif.AttrRef.Spec
