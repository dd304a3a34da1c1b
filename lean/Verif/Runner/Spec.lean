import Verif.Runner.Model

/-!
# Specification: items of the command line

Which entity of the assembly an item stands for, and with which address space it is rendered.
-/

namespace Verif.Runner.Spec

open Verif.Runner

/-- The first element of a list with a property. -/
def IsFirst {α : Type} (p : α → Prop) (l : List α) (x : α) : Prop :=
  ∃ before after, l = before ++ x :: after ∧ p x ∧ ∀ y ∈ before, ¬ p y

/-- A part of an item: it has no slash. -/
def Plain (t : Text) : Prop := '/' ∉ t

/-- The rest of an item: nothing, or a slash and anything. -/
def Rest (t : Text) : Prop := t = [] ∨ ∃ u, t = '/' :: u

/-- The `k`-th element, or, for a negative `k`, the element that is `-k` places from the end. -/
def At {α : Type} (l : List α) (k : Int) (x : α) : Prop :=
  ∃ before after, l = before ++ x :: after ∧ (k = before.length ∨ k = -(after.length + 1 : Int))

/-- The item stands for the entity, which is rendered for the address space. -/
inductive Names (num : Text → Option Int) (asm : Assembly) : Text → Entity → Option Text → Prop
  | component (n rest : Text) (i : Inst) : Plain n → Rest rest → IsFirst (fun x => x.name = n) asm.instances i →
      Names num asm ("component/".toList ++ n ++ rest) (.inst i) (some i.addressSpace)
  | to_ (n t rest : Text) (c : Connection) (k : Int) (e : End) : Plain n → Plain t → Rest rest →
      IsFirst (fun x => x.name = n) asm.connections c → num t = some k → At c.toEnds k e →
      Names num asm ("connector/".toList ++ n ++ "/to/".toList ++ t ++ rest) (.end_ e) (some e.addressSpace)
  | from_ (n t rest : Text) (c : Connection) (k : Int) (e : End) : Plain n → Plain t → Rest rest →
      IsFirst (fun x => x.name = n) asm.connections c → num t = some k → At c.fromEnds k e →
      Names num asm ("connector/".toList ++ n ++ "/from/".toList ++ t ++ rest) (.end_ e) (some e.addressSpace)
  | assembly (rest : Text) : Rest rest → Names num asm ("assembly".toList ++ rest) .assembly none

end Verif.Runner.Spec
