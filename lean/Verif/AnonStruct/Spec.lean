import Verif.AnonStruct.Model
import Verif.AttrText.Spec

/-!
# Specification (C142)
-/

namespace Verif.AnonStruct

open Verif.AttrText (Text Ty Fields Attr decimal)

/-- The names that the user gives to structs. -/
def declared (items : List Item) : List Text :=
  items.filterMap fun
    | .decl x _ => some x
    | .attr .. => none

/-- What the items say about attributes. -/
def written (items : List Item) : List (Text × Src × Bool) :=
  items.filterMap fun
    | .attr x ty a => some (x, ty, a)
    | .decl .. => none

/-- A name that the tool could make up. -/
def Reserved (x : Text) : Prop := ∃ n, x = "camkes_anon_struct_".toList ++ decimal n

mutual
/-- The type `ty` is what `src` means, if the structs in `env` are declared and the made-up names do not matter. -/
def Means (env : Text → Option Fields) : Src → Ty → Prop
  | .base b, .base c => b = c
  | .ref r, .struct x fs => r = x ∧ env r = some fs
  | .anon fs, .struct x gs => Reserved x ∧ MeansFields env fs gs
  | _, _ => False

/-- The fields `gs` are what `fs` means. -/
def MeansFields (env : Text → Option Fields) : SrcFields → Fields → Prop
  | .nil, .nil => True
  | .cons x s a rest, .cons y t b more => x = y ∧ a = b ∧ Means env s t ∧ MeansFields env rest more
  | _, _ => False
end

end Verif.AnonStruct
