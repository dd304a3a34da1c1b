import Mathlib.Data.List.Basic
import Mathlib.Tactic.Tauto

/-!
# Model: attribute values in the generated code (C78)

`show_attribute_value` and `print_type_definitions` (camkes/templates/macros.py:148-161, 177-247), with which
component.template.h:36-43 and component.common.c:522-531 define the attributes of a component as constants of C.

Values are what the parser gives: numbers, strings, lists and dictionaries (stage3.py:480-486, 541-543, 572-576). The text of a
floating point number is opaque. The text of a definition of a struct is not modelled, only what it declares.
-/

namespace Verif.AttrText

abbrev Text := List Char

mutual
/-- The type of an attribute: a name or a struct. -/
inductive Ty
  | base (name : Text)
  | struct (name : Text) (fields : Fields)

/-- The attributes of a struct: name, type, whether it is an array. -/
inductive Fields
  | nil
  | cons (name : Text) (ty : Ty) (array : Bool) (rest : Fields)
end

/-- A value of Python. -/
inductive Val
  | int (n : Int)
  | float (text : Text)
  | str (s : Text)
  | list (l : List Val)
  | dict (d : List (Text × Val))

/-- An exception: `KeyError`, `TypeError` or `AttributeError`. `text`: not an exception, but the text that Python has for a
list or dictionary, which is not modelled. -/
inductive Err
  | python
  | text
  deriving DecidableEq, Repr

/-- `d[n]` or `d.get(n)`. -/
def dget : List (Text × Val) → Text → Option Val
  | [], _ => none
  | (k, v) :: rest, n => if k = n then some v else dget rest n

/-- A decimal digit. -/
def digit (d : Nat) : Char := Char.ofNat (48 + d)

/-- The decimal digits of a number. -/
def decimal (n : Nat) : Text := if n < 10 then [digit n] else decimal (n / 10) ++ [digit (n % 10)]
decreasing_by omega

/-- `str(value)` of a number, macros.py:241. -/
def showNumber : Val → Except Err Text
  | .int n => .ok (if n < 0 then '-' :: decimal n.natAbs else decimal n.natAbs)
  | .float t => .ok t
  | .str s => .ok s
  | .list _ => .error .text
  | .dict _ => .error .text

/-- The elements, with `sep` between them (macros.py:243-245). -/
def join (sep : Text) : List Text → Text
  | [] => []
  | [x] => x
  | x :: y :: r => x ++ sep ++ join sep (y :: r)

/-- Apply to each element. -/
def mapE {α β : Type} (f : α → Except Err β) : List α → Except Err (List β)
  | [] => .ok []
  | v :: rest =>
    match f v with
    | .error e => .error e
    | .ok w => match mapE f rest with
      | .error e => .error e
      | .ok r => .ok (w :: r)

/-- The braces of an array, macros.py:222-225, 243-245. -/
def braces : Except Err (List Text) → Except Err Text
  | .error e => .error e
  | .ok ts => .ok (['{', '\\', '\n'] ++ join [',', '\\', '\n'] ts ++ ['}'])

mutual
/-- The body of the loop in `show_attribute_value`, macros.py:230-241, for one value. -/
def showOne : Ty → Val → Except Err Text
  | .base _, v => match v with
    | .str s => .ok ('"' :: s ++ ['"'])
    | v => showNumber v
  | .struct _ fs, v => match v with
    | .str s => .ok ('"' :: s ++ ['"'])
    | .dict d => (match showFields fs d with
      | .error e => .error e
      | .ok b => .ok (['{', '\\', '\n'] ++ b ++ ['}']))
    | _ => .error .python

/-- The loop over the attributes of a struct, macros.py:234-237. -/
def showFields : Fields → List (Text × Val) → Except Err Text
  | .nil, _ => .ok []
  | .cons n ty _ rest, d =>
    match dget d n with
    | none => .error .python
    | some v =>
      match (match v with
        | .list l => braces (mapE (showOne ty) l)
        | v => showOne ty v : Except Err Text) with
      | .error e => .error e
      | .ok t => match showFields rest d with
        | .error e => .error e
        | .ok r => .ok (('.' :: n) ++ [' ', '=', ' '] ++ t ++ [',', '\\', '\n'] ++ r)
end

/-- `show_attribute_value`, macros.py:214-247: it looks at the value to see if it is an array. -/
def showAttr (ty : Ty) (v : Val) : Except Err Text :=
  match v with
  | .list l => braces (mapE (showOne ty) l)
  | v => showOne ty v

/-! ## Definitions of structs -/

/-- A struct that was found, with the value that its arrays are measured with. -/
structure Found where
  name : Text
  fields : Fields
  value : Option Val

/-- `values[0] if values else None`, macros.py:194-195. Simplification: the first character of a string is an exception. -/
def first : Option Val → Except Err (Option Val)
  | none => .ok none
  | some (.list []) => .ok none
  | some (.list (v :: _)) => .ok (some v)
  | some (.dict []) => .ok none
  | some (.str []) => .ok none
  | some (.int 0) => .ok none
  | some _ => .error .python

mutual
/-- `recurse_structs`, macros.py:187-197, and nothing for an attribute that is no struct. -/
def collect : Ty → Bool → Option Val → Except Err (List Found)
  | .base _, _, _ => .ok []
  | .struct n fs, array, v =>
    match collectFields fs v with
    | .error e => .error e
    | .ok inner =>
      match (if array then first v else .ok v) with
      | .error e => .error e
      | .ok v' => .ok (inner ++ [⟨n, fs, v'⟩])

/-- The loop in macros.py:190-192. -/
def collectFields : Fields → Option Val → Except Err (List Found)
  | .nil, _ => .ok []
  | .cons n ty array rest, v =>
    match (match ty, v with
      | .base _, _ => .ok []
      | .struct _ _, some (.dict d) => collect ty array (dget d n)
      | .struct _ _, _ => .error .python : Except Err (List Found)) with
    | .error e => .error e
    | .ok a => match collectFields rest v with
      | .error e => .error e
      | .ok b => .ok (a ++ b)
end

/-- What a definition says about a field: the type, the name and the dimension of an array. -/
structure FieldDef where
  type : Text
  name : Text
  dim : Option Nat
  deriving DecidableEq

/-- `show_type`, macros.py:148-160. -/
def showType : Ty → Text
  | .base t =>
    if t = "string".toList then "char *".toList
    else if t = "character".toList then "char".toList
    else if t = "boolean".toList then "bool".toList
    else t
  | .struct n _ => "struct ".toList ++ n

/-- `len(sub_value.get(i.name)) if sub_value else 0`, macros.py:183. -/
def dimension (v : Option Val) (n : Text) : Except Err Nat :=
  match v with
  | none => .ok 0
  | some (.dict []) => .ok 0
  | some (.dict d) => match dget d n with
    | some (.list l) => .ok l.length
    | some (.str s) => .ok s.length
    | some (.dict e) => .ok e.length
    | _ => .error .python
  | some _ => .error .python

/-- `print_struct_definition`, macros.py:178-185. -/
def define (v : Option Val) : Fields → Except Err (List FieldDef)
  | .nil => .ok []
  | .cons n ty array rest =>
    match (if array then (dimension v n).map some else .ok none) with
    | .error e => .error e
    | .ok dim => match define v rest with
      | .error e => .error e
      | .ok r => .ok (⟨showType ty, n, dim⟩ :: r)

/-- The definition of a struct. -/
structure Def where
  name : Text
  fields : List FieldDef
  deriving DecidableEq

/-- The last loop of `print_type_definitions`, macros.py:205-209; `drawn`: `already_drawn`. -/
def draw (drawn : List Text) : List Found → Except Err (List Def)
  | [] => .ok []
  | f :: rest =>
    if f.name ∈ drawn then draw drawn rest
    else match define f.value f.fields with
      | .error e => .error e
      | .ok fs => match draw (f.name :: drawn) rest with
        | .error e => .error e
        | .ok r => .ok (⟨f.name, fs⟩ :: r)

/-- An attribute of a component. -/
structure Attr where
  name : Text
  ty : Ty
  array : Bool

/-- The loop in macros.py:199-203; `values` is the configuration of the instance. -/
def collectAll (values : List (Text × Val)) : List Attr → Except Err (List Found)
  | [] => .ok []
  | a :: rest =>
    match collect a.ty a.array (dget values a.name) with
    | .error e => .error e
    | .ok x => match collectAll values rest with
      | .error e => .error e
      | .ok y => .ok (x ++ y)

/-- `print_type_definitions`, macros.py:177-211. -/
def definitions (attrs : List Attr) (values : List (Text × Val)) : Except Err (List Def) :=
  match collectAll values attrs with
  | .error e => .error e
  | .ok l => draw [] l

/-- The declaration of an attribute (component.template.h:43): the type and the dimension of an array, `len(value)`; there
is an error if an array has no value. -/
def declare (a : Attr) (value : Option Val) : Except Err (Text × Option Nat) :=
  if a.array then
    match value with
    | some (.list l) => .ok (showType a.ty, some l.length)
    | some (.str s) => .ok (showType a.ty, some s.length)
    | some (.dict d) => .ok (showType a.ty, some d.length)
    | _ => .error .python
  else .ok (showType a.ty, none)

end Verif.AttrText
