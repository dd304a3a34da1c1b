/-!
# Model: type checking of settings (`types_compatible`, camkes/ast/objects.py:35-80, and
`Assembly.freeze`, camkes/ast/objects.py:188-206)

Values are integers, floats (opaque), strings, lists and dictionaries. The code fills in missing
struct fields by mutating the value in place; the model returns the filled value instead.
(Defaults are not shared with other settings here; in the code the default object itself is put
into the value.)
-/

namespace Verif.TypeCheck

inductive Val
  | int (n : Int)
  | float (bits : Nat)
  | str (s : String)
  | list (l : List Val)
  | dict (d : List (String × Val))

mutual
/-- An attribute's type: a type name or a struct. -/
inductive Ty
  | base (name : String)
  | struct (fields : Fields)

/-- The attributes of a struct: name, type, whether it is an array, and the default. -/
inductive Fields
  | nil
  | cons (name : String) (ty : Ty) (array : Bool) (default : Option Val) (rest : Fields)
end

inductive Err
  | mistyped      -- ASTError
  | python        -- AssertionError, AttributeError or KeyError
  deriving DecidableEq, Repr

/-- `value[name]`. -/
def dget : List (String × Val) → String → Option Val
  | [], _ => none
  | (k, v) :: rest, n => if k = n then some v else dget rest n

/-- `value[name] = v`. -/
def dset : List (String × Val) → String → Val → List (String × Val)
  | [], n, v => [(n, v)]
  | (k, w) :: rest, n, v => if k = n then (k, v) :: rest else (k, w) :: dset rest n v

/-- Missing fields that have a default get it, camkes/ast/objects.py:58-69. -/
def fill : Fields → List (String × Val) → List (String × Val)
  | .nil, d => d
  | .cons n _ _ df rest, d =>
    match dget d n, df with
    | none, some v => fill rest (dset d n v)
    | _, _ => fill rest d

/-- The tests for a type given by name, camkes/ast/objects.py:44-54. -/
def baseOk (t : String) : Val → Bool
  | .int _ => t = "int" || t = "uint64_t" || t = "int64_t"
  | .float _ => t = "double" || t = "float"
  | .str _ => t = "string"
  | .list _ => t = "list"
  | .dict _ => t = "dict"

/-- Check a list of values one after the other. -/
def mapE (f : Val → Except Err Val) : List Val → Except Err (List Val)
  | [] => .ok []
  | v :: rest =>
    match f v with
    | .error e => .error e
    | .ok v' => match mapE f rest with
      | .error e => .error e
      | .ok r => .ok (v' :: r)

mutual
/-- The loop body of `types_compatible`, camkes/ast/objects.py:42-78, for one value. -/
def one : Ty → Val → Except Err Val
  | .base t, v => if baseOk t v then .ok v else .error .mistyped
  | .struct fs, .dict d =>
    match fields fs (fill fs d) with
    | .error e => .error e
    | .ok d' => .ok (.dict d')
  | .struct _, _ => .error .python

/-- The recursive calls for the fields of a struct, camkes/ast/objects.py:75-78. -/
def fields : Fields → List (String × Val) → Except Err (List (String × Val))
  | .nil, d => .ok d
  | .cons n ty arr _ rest, d =>
    match dget d n with
    | none => .error .python
    | some v =>
      match (if arr then
          (match v with
            | .list l => (match mapE (one ty) l with
              | .error e => .error e
              | .ok l' => .ok (.list l'))
            | _ => .error .python)
        else one ty v) with
      | .error e => .error e
      | .ok v' => fields rest (dset d n v')
end

/-- An attribute declaration. -/
structure Attr where
  name : String
  ty : Ty
  array : Bool

/-- `types_compatible`, camkes/ast/objects.py:35-80. -/
def typesCompatible (v : Val) (a : Attr) : Except Err Val :=
  if a.array then
    match v with
    | .list l => (match mapE (one a.ty) l with
      | .error e => .error e
      | .ok l' => .ok (.list l'))
    | _ => .error .python
  else one a.ty v

structure Inst where
  name : String
  attrs : List Attr

structure Setting where
  inst : String
  attr : String
  value : Val

/-- The attribute a setting refers to, camkes/ast/objects.py:192-202. -/
def declOf (insts : List Inst) (s : Setting) : Option Attr :=
  match insts.find? (fun i => i.name = s.inst) with
  | none => none
  | some i => i.attrs.find? (fun a => a.name = s.attr)

/-- `Assembly.freeze`: the settings after type checking, camkes/ast/objects.py:188-206. -/
def checkSettings (insts : List Inst) : List Setting → Except Err (List Setting)
  | [] => .ok []
  | s :: rest =>
    match declOf insts s with
    | none => (match checkSettings insts rest with
      | .error e => .error e
      | .ok r => .ok (s :: r))
    | some a =>
      match typesCompatible s.value a with
      | .error e => .error e
      | .ok v => (match checkSettings insts rest with
        | .error e => .error e
        | .ok r => .ok (⟨s.inst, s.attr, v⟩ :: r))

end Verif.TypeCheck
