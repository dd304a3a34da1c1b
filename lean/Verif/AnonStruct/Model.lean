import Verif.AttrText.Model

/-!
# Model: the names of structs (camkes/parser/stage3.py:215-228, camkes/ast/objects.py:582-596)

An attribute can have a struct as its type: one that was declared before, by its name, or one that is written in place. The latter
gets a name from a counter. The header of a component defines the structs by these names (area `AttrText`).
-/

namespace Verif.AnonStruct

open Verif.AttrText (Text Ty Fields Attr decimal)

mutual
/-- A type as it is written, camkes.g:105-107, 164: the name of a C type, the name of a struct, or the fields of one. -/
inductive Src
  | base (name : Text)
  | ref (name : Text)
  | anon (fields : SrcFields)

/-- The fields of a struct as they are written: name, type, and whether it is an array. -/
inductive SrcFields
  | nil
  | cons (name : Text) (ty : Src) (array : Bool) (rest : SrcFields)
end

/-- `ParseError`: an unknown or a duplicate name. `assertion`: a struct without fields (stage3.py:220). -/
inductive Err
  | parse | assertion
  deriving DecidableEq

/-- The name that is made up, objects.py:590-591. -/
def anonName (n : Nat) : Text := "camkes_anon_struct_".toList ++ decimal n

/-- The structs that were declared before, by name (scope.py:72-102). -/
abbrev Env := List (Text × Fields)

/-- Whether there are no fields. -/
def SrcFields.isNil : SrcFields → Bool
  | .nil => true
  | .cons .. => false

mutual
/-- The type of an attribute with the counter before and after: stage3.py:219-228, objects.py:589-593. The parts are lifted first
(stage3.py:120). Simplification: the name of a struct is resolved here, not in a later stage, among those that were declared before. -/
def lift (env : Env) (n : Nat) : Src → Except Err (Nat × Ty)
  | .base b => .ok (n, .base b)
  | .ref r =>
    match env.lookup r with
    | some fs => .ok (n, .struct r fs)
    | none => .error .parse
  | .anon fs =>
    match liftFields env n fs with
    | .error e => .error e
    | .ok (m, gs) => if fs.isNil then .error .assertion else .ok (m + 1, .struct (anonName m) gs)

/-- The fields, in order. -/
def liftFields (env : Env) (n : Nat) : SrcFields → Except Err (Nat × Fields)
  | .nil => .ok (n, .nil)
  | .cons x ty array rest =>
    match lift env n ty with
    | .error e => .error e
    | .ok (m, t) =>
      match liftFields env m rest with
      | .error e => .error e
      | .ok (k, fs) => .ok (k, .cons x t array fs)
end

/-- What a specification says about structs and attributes, in the order of the text. -/
inductive Item
  | decl (name : Text) (fields : SrcFields)
  | attr (name : Text) (ty : Src) (array : Bool)

/-- The state of the parser: the counter of the class `Struct`, the declared structs and the attributes so far. -/
structure State where
  count : Nat
  env : Env
  attrs : List Attr

/-- One item. A declaration has its fields in a struct that is made without a name first, so a number is used up
(stage3.py:215-221); a duplicate is refused (scope.py:61-69). -/
def step (s : State) : Item → Except Err State
  | .decl x fs =>
    match liftFields s.env s.count fs with
    | .error e => .error e
    | .ok (m, gs) =>
      if fs.isNil then .error .assertion
      else if (s.env.lookup x).isSome then .error .parse
      else .ok { s with count := m + 1, env := (x, gs) :: s.env }
  | .attr x ty array =>
    match lift s.env s.count ty with
    | .error e => .error e
    | .ok (m, t) => .ok { s with count := m, attrs := s.attrs ++ [⟨x, t, array⟩] }

/-- All items of all files; the counter is never reset. -/
def parse (s : State) : List Item → Except Err State
  | [] => .ok s
  | i :: rest =>
    match step s i with
    | .error e => .error e
    | .ok s' => parse s' rest

/-- The start of the tool. -/
def start : State := ⟨0, [], []⟩

end Verif.AnonStruct
