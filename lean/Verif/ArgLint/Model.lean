import Mathlib.Data.List.Basic

/-!
# Model: the check of leading assertions (tools/camkes_lint.py)

The tests of the tool run it over all sources (lintsource.py). What Python's module `ast` makes of a file depends on the version: in
Python 3, an argument has no field `id`, and `None` is not a name.
-/

namespace Verif.ArgLint

/-- A text. -/
abbrev Text := List Char

/-- An expression, as far as the tool looks at it; `isTest`: a comparison with `is` alone. -/
inductive Expr
  | name (id : Text)
  | none
  | attr (value : Expr) (field : Text)
  | call (func : Expr) (args : List Expr)
  | isTest (left right : Expr)
  | or (first second : Expr) (more : List Expr)
  | other

/-- A statement: an assertion, or another one. -/
inductive Stmt
  | assert (test : Expr)
  | other

/-- A function; simplification: arguments in parentheses, which Python 2 allows, are left out. -/
structure Func where
  args : List Text
  body : List Stmt

/-- A message, by what it is about. -/
inductive Msg
  | notArgument (id : Text)
  | notNone (id : Text)
  | count (n : Nat)
  | first
  | notSelf (id field : Text)
  deriving DecidableEq

/-- Python's name of an expression, if it is an `ast.Name`: `None` is one in Python 2 only. -/
def nameOf (py3 : Bool) : Expr → Option Text
  | .name id => some id
  | .none => if py3 then Option.none else some "None".toList
  | _ => Option.none

/-- The arguments of `isinstance`, camkes_lint.py:94-122; `none`: an exception. -/
def checkCall (py3 : Bool) (args : List Text) : List Expr → Option (List Msg)
  | [e, _] =>
    match e with
    | .attr v f =>
      match nameOf py3 v with
      | some id => some (if id ≠ "self".toList then [.notSelf id f] else [])
      | Option.none => Option.none
    | e =>
      match nameOf py3 e with
      | some id => some (if id ∉ args then [.notArgument id] else [])
      | Option.none => some [.first]
  | l => some [.count l.length]

/-- The call of `isinstance` in the second idiom, camkes_lint.py:88-91. -/
def bareCall (py3 : Bool) : Expr → Option (List Expr)
  | .call f l => if nameOf py3 f = some "isinstance".toList then some l else Option.none
  | _ => Option.none

/-- The call in the first idiom, camkes_lint.py:83-85: `.func.id` is an exception if the function is not a name. -/
def orCall (py3 : Bool) : Expr → Option (Option (List Expr))
  | .call f l =>
    match nameOf py3 f with
    | some id => some (if id = "isinstance".toList then some l else Option.none)
    | Option.none => Option.none
  | _ => some Option.none

/-- An assertion, camkes_lint.py:43-122. -/
def checkTest (py3 : Bool) (args : List Text) (test : Expr) : Option (List Msg) :=
  match test with
  | .or (.isTest l r) second _ =>
    match nameOf py3 l, nameOf py3 r with
    | some x, some y =>
      match orCall py3 second with
      | Option.none => Option.none
      | some c =>
        let m := (if x ∉ args then [.notArgument x] else []) ++ (if y ≠ "None".toList then [.notNone y] else [])
        match c with
        | Option.none => some m
        | some l => (checkCall py3 args l).map (m ++ ·)
    | _, _ => some []
  | test =>
    match bareCall py3 test with
    | some l => checkCall py3 args l
    | Option.none => some []

/-- The loop over the leading assertions, camkes_lint.py:39-41. -/
def checkBody (py3 : Bool) (args : List Text) : List Stmt → Option (List Msg)
  | .assert t :: rest =>
    match checkTest py3 args t with
    | Option.none => Option.none
    | some m => (checkBody py3 args rest).map (m ++ ·)
  | _ => some []

/-- A function, camkes_lint.py:33-122: `x.id` of an argument is an exception in Python 3. -/
def checkFunc (py3 : Bool) (f : Func) : Option (List Msg) :=
  if py3 ∧ f.args ≠ [] then Option.none else checkBody py3 f.args f.body

/-- `main`, camkes_lint.py:27-124, over the functions of the file: the messages, or an exception. -/
def lint (py3 : Bool) : List Func → Option (List Msg)
  | [] => some []
  | f :: rest =>
    match checkFunc py3 f with
    | Option.none => Option.none
    | some m => (lint py3 rest).map (m ++ ·)

/-- The exit status is 0, camkes_lint.py:59 and so on: no message and no exception. -/
def clean (py3 : Bool) (fs : List Func) : Bool := lint py3 fs = some []

end Verif.ArgLint
