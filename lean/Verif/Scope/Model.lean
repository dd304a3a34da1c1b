/-!
# Model: name scopes (camkes/parser/scope.py)
-/

namespace Verif.Scope

/-- An AST object as far as scoping sees it. `uid` stands for object identity, `kind` for the
class name, `members` for the objects `within` registers (camkes/parser/scope.py:136-160):
the children in declaration order, and for an `Instance` those of its type. -/
inductive Obj
  | mk (uid : Nat) (kind : String) (name : Option String) (members : List Obj)

def Obj.uid : Obj → Nat | .mk u _ _ _ => u
def Obj.kind : Obj → String | .mk _ k _ _ => k
def Obj.name : Obj → Option String | .mk _ _ n _ => n
def Obj.members : Obj → List Obj | .mk _ _ _ m => m

/-- `assertion` is `AssertionError`; `duplicate` is the `ParseError` of
camkes/parser/scope.py:62-66. -/
inductive Err
  | assertion
  | duplicate (name : String)
  deriving DecidableEq, Repr

/-- One scope. The code keeps a dict of dicts (name, then kind); since an existing key is never
overwritten, a list in insertion order holds the same information, and `scope[n].values()`
is the sublist of objects with name `n`. -/
abbrev Frame := List Obj

/-- The stack of scopes, innermost first (`self.scopes[-1]` is the head). -/
abbrev Stack := List Frame

/-- `scope_type`, camkes/parser/scope.py:56-60. -/
def scopeType (kind : String) : String :=
  if kind = "Group" ∨ kind = "Instance" then "group/component" else kind

/-- Registration into one scope, camkes/parser/scope.py:50-67. -/
def registerFrame (f : Frame) (o : Obj) : Except Err Frame :=
  if o.kind = "Reference" then .error .assertion
  else match o.name with
    | none => .ok f
    | some n =>
      if f.any (fun p => p.name == some n && scopeType p.kind == scopeType o.kind) then
        .error (.duplicate n)
      else .ok (f ++ [o])

/-- `ScopingContext.register`, camkes/parser/scope.py:50-67. -/
def register (s : Stack) (o : Obj) : Except Err Stack :=
  match s with
  | [] => .error .assertion
  | f :: rest =>
    match registerFrame f o with
    | .error e => .error e
    | .ok f' => .ok (f' :: rest)

/-- `ScopingContext.open`, camkes/parser/scope.py:43-44. -/
def openScope (s : Stack) : Stack := [] :: s

/-- `ScopingContext.close`, camkes/parser/scope.py:46-48. -/
def closeScope : Stack → Except Err Stack
  | [] => .error .assertion
  | _ :: rest => .ok rest

/-- Registering several objects in order. -/
def registerAll : Frame → List Obj → Except Err Frame
  | f, [] => .ok f
  | f, o :: os =>
    match registerFrame f o with
    | .error e => .error e
    | .ok f' => registerAll f' os

/-- `within`, camkes/parser/scope.py:136-160. -/
def within (o : Obj) : Except Err Frame := registerAll [] o.members

/-- What a generator yields: the objects in order, then possibly an exception. -/
abbrev Yield := List Obj × Option Err

/-- `for c in xs: yield from body(c)`; an exception ends the generator. -/
def forEach (xs : List Obj) (body : Obj → Yield) : Yield :=
  match xs with
  | [] => ([], none)
  | x :: xs =>
    match body x with
    | (ys, some e) => (ys, some e)
    | (ys, none) => let r := forEach xs body; (ys ++ r.1, r.2)

/-- `for scope in reversed(self.scopes): for candidate in scope[head].values()`. -/
def candidates (s : Stack) (head : String) : List Obj :=
  s.flatMap fun f => f.filter fun o => o.name == some head

/-- `ScopingContext.lookup`, camkes/parser/scope.py:69-99. `want` is `isinstance(_, type)`
(constantly true if no type was given). -/
def lookup (want : Obj → Bool) : List String → Stack → Yield
  | [], _ => ([], some .assertion)
  | [head], s => forEach (candidates s head) fun c => (if want c then [c] else [], none)
  | head :: next :: tail, s => forEach (candidates s head) fun c =>
      match within c with
      | .error e => ([], some e)
      | .ok f =>
        let r := lookup want (next :: tail) [f]
        (r.1.filter want, r.2)

/-- Operations on a scoping context, as the stage 4 traversal performs them. -/
inductive Op
  | open_
  | close
  | register (o : Obj)

def step (s : Stack) : Op → Except Err Stack
  | .open_ => .ok (openScope s)
  | .close => closeScope s
  | .register o => register s o

/-- A history of operations. -/
def run : Stack → List Op → Except Err Stack
  | s, [] => .ok s
  | s, o :: os =>
    match step s o with
    | .error e => .error e
    | .ok s' => run s' os

/-- How `Resolver.__call__` uses the two contexts, camkes/parser/stage4.py:56-62: the first
result of the chained generators; `none` stands for the `else` branch. Generators are lazy,
so an exception only surfaces if no earlier result was found. -/
def resolveRef (want : Obj → Bool) (path : List String) (ctxt assembly : Stack) :
    Except Err (Option Obj) :=
  match lookup want path ctxt with
  | (o :: _, _) => .ok (some o)
  | ([], some e) => .error e
  | ([], none) =>
    match lookup want path assembly with
    | (o :: _, _) => .ok (some o)
    | ([], some e) => .error e
    | ([], none) => .ok none

end Verif.Scope
