import Verif.Scope.Model
import Verif.Acyclic.Model

/-!
# Model: resolving all references of a specification, with forward references (camkes/parser/stage4.py)

With forward references objects are used before their own references are replaced, so the model keeps the tree as it was and, beside
it, which of its references have been replaced so far. An object is known by a number; the specification itself has the number 0.
In a scope an object is its number, class and name; its members are found through the tree.
-/

namespace Verif.Forward

open Scope (Obj Frame Stack Yield forEach candidates)

/-- Items of child fields of one object: one item and those behind it. -/
inductive Tree
  | nil
  /-- a field with `None` -/
  | unset (rest : Tree)
  /-- a `Reference` with its `name` and the name of its `type` -/
  | ref (path : List String) (type : String) (rest : Tree)
  /-- an object of this class, with its name, if it has one, and its children -/
  | node (uid : Nat) (kind : String) (name : Option String) (sub : Tree) (rest : Tree)

/-- The references that have been replaced: number of the object, number of its item, and the referent. -/
abbrev Links := List ((Nat × Nat) × Obj)

/-- Errors: those of scopes, `unknown reference`, and the cycle that `check_acyclic` finds. -/
inductive Err
  | scope (e : Scope.Err)
  | unknown (path : List String)
  | cycle
  deriving DecidableEq, Repr

/-- The objects that are children from the beginning. -/
def owned : Tree → List Obj
  | .nil => []
  | .unset r => owned r
  | .ref _ _ r => owned r
  | .node u k n _ r => .mk u k n [] :: owned r

/-- The child objects of the object `u` now, from item `i` on; what is not yet replaced is an object of the class `Reference`. -/
def members (l : Links) (u : Nat) : Tree → Nat → List Obj
  | .nil, _ => []
  | .unset r, i => members l u r (i + 1)
  | .ref _ _ r, i => (l.lookup (u, i)).getD (.mk 0 "Reference" none []) :: members l u r (i + 1)
  | .node v k n _ r, i => .mk v k n [] :: members l u r (i + 1)

/-- The items of the object `u`. -/
def find (u : Nat) : Tree → Option Tree
  | .nil => none
  | .unset r => find u r
  | .ref _ _ r => find u r
  | .node v _ _ sub r => if v = u then some sub else (find u sub).orElse fun _ => find u r

/-- `children` without `None`, camkes/ast/base.py:96-110. -/
def children (t : Tree) (l : Links) (u : Nat) : List Obj :=
  match (if u = 0 then some t else find u t) with
  | none => []
  | some sub => members l u sub 0

/-- The item `i`: the object itself, or what the reference there was replaced by. -/
def at? (l : Links) (u : Nat) (i : Nat) : Tree → Nat → Option Obj
  | .nil, _ => none
  | .unset _, 0 => none
  | .ref _ _ _, 0 => l.lookup (u, i)
  | .node v k n _ _, 0 => some (.mk v k n [])
  | .unset r, j + 1 => at? l u i r j
  | .ref _ _ r, j + 1 => at? l u i r j
  | .node _ _ _ _ r, j + 1 => at? l u i r j

/-- The object in the first child field of `u`, `none` for a reference: `type` of an instance, camkes/ast/objects.py:361, and `composition`
of an assembly, objects.py:170. -/
def first (t : Tree) (l : Links) (u : Nat) : Option Obj := (find u t).bind fun sub => at? l u 0 sub 0

/-- What `within` looks into, camkes/parser/scope.py:143-158: the type of an instance; a reference has no children. -/
def inside (t : Tree) (l : Links) (o : Obj) : List Obj :=
  if o.kind = "Instance" then
    match first t l o.uid with
    | none => []
    | some type => children t l type.uid
  else children t l o.uid

/-- `within`, scope.py:136-160. -/
def within (t : Tree) (l : Links) (o : Obj) : Except Scope.Err Frame := Scope.registerAll [] (inside t l o)

/-- `lookup`, scope.py:69-99. -/
def lookup (t : Tree) (l : Links) (want : Obj → Bool) : List String → Stack → Yield
  | [], _ => ([], some .assertion)
  | [head], s => forEach (candidates s head) fun c => (if want c then [c] else [], none)
  | head :: next :: tail, s => forEach (candidates s head) fun c =>
      match within t l c with
      | .error e => ([], some e)
      | .ok f =>
        let r := lookup t l want (next :: tail) [f]
        (r.1.filter want, r.2)

/-- The first result of two lookups, stage4.py:58-61. -/
def resolveRef (t : Tree) (l : Links) (want : Obj → Bool) (path : List String) (ctxt assembly : Stack) : Except Scope.Err (Option Obj) :=
  match lookup t l want path ctxt with
  | (o :: _, _) => .ok (some o)
  | ([], some e) => .error e
  | ([], none) =>
    match lookup t l want path assembly with
    | (o :: _, _) => .ok (some o)
    | ([], some e) => .error e
    | ([], none) => .ok none

/-- `preorder` with `Resolver.__call__`, camkes/ast/base.py:167-201 and stage4.py:55-101, for the items of the object `u` from item `i` on.
A scope with all children is opened for each object, scope.py:113-133. A reference to an instance or interface that is not found is left,
stage4.py:70-72. The scope that is then opened for its children, of which there are none, is closed again and left out here; it gets the
children of the object visited last, which is the end or export that the reference belongs to, and what these refer to differs in class. -/
def pre (t : Tree) (isa : String → String → Bool) (asm : Frame) (u : Nat) : Tree → Nat → Stack → Links → Except Err Links
  | .nil, _, _, l => .ok l
  | .unset r, i, s, l => pre t isa asm u r (i + 1) s l
  | .ref path type r, i, s, l =>
    match resolveRef t l (fun o => isa o.kind type) path s [asm] with
    | .error e => .error (.scope e)
    | .ok none =>
      if type = "Instance" ∨ type = "Interface" then pre t isa asm u r (i + 1) s l
      else .error (.unknown path)
    | .ok (some o) => pre t isa asm u r (i + 1) s (l ++ [((u, i), o)])
  | .node v _ _ sub r, i, s, l =>
    match Scope.registerAll [] (owned sub) with
    | .error e => .error (.scope e)
    | .ok f =>
      match pre t isa asm v sub 0 (f :: s) l with
      | .error e => .error e
      | .ok l => pre t isa asm u r (i + 1) s l

/-- The assemblies, in order: for each its number. -/
def assemblies : Tree → List Nat
  | .nil => []
  | .unset r => assemblies r
  | .ref _ _ r => assemblies r
  | .node u k _ _ r => if k = "Assembly" then u :: assemblies r else assemblies r

/-- `[y for y in assembly.composition.children if not isinstance(y, Reference)]` for all assemblies, stage4.py:118-120, 130-132. -/
def declared (t : Tree) (l : Links) : List Obj :=
  (assemblies t).flatMap fun a =>
    match first t l a with
    | none => []
    | some c => (children t l c.uid).filter fun o => o.kind ≠ "Reference"

/-- The ends of the connections of all assemblies, stage4.py:133-135. -/
def ends (t : Tree) (l : Links) : List Nat :=
  (assemblies t).flatMap fun a =>
    match first t l a with
    | none => []
    | some c => ((children t l c.uid).filter fun o => o.kind = "Connection").flatMap fun c =>
        ((children t l c.uid).filter fun o => o.kind = "ConnectionEnd").map Obj.uid

/-- The item `i` of `u`, if it is a reference. -/
def refAt : Tree → Nat → Option (List String × String)
  | .nil, _ => none
  | .unset _, 0 => none
  | .ref p t _, 0 => some (p, t)
  | .node _ _ _ _ _, 0 => none
  | .unset r, i + 1 => refAt r i
  | .ref _ _ r, i + 1 => refAt r i
  | .node _ _ _ _ r, i + 1 => refAt r i

/-- The second attempt for one field of an end, stage4.py:136-150. -/
def again (t : Tree) (isa : String → String → Bool) (scope : Frame) (u i : Nat) (l : Links) : Except Err Links :=
  match l.lookup (u, i), (find u t).bind fun sub => refAt sub i with
  | none, some (path, type) =>
    match lookup t l (fun o => isa o.kind type) path [scope] with
    | (o :: _, _) => .ok (l ++ [((u, i), o)])
    | ([], some e) => .error (.scope e)
    | ([], none) => .error (.unknown path)
  | _, _ => .ok l

/-- The second pass, stage4.py:133-150: `instance` and `interface` of each end. -/
def second (t : Tree) (isa : String → String → Bool) (scope : Frame) : List Nat → Links → Except Err Links
  | [], l => .ok l
  | u :: us, l =>
    match again t isa scope u 0 l with
    | .error e => .error e
    | .ok l =>
      match again t isa scope u 1 l with
      | .error e => .error e
      | .ok l => second t isa scope us l

/-- A reference that is left somewhere in the tree, stage4.py:166-169, in the order of items. -/
def left (l : Links) (u : Nat) : Tree → Nat → Option (List String)
  | .nil, _ => none
  | .unset r, i => left l u r (i + 1)
  | .ref p _ r, i => if l.lookup (u, i) = none then some p else left l u r (i + 1)
  | .node v _ _ sub r, i => (left l v sub 0).orElse fun _ => left l u r (i + 1)

/-- The number of objects. -/
def size : Tree → Nat
  | .nil => 0
  | .unset r => size r
  | .ref _ _ r => size r
  | .node _ _ _ sub r => size sub + size r + 1

/-- `resolve` with `allow_forward`, stage4.py:103-169. The outermost scope, which stays empty, is left out; so are references that remain
in `check_acyclic`, which have no children. -/
def resolve (isa : String → String → Bool) (t : Tree) : Except Err Links :=
  match Scope.registerAll [] (declared t []) with
  | .error e => .error (.scope e)
  | .ok asm =>
    match Scope.registerAll [] (owned t) with
    | .error e => .error (.scope e)
    | .ok f =>
      match pre t isa asm 0 t 0 [f] [] with
      | .error e => .error e
      | .ok l =>
        match Scope.registerAll [] (declared t l) with
        | .error e => .error (.scope e)
        | .ok scope =>
          match second t isa scope (ends t l) l with
          | .error e => .error e
          | .ok l =>
            match Acyclic.check (fun u => ((children t l u).filter fun o => o.kind ≠ "Reference").map Obj.uid) (size t + 2) [] 0 with
            | some .ok =>
              match left l 0 t 0 with
              | some p => .error (.unknown p)
              | none => .ok l
            | _ => .error .cycle

end Verif.Forward
