/-!
# Model: freezing and assignment of AST objects (camkes/ast/base.py, camkes/ast/objects.py)

Objects live in a heap, so that children can be shared. Scalars, locations and parents are
numbers. What the classes check while freezing is a parameter (`pre`, `post`); the checks
themselves are modelled in `Verif.Freeze` and `Verif.TypeCheck`.
-/

namespace Verif.Frozen

abbrev Id := Nat

/-- A field: a scalar, an optional child, or a sequence of children, held in a tuple or in a
list. -/
inductive FVal
  | scalar (n : Nat)
  | child (c : Option Id)
  | seq (tuple : Bool) (l : List Id)
  deriving DecidableEq, Repr

/-- How a class freezes: `plain` starts with `if self.frozen: return`; `strict` (`Composition`,
camkes/ast/objects.py:270, and `LiftedAST`, camkes/ast/liftedast.py:43-45) assigns its own fields
first; `reference` (camkes/ast/objects.py:143-144) always raises. -/
inductive Kind
  | plain | strict | reference
  deriving DecidableEq, Repr

structure Obj where
  kind : Kind
  frozen : Bool
  location : Nat
  parent : Option Id
  fields : List (String × FVal)
  /-- `child_fields` -/
  childFields : List String
  /-- the sequence fields that the class' `freeze` turns into tuples -/
  tupled : List String
  deriving DecidableEq, Repr

abbrev Heap := Id → Obj

inductive Err
  | typeError | assertion | astError | attributeError | recursion
  deriving DecidableEq, Repr

def set (h : Heap) (o : Id) (x : Obj) : Heap := fun i => if i = o then x else h i

def getField (fs : List (String × FVal)) (f : String) : Option FVal :=
  match fs with
  | [] => none
  | (k, v) :: rest => if k = f then some v else getField rest f

def setField (fs : List (String × FVal)) (f : String) (v : FVal) : List (String × FVal) :=
  match fs with
  | [] => [(f, v)]
  | (k, w) :: rest => if k = f then (k, v) :: rest else (k, w) :: setField rest f v

def kidsOf : FVal → List Id
  | .scalar _ => []
  | .child c => c.toList
  | .seq _ l => l

/-- The objects visited by `ASTObject.freeze`, camkes/ast/base.py:75-82. -/
def children (x : Obj) : List Id :=
  x.childFields.flatMap fun f => match getField x.fields f with
    | some v => kidsOf v
    | none => []

/-- `self.f = tuple(self.f)` for the fields the class converts, e.g.
camkes/ast/objects.py:305-308, 403-404, 691-699. -/
def toTuples (x : Obj) : Obj :=
  { x with fields := x.fields.map fun (k, v) => (k, match v with
      | .seq t l => if k ∈ x.tupled then .seq true l else .seq t l
      | w => w) }

def freezeList (f : Heap → Id → Heap × Option Err) : List Id → Heap → Heap × Option Err
  | [], h => (h, none)
  | c :: rest, h =>
    match f h c with
    | (h', some e) => (h', some e)
    | (h', none) => freezeList f rest h'

/-- `freeze()`, camkes/ast/base.py:72-83 and the overrides in camkes/ast/objects.py and
camkes/ast/liftedast.py. `pre` and `post` are the checks a class makes before and after freezing
its children. The first argument bounds the recursion depth (Python's recursion limit). -/
def freeze (pre post : Heap → Id → Option Err) : Nat → Heap → Id → Heap × Option Err
  | 0, h, _ => (h, some .recursion)
  | n + 1, h, o =>
    if (h o).kind = .reference then (h, some .astError)
    else if (h o).frozen then (if (h o).kind = .strict then (h, some .typeError) else (h, none))
    else match pre h o with
      | some e => (h, some e)
      | none =>
        match freezeList (freeze pre post n) (children (toTuples (h o))) (set h o (toTuples (h o))) with
        | (h2, some e) => (h2, some e)
        | (h2, none) =>
          let h3 := set h2 o { h2 o with frozen := true }
          (h3, post h3 o)

/-- What a program can do with AST objects through their attributes. -/
inductive Op
  /-- `o.f = v`, where `ok` says whether the type predicate accepts `v`; the setters of
  `Setting.value` and `Attribute.type` also replace `child_fields` -/
  | assign (o : Id) (f : String) (v : FVal) (ok : Bool) (cf : Option (List String))
  | unfreeze (o : Id)
  | setLocation (o : Id) (l : Nat)
  | setParent (o : Id) (p : Option Id)
  | freeze (o : Id) (depth : Nat)
  /-- `o.f.append(c)` -/
  | append (o : Id) (f : String) (c : Id)

/-- One operation; the second component is the exception raised. -/
def step (pre post : Heap → Id → Option Err) (h : Heap) : Op → Heap × Option Err
  -- `ast_property`, camkes/ast/objects.py:100-113
  | .assign o f v ok cf =>
    if !ok then (h, some .assertion)
    else if (h o).frozen then (h, some .typeError)
    else (set h o { h o with fields := setField (h o).fields f v, childFields := cf.getD (h o).childFields }, none)
  -- `o.frozen = False`, camkes/ast/base.py:42-47
  | .unfreeze o => if (h o).frozen then (h, some .typeError) else (h, none)
  -- camkes/ast/base.py:53-59
  | .setLocation o l =>
    if (h o).frozen then (h, some .typeError) else (set h o { h o with location := l }, none)
  -- camkes/ast/base.py:65-71
  | .setParent o p =>
    if (h o).frozen then (h, some .typeError) else (set h o { h o with parent := p }, none)
  | .freeze o n => freeze pre post n h o
  | .append o f c =>
    match getField (h o).fields f with
    | some (.seq false l) => (set h o { h o with fields := setField (h o).fields f (.seq false (l ++ [c])) }, none)
    | _ => (h, some .attributeError)

/-- A program run: exceptions are caught and the program goes on. -/
def run (pre post : Heap → Id → Option Err) (h : Heap) (ops : List Op) : Heap :=
  ops.foldl (fun h op => (step pre post h op).1) h

end Verif.Frozen
