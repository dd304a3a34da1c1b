/-!
# Model: comparison and hashing of AST objects (camkes/ast/base.py:118-160,
camkes/internal/hash.py)

Values are those that occur in fields of AST objects. Floats and booleans are not modelled; a
reference to an object that is not part of the compared structure (`_parent`, `_location`) is a
number.
-/

namespace Verif.Hash

mutual
inductive Val
  | none
  | str (s : String)
  | int (n : Int)
  | ref (n : Nat)
  | list (l : Vals)
  | tuple (l : Vals)
  /-- a `dict`, or a `frozendict` if the flag is set -/
  | dict (frozen : Bool) (d : Entries)
  /-- an AST object: its class and its `__dict__` -/
  | obj (cls : String) (fields : Entries)

inductive Vals
  | nil
  | cons (v : Val) (rest : Vals)

inductive Entries
  | nil
  | cons (k : String) (v : Val) (rest : Entries)
end

def Vals.length : Vals → Nat
  | .nil => 0
  | .cons _ r => r.length + 1

def Entries.keys : Entries → List String
  | .nil => []
  | .cons k _ r => k :: r.keys

def Entries.get : Entries → String → Option Val
  | .nil, _ => Option.none
  | .cons k v r, n => if k = n then some v else r.get n

/-- `no_hash`, camkes/ast/base.py:29 and 234, camkes/ast/liftedast.py:22. -/
def noHash (cls : String) : List String :=
  ["child_fields", "_frozen", "_location", "no_hash", "_parent"] ++
    (if cls ∈ ["Composition", "Configuration", "Component", "Group", "Procedure"] then ["_mapping"] else []) ++
    (if cls = "LiftedAST" then ["_assembly"] else [])

/-- Result of `==`: true, false, or an exception. -/
inductive Res
  | eq | ne | raised
  deriving DecidableEq, Repr

/-- `type(a) == type(b)`. -/
def sameType : Val → Val → Bool
  | .none, .none => true
  | .str _, .str _ => true
  | .int _, .int _ => true
  | .ref _, .ref _ => true
  | .list _, .list _ => true
  | .tuple _, .tuple _ => true
  | .dict f _, .dict g _ => f == g
  | .obj c _, .obj d _ => c == d
  | _, _ => false

mutual
/-- `a == b`. For AST objects this is `__cmp__(b) == 0`, camkes/ast/base.py:118-140. -/
def veq : Val → Val → Res
  | .none, .none => .eq
  | .str s, .str t => if s = t then .eq else .ne
  | .int m, .int n => if m = n then .eq else .ne
  | .ref m, .ref n => if m = n then .eq else .ne
  | .list a, .list b => if a.length = b.length then veqL a b else .ne
  | .tuple a, .tuple b => if a.length = b.length then veqL a b else .ne
  | .dict _ a, .dict _ b => if a.keys.length = b.keys.length then veqD a b else .ne
  | .obj c a, .obj d b => if c = d then veqF (noHash c) a b else .ne
  | _, _ => .ne

def veqL : Vals → Vals → Res
  | .cons x a, .cons y b =>
    match veq x y with
    | .eq => veqL a b
    | r => r
  | _, _ => .eq

/-- Comparison of dictionaries: every entry of the first is looked up in the second. -/
def veqD : Entries → Entries → Res
  | .nil, _ => .eq
  | .cons k v rest, b =>
    match b.get k with
    | Option.none => .ne
    | some w => match veq v w with
      | .eq => veqD rest b
      | r => r

/-- The loop of `__cmp__`, camkes/ast/base.py:122-138. Two fields that differ and have the same
type are ordered with `cmp`, which raises an exception if they cannot be. -/
def veqF (skip : List String) : Entries → Entries → Res
  | .nil, _ => .eq
  | .cons k v rest, b =>
    if k ∈ skip then veqF skip rest b
    else match b.get k with
      | Option.none => .ne
      | some w => match veq v w with
        | .eq => veqF skip rest b
        | .raised => .raised
        | .ne => if sameType v w && unordered v w then .raised else .ne

/-- `a > b` raises `TypeError` (for `a != b`). -/
def unordered : Val → Val → Bool
  | .str _, .str _ => false
  | .int _, .int _ => false
  | .list a, .list b => unorderedL a b
  | .tuple a, .tuple b => unorderedL a b
  | .obj _ _, _ => false
  | _, .obj _ _ => false
  | _, _ => true

def unorderedL : Vals → Vals → Bool
  | .cons x a, .cons y b => if veq x y = .eq then unorderedL a b else unordered x y
  | _, _ => false
end

/-- The hash functions of Python and of the standard library that are used, and `hash_extend`
(camkes/internal/hash.py:28-29), as parameters. -/
structure Prims where
  hNone : Int            -- hash("None")
  strhash : String → Int -- camkes/internal/strhash.py
  hInt : Int → Int       -- hash(n)
  hRef : Nat → Int       -- hash(x)
  trunc : Int → Int      -- what the builtin hash() does to a result of __hash__
  extend : Int → Int → Int
  init : Int             -- INITIAL_HASH_VALUE

mutual
/-- `camkes_hash`, camkes/internal/hash.py:32-65. -/
def vhash (p : Prims) : Val → Int
  | .none => p.hNone
  | .str s => p.strhash s
  | .int n => p.hInt n
  | .ref n => p.hRef n
  | .list l => hashL p p.init l
  | .tuple l => hashL p p.init l
  | .dict _ d =>
    -- `hash_mapping`, camkes/internal/hash.py:75-84
    ((hashes p d).mergeSort (fun a b => decide (a.1 ≤ b.1))).foldl
      (fun h e => p.extend (p.extend h (p.strhash e.1)) e.2) p.init
  | .obj c fs =>
    -- `ASTObject.__hash__`, camkes/ast/base.py:142-144, through the builtin `hash`
    p.trunc (((hashes p fs).filter (fun e => !decide (e.1 ∈ noHash c))).foldl
      (fun h e => p.extend h (p.extend (p.extend p.init (p.strhash e.1)) e.2)) p.init)

/-- `hash_iterable`, camkes/internal/hash.py:68-72. -/
def hashL (p : Prims) (h : Int) : Vals → Int
  | .nil => h
  | .cons v rest => hashL p (p.extend h (vhash p v)) rest

/-- The hashes of the values of a dictionary or `__dict__`. -/
def hashes (p : Prims) : Entries → List (String × Int)
  | .nil => []
  | .cons k v rest => (k, vhash p v) :: hashes p rest
end

end Verif.Hash
