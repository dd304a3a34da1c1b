/-!
# Model: lifting literals, connectors and references (camkes/parser/stage3.py)

Strings are lists of characters. `Err.assertion` is Python's `AssertionError`,
`Err.parseError` is `ParseError` (other exceptions raised inside a lifter are turned into
`ParseError` by `lift_raw`, stage3.py:126-138, with `debug=False`).
-/

namespace Verif.Lift

inductive Err
  | parseError
  | assertion
  deriving DecidableEq, Repr

abbrev Str := List Char

/-- A lifted literal: a string token (still quoted until `strip_quotes`) or anything else
(number, list, dict). Simplification: non-string literals are opaque values of `α`. -/
inductive Lit (α : Type)
  | str (s : Str)
  | other (a : α)
  deriving DecidableEq, Repr

/-- `strip_quotes`, camkes/parser/stage3.py:141-147. `s[0]` of an empty string is an
`IndexError`, which `lift_raw` reports as a `ParseError`. -/
def stripQuotes {α : Type} : Lit α → Except Err (Lit α)
  | .other a => .ok (.other a)
  | .str [] => .error .parseError
  | .str (c :: s) =>
    if c = '"' ∧ (c :: s).getLast? = some '"' then .ok (.str s.dropLast)
    else .error .assertion

/-- `pairwise`, camkes/parser/stage3.py:53-55: zip of an iterator with itself; an odd last
element is dropped. -/
def pairwise {β : Type} : List β → List (β × β)
  | x :: y :: rest => (x, y) :: pairwise rest
  | _ => []

/-- Python's `d[k] = v` on an insertion-ordered dict, as an association list: an existing
key keeps its place, a new key goes last. -/
def dictSet {κ ν : Type} [DecidableEq κ] (d : List (κ × ν)) (k : κ) (v : ν) : List (κ × ν) :=
  match d with
  | [] => [(k, v)]
  | (k', v') :: rest => if k' = k then (k', v) :: rest else (k', v') :: dictSet rest k v

/-- Python's `d.get(k)`. -/
def dictGet {κ ν : Type} [DecidableEq κ] : List (κ × ν) → κ → Option ν
  | [], _ => none
  | (k', v') :: rest, k => if k' = k then some v' else dictGet rest k

/-- The comprehension of `_lift_dict` (stage3.py:480-481), on the paired arguments. -/
def liftPairs {α : Type} [DecidableEq α] :
    List (Lit α × Lit α) → List (Lit α × Lit α) → Except Err (List (Lit α × Lit α))
  | d, [] => .ok d
  | d, (k, v) :: rest =>
    match stripQuotes k with
    | .error e => .error e
    | .ok k' =>
      match stripQuotes v with
      | .error e => .error e
      | .ok v' => liftPairs (dictSet d k' v') rest

/-- `_lift_dict`, camkes/parser/stage3.py:480-481. -/
def liftDict {α : Type} [DecidableEq α] (args : List (Lit α)) :
    Except Err (List (Lit α × Lit α)) :=
  liftPairs [] (pairwise args)

/-- `_lift_list`, camkes/parser/stage3.py:541-542. -/
def liftList {α : Type} : List (Lit α) → Except Err (List (Lit α))
  | [] => .ok []
  | x :: xs =>
    match stripQuotes x with
    | .error e => .error e
    | .ok x' =>
      match liftList xs with
      | .error e => .error e
      | .ok xs' => .ok (x' :: xs')

/-- `x[1:-1]`. -/
def inner (s : Str) : Str := (s.drop 1).dropLast

/-- `_lift_multi_string`, camkes/parser/stage3.py:562-565. -/
def liftMultiString (strings : List Str) : Except Err Str :=
  match strings with
  | [] => .error .assertion
  | _ => .ok ('"' :: ((strings.map inner).flatten ++ ['"']))

/-! ### Connectors -/

/-- Children of a `connector_defn` node after lifting: the bare `hardware` keyword, an end
type keyword (`connector_end_type`), a number (from `threads`) or an attribute. -/
inductive Arg (A : Type)
  | hardware
  | endType (t : String)
  | num (n : Int)
  | attr (a : A)

/-- The lifted connector (camkes/ast/objects.py:798-837). -/
structure Connector (A : Type) where
  name : Option String
  fromType : String
  toType : String
  fromMultiple : Bool
  toMultiple : Bool
  fromThreads : Nat
  toThreads : Nat
  fromHardware : Bool
  toHardware : Bool
  attributes : List A
  deriving DecidableEq, Repr

/-- `TRANSLATION.get`, camkes/ast/objects.py:815-822. -/
def translation : String → Option String
  | "Event" => some "Event"
  | "Events" => some "Event"
  | "Procedure" => some "Procedure"
  | "Procedures" => some "Procedure"
  | "Dataport" => some "Dataport"
  | "Dataports" => some "Dataport"
  | _ => none

/-- `x in ('Events', 'Procedures', 'Dataports')`, camkes/ast/objects.py:832-833. -/
def isPlural (t : String) : Bool := t == "Events" || t == "Procedures" || t == "Dataports"

/-- `Connector.__init__`, camkes/ast/objects.py:811-837, for non-empty `from_type` and
`to_type`; setting `from_type` to the `None` that `TRANSLATION.get` gives for an unknown
keyword fails the property's assertion. -/
def mkConnector {A : Type} (name : Option String) (fromType toType : String)
    (fromThreads toThreads : Nat) (fromHardware toHardware : Bool) (attributes : List A) :
    Except Err (Connector A) :=
  match translation fromType, translation toType with
  | some f, some t => .ok
      { name, fromType := f, toType := t, fromMultiple := isPlural fromType,
        toMultiple := isPlural toType, fromThreads, toThreads, fromHardware, toHardware,
        attributes }
  | _, _ => .error .assertion

/-- `thread_count`, camkes/parser/stage3.py:392-402, on integers. -/
def threadCount (v : Int) : Except Err Nat :=
  if v < 0 then .error .parseError else .ok v.toNat

/-- The trailing `while` loop, camkes/parser/stage3.py:427-431. -/
def takeAttrs {A : Type} : List (Arg A) → Except Err (List A)
  | [] => .ok []
  | .attr a :: rest =>
    match takeAttrs rest with
    | .error e => .error e
    | .ok as => .ok (a :: as)
  | _ => .error .assertion

/-- `_lift_connector_defn`, camkes/parser/stage3.py:383-436. Consuming from an empty `args`
is an `IndexError` (→ `ParseError`). Simplification: a number or an attribute in the place of
an end type is an assertion failure in the `Connector` property setter. -/
def liftConnectorDefn {A : Type} (args : List (Arg A)) : Except Err (Connector A) :=
  let (fromHw, args) := match args with
    | .hardware :: rest => (true, rest)
    | args => (false, args)
  match args with
  | [] => .error .parseError
  | .endType fromType :: args =>
    let r1 : Except Err (Nat × List (Arg A)) := match args with
      | .num n :: rest =>
        (match threadCount n with | .error e => .error e | .ok k => .ok (k, rest))
      | args => .ok (1, args)
    match r1 with
    | .error e => .error e
    | .ok (fromThreads, args) =>
      let (toHw, args) := match args with
        | .hardware :: rest => (true, rest)
        | args => (false, args)
      match args with
      | [] => .error .parseError
      | .endType toType :: args =>
        let r2 : Except Err (Nat × List (Arg A)) := match args with
          | .num n :: rest =>
            (match threadCount n with | .error e => .error e | .ok k => .ok (k, rest))
          | args => .ok (1, args)
        match r2 with
        | .error e => .error e
        | .ok (toThreads, args) =>
          match takeAttrs args with
          | .error e => .error e
          | .ok attrs => mkConnector none fromType toType fromThreads toThreads fromHw toHw attrs
      | _ => .error .assertion
  | _ => .error .assertion

/-- `_lift_connector_decl`, camkes/parser/stage3.py:364-380: a named declaration rebuilds the
connector from the unnamed definition, re-pluralising the end types. -/
def liftConnectorDecl {A : Type} (id : Option String) (d : Connector A) :
    Except Err (Connector A) :=
  match id with
  | none => .ok d
  | some id =>
    mkConnector (some id)
      (if d.fromMultiple then d.fromType ++ "s" else d.fromType)
      (if d.toMultiple then d.toType ++ "s" else d.toType)
      d.fromThreads d.toThreads d.fromHardware d.toHardware d.attributes

/-! ### Dataport types, exports and connection ends -/

/-- `_lift_dataport_type`, camkes/parser/stage3.py:470-477: either an identifier token or
the (integer) value of a numeric expression; `'Buf(%d)'`. -/
def liftDataportType : Sum String Int → Except Err String
  | .inl s => .ok s
  | .inr n => if n ≤ 0 then .error .parseError else .ok ("Buf(" ++ toString n.toNat ++ ")")

/-- `_lift_export`, camkes/parser/stage3.py:492-500; returns the names of the source
instance, source interface and destination references. -/
def liftExport (src dst : List String) : Except Err (List String × List String × List String) :=
  if src.length < 2 then .error .parseError else .ok (src.dropLast, src, dst)

/-- `_lift_connection_end`, camkes/parser/stage3.py:355-361; returns the name of the instance
reference (if any) and of the interface reference. -/
def liftConnectionEnd (ref : List String) : Option (List String) × List String :=
  (if ref.length > 1 then some ref.dropLast else none, ref)

/-- `_lift_connection_defn`, camkes/parser/stage3.py:350-352: ends split by their keyword,
`true` for `from`. -/
def liftConnectionEnds {E : Type} (ends : List (Bool × E)) : List E × List E :=
  ((ends.filter fun e => e.1).map Prod.snd, (ends.filter fun e => !e.1).map Prod.snd)

end Verif.Lift
