import Verif.AttrText.Model

/-!
# Specification: attribute values in the generated code (C78)

A reader of initialisers of C, for the types of attributes, and what a value of an attribute is in C.
-/

namespace Verif.AttrText

/-- An object of C. -/
inductive CVal
  | int (n : Int)
  | float (text : Text)
  | str (s : Text)
  | list (l : List CVal)
  | record (fields : List (Text × CVal))

/-- The number of elements of an array. -/
def CVal.size : CVal → Option Nat
  | .list l => some l.length
  | _ => none

/-- Spaces, ends of lines, and a backslash at the end of a line. -/
def white : Text → Text
  | ' ' :: s => white s
  | '\n' :: s => white s
  | '\\' :: '\n' :: s => white s
  | s => s

/-- A character, possibly with white space before it. -/
def token (c : Char) (s : Text) : Option Text :=
  match white s with
  | d :: s => if d = c then some s else none
  | [] => none

/-- Escapes in a string of C. -/
def escape : Char → Option Char
  | 'n' => some '\n'
  | 't' => some '\t'
  | 'r' => some '\r'
  | '\\' => some '\\'
  | '"' => some '"'
  | '\'' => some '\''
  | _ => none

/-- A string of C, after the quote. -/
def readString : Text → Option (Text × Text)
  | '"' :: s => some ([], s)
  | '\n' :: _ => none
  | '\\' :: '\n' :: s => readString s
  | '\\' :: c :: s => match escape c, readString s with
    | some d, some (r, s) => some (d :: r, s)
    | _, _ => none
  | c :: s => match readString s with
    | some (r, s) => some (c :: r, s)
    | none => none
  | [] => none

/-- The number with these digits. -/
def number (ds : Text) : Nat := ds.foldl (fun n c => 10 * n + (c.toNat - 48)) 0

/-- A decimal number: it does not begin with 0, or is 0. -/
def readNat (s : Text) : Option (Nat × Text) :=
  let ds := s.takeWhile Char.isDigit
  if ds = [] ∨ (ds.head? = some '0' ∧ ds.length ≠ 1) then none else some (number ds, s.drop ds.length)

/-- A number with a sign. -/
def readInt (s : Text) : Option (Int × Text) :=
  match white s with
  | '-' :: s => (readNat s).map fun p => (-(p.1 : Int), p.2)
  | s => (readNat s).map fun p => ((p.1 : Int), p.2)

/-- Characters of a floating point number. -/
def floatChar (c : Char) : Bool := c.isDigit || c = '.' || c = 'e' || c = '+' || c = '-'

/-- The types of integers, with the number of bits and whether they have a sign. -/
def integers : List (Text × Nat × Bool) :=
  [("int".toList, 32, true), ("int64_t".toList, 64, true), ("uint64_t".toList, 64, false)]

/-- The types of floating point numbers. -/
def floats : List Text := ["double".toList, "float".toList]

/-- An integer that is stored in an object with so many bits. -/
def convert (bits : Nat) (sign : Bool) (n : Int) : Int :=
  let m := n % 2 ^ bits
  if sign ∧ 2 ^ (bits - 1) ≤ m then m - 2 ^ bits else m

/-- An initialiser of an object that is no struct. -/
def readScalar (t : Text) (s : Text) : Option (CVal × Text) :=
  match integers.lookup t with
  | some (bits, sign) => (readInt s).map fun p => (.int (convert bits sign p.1), p.2)
  | none =>
    if t ∈ floats then
      (let s := white s
       if s.takeWhile floatChar = [] then none else some (.float (s.takeWhile floatChar), s.dropWhile floatChar))
    else if t = "string".toList then
      match token '"' s with
      | none => none
      | some s => (readString s).map fun p => (.str p.1, p.2)
    else none

/-- The elements of an array, up to the brace. -/
def readItems (f : Text → Option (CVal × Text)) : Nat → Text → Option (List CVal × Text)
  | 0, _ => none
  | n + 1, s =>
    match token '}' s with
    | some s => some ([], s)
    | none => match f s with
      | none => none
      | some (v, s) => match token '}' s with
        | some s => some ([v], s)
        | none => match token ',' s with
          | none => none
          | some s => (readItems f n s).map fun p => (v :: p.1, p.2)

/-- The initialiser of an array. -/
def readList (f : Text → Option (CVal × Text)) (s : Text) : Option (CVal × Text) :=
  match token '{' s with
  | none => none
  | some s => (readItems f (s.length + 1) s).map fun p => (.list p.1, p.2)

/-- A name. -/
def readName (n : Text) (s : Text) : Option Text := if n <+: s then some (s.drop n.length) else none

mutual
/-- An initialiser. -/
def readOne : Ty → Text → Option (CVal × Text)
  | .base t, s => readScalar t s
  | .struct _ fs, s =>
    match token '{' s with
    | none => none
    | some s => match readFields fs s with
      | none => none
      | some (r, s) => (token '}' s).map fun s => (.record r, s)

/-- The fields of a struct, in their order: `.name = value,` -/
def readFields : Fields → Text → Option (List (Text × CVal) × Text)
  | .nil, s => some ([], s)
  | .cons n ty array rest, s =>
    match (token '.' s).bind (readName n) with
    | none => none
    | some s => match token '=' s with
      | none => none
      | some s => match (if array then readList (readOne ty) s else readOne ty s) with
        | none => none
        | some (v, s) => match token ',' s with
          | none => none
          | some s => match readFields rest s with
            | none => none
            | some (r, s) => some ((n, v) :: r, s)
end

/-- The initialiser of an attribute. -/
def readAttr (ty : Ty) (array : Bool) (s : Text) : Option (CVal × Text) :=
  if array then readList (readOne ty) s else readOne ty s

/-- A list of results. -/
def all {α β : Type} (f : α → Option β) : List α → Option (List β)
  | [] => some []
  | a :: r => match f a, all f r with
    | some b, some bs => some (b :: bs)
    | _, _ => none

mutual
/-- What a value of a type is in C: nothing if it does not have that type. -/
def valueOf : Ty → Val → Option CVal
  | .base t, v => match v with
    | .int n => if (integers.lookup t).isSome then some (.int n) else none
    | .float x => if (integers.lookup t).isNone ∧ t ∈ floats then some (.float x) else none
    | .str s => if t = "string".toList then some (.str s) else none
    | _ => none
  | .struct _ fs, v => match v with
    | .dict d => (fieldsOf fs d).map .record
    | _ => none

/-- The fields of a struct. -/
def fieldsOf : Fields → List (Text × Val) → Option (List (Text × CVal))
  | .nil, _ => some []
  | .cons n ty array rest, d =>
    match dget d n with
    | none => none
    | some v => match (if array then
          (match v with
            | .list l => (all (valueOf ty) l).map .list
            | _ => none)
        else valueOf ty v) with
      | none => none
      | some c => (fieldsOf rest d).map fun r => (n, c) :: r
end

/-- What the value of an attribute is in C. -/
def attrValue (ty : Ty) (array : Bool) (v : Val) : Option CVal :=
  if array then
    match v with
    | .list l => (all (valueOf ty) l).map .list
    | _ => none
  else valueOf ty v

/-- A string that is the same in C. -/
def Plain (s : Text) : Prop := ∀ c ∈ s, c ≠ '"' ∧ c ≠ '\\' ∧ c ≠ '\n'

/-- Every end of a line has a backslash before it, as a macro needs. -/
def oneLine : Text → Bool
  | '\\' :: '\n' :: s => oneLine s
  | '\n' :: _ => false
  | _ :: s => oneLine s
  | [] => true

mutual
/-- The value fits: integers are in the range of their type, strings are plain, the text of floating point numbers has only
digits, signs, `.` and `e`; names of fields are plain. -/
def Fits : Ty → Val → Prop
  | .base t, v => match v with
    | .int n => ∀ bits sign, integers.lookup t = some (bits, sign) → convert bits sign n = n
    | .float x => x ≠ [] ∧ ∀ c ∈ x, floatChar c = true
    | .str s => Plain s
    | _ => True
  | .struct _ fs, v => match v with
    | .dict d => FieldsFit fs d
    | _ => True

/-- All fields fit. -/
def FieldsFit : Fields → List (Text × Val) → Prop
  | .nil, _ => True
  | .cons n ty _ rest, d =>
    (match dget d n with
      | some (.list l) => ∀ v ∈ l, Fits ty v
      | some v => Fits ty v
      | none => True) ∧ FieldsFit rest d ∧ Plain n
end

/-- The value of an attribute fits. -/
def AttrFits (ty : Ty) (v : Val) : Prop :=
  match v with
  | .list l => ∀ w ∈ l, Fits ty w
  | v => Fits ty v

mutual
/-- The structs in a type, with their fields. -/
def structsIn : Ty → List (Text × Fields)
  | .base _ => []
  | .struct n fs => (n, fs) :: structsInFields fs

/-- The structs in the types of fields. -/
def structsInFields : Fields → List (Text × Fields)
  | .nil => []
  | .cons _ ty _ rest => structsIn ty ++ structsInFields rest
end

/-- A name stands for one struct only. -/
def Consistent (attrs : List Attr) : Prop :=
  ∀ p ∈ attrs.flatMap (fun a => structsIn a.ty), ∀ q ∈ attrs.flatMap (fun a => structsIn a.ty), p.1 = q.1 → p = q

/-- The structs that are used in a definition. -/
def Fields.uses : Fields → List Text
  | .nil => []
  | .cons _ (.base _) _ rest => rest.uses
  | .cons _ (.struct n _) _ rest => n :: rest.uses

/-- The names of the fields, and whether they are arrays. -/
def Fields.names : Fields → List (Text × Bool)
  | .nil => []
  | .cons n _ array rest => (n, array) :: rest.names

/-- Types with another name in C. -/
def renamed : List (Text × Text) :=
  [("string".toList, "char *".toList), ("character".toList, "char".toList), ("boolean".toList, "bool".toList)]

/-- The type in C. -/
def ctype : Ty → Text
  | .base t => (renamed.lookup t).getD t
  | .struct n _ => "struct ".toList ++ n

/-- The types of the fields in C. -/
def Fields.types : Fields → List Text
  | .nil => []
  | .cons _ ty _ rest => ctype ty :: rest.types

mutual
/-- An array of structs has no structs in them. -/
def NoNested : Ty → Bool → Prop
  | .base _, _ => True
  | .struct _ fs, array => (array = true → fs.uses = []) ∧ NoNestedFields fs

/-- All fields are so. -/
def NoNestedFields : Fields → Prop
  | .nil => True
  | .cons _ ty array rest => NoNested ty array ∧ NoNestedFields rest
end

end Verif.AttrText
