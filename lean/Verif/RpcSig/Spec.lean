import Verif.RpcSig.Model
import Mathlib.Data.List.Forall2

/-! What it means that C declarations agree and that a call is correct. -/

namespace Verif.RpcSig.Spec

/-- Items with a comma between each and the next. -/
inductive Listed {α β : Type} (item : β → α) (comma : α) : List α → List β → Prop
  | one (b : β) : Listed item comma [item b] [b]
  | more (b : β) {l : List α} {bs : List β} (h : Listed item comma l bs) :
      Listed item comma (item b :: comma :: l) (b :: bs)

/-- A text is a parameter list of C that declares these parameters. -/
inductive ParamList : List Tok → List (CTy × Name) → Prop
  | empty : ParamList [] []
  | void : ParamList [.void] []
  | some {l ps} (h : Listed (fun p : CTy × Name => Tok.decl p.1 p.2) .comma l ps) : ParamList l ps

/-- A text is an argument list of C with these arguments. -/
inductive ArgList : List ArgTok → List Expr → Prop
  | empty : ArgList [] []
  | some {l es} (h : Listed ArgTok.arg .comma l es) : ArgList l es

/-- What is in scope: names with their types. -/
abbrev Scope := List (Name × CTy)

/-- The scope of the body of a function. -/
def body (params : List (CTy × Name)) (locals : List Local) : Scope :=
  params.map (fun p => (p.2, p.1)) ++ locals.map fun v => (v.name, v.ty)

/-- No name is declared twice. -/
def Once (s : Scope) : Prop := (s.map (·.1)).Nodup

/-- The type of an expression.  Of the connector's expressions it is only known that the buffer is a
`void *` and that the length is a number. -/
inductive HasType (s : Scope) : Expr → CTy → Prop
  | var {n t} (h : (n, t) ∈ s) : HasType s (.var n) t
  | deref {n c b k} (h : (n, ⟨c, b, k + 1⟩) ∈ s) : HasType s (.deref n) ⟨c, b, k⟩
  | addr {n c b k} (h : (n, ⟨c, b, k⟩) ∈ s) : HasType s (.addr n) ⟨c, b, k + 1⟩
  | buffer : HasType s .buffer ⟨false, "void".toList, 1⟩
  | unsigned : HasType s .size ⟨false, "unsigned".toList, 0⟩
  | size : HasType s .size ⟨false, "size_t".toList, 0⟩

/-- A value of type `a` may be assigned to a variable of type `b` without a diagnostic: the types
are the same but for what is constant; a value that is no pointer is copied; and a pointer to
something that may be changed can be given for a pointer to something constant (but not a pointer to
such a pointer). -/
def Assignable (a b : CTy) : Prop :=
  a.base = b.base ∧ a.stars = b.stars ∧
    (a.stars = 0 ∨ a.cst = b.cst ∨ (a.stars = 1 ∧ a.cst = false))

/-- In the given scope the call is one of the given function, with the right number of arguments,
each of the type of its parameter. -/
def Correct (s : Scope) (c : Call) (f : Fn) : Prop :=
  c.callee = f.name ∧ c.callee ∉ s.map (·.1) ∧
    ∃ es ps, ArgList c.args es ∧ ParamList f.params ps ∧
      List.Forall₂ (fun e p => ∃ t, HasType s e t ∧ Assignable t p.1) es ps

/-- The initialisers of the local variables have the types of the variables. -/
def InitOk (s : Scope) (vs : List Local) : Prop :=
  ∀ v ∈ vs, ∀ e, v.init = some e → ∃ t, HasType s e t ∧ Assignable t v.ty

/-- The C type for a type of the language. -/
def cType (t : Name) : Name × Nat :=
  if t = "string".toList then ("char".toList, 1)
  else if t = "character".toList then ("char".toList, 0)
  else if t = "boolean".toList then ("bool".toList, 0)
  else (t, 0)

/-- The C parameters for a parameter of a method: what the manual promises to those who call and
those who implement an interface. -/
def promised (p : Param) : List (CTy × Name) :=
  let (b, k) := cType p.ty
  let n := p.name ++ "_sz".toList
  match p.dir, p.array, decide (p.ty = "string".toList) with
  | .in_, false, false => [(⟨false, b, k⟩, p.name)]
  | .in_, false, true => [(⟨true, "char".toList, 1⟩, p.name)]
  | .in_, true, false => [(⟨false, "size_t".toList, 0⟩, n), (⟨true, b, k + 1⟩, p.name)]
  | .in_, true, true => [(⟨false, "size_t".toList, 0⟩, n), (⟨false, b, k + 1⟩, p.name)]
  | .refin, false, false => [(⟨true, b, k + 1⟩, p.name)]
  | .refin, true, _ => [(⟨true, "size_t".toList, 1⟩, n), (⟨false, b, k + 2⟩, p.name)]
  | _, true, _ => [(⟨false, "size_t".toList, 1⟩, n), (⟨false, b, k + 2⟩, p.name)]
  | _, false, _ => [(⟨false, b, k + 1⟩, p.name)]

/-- The result of the C function for a method. -/
def promisedResult (m : Method) : Option CTy :=
  m.ret.map fun t => ⟨false, (cType t).1, (cType t).2⟩

/-- A piece of a message: a value of a C type, a string, an array of values of a C type, an array of
strings. -/
inductive Field
  | value (base : Name) (stars : Nat)
  | string
  | array (base : Name) (stars : Nat)
  | strings
  deriving DecidableEq

/-- The piece of a message for a value of a type. -/
def field (array : Bool) (t : Name) : Field :=
  match array, decide (t = "string".toList) with
  | false, false => .value (cType t).1 (cType t).2
  | false, true => .string
  | true, false => .array (cType t).1 (cType t).2
  | true, true => .strings

/-- The pieces of the message to the server. -/
def sent (m : Method) : List Field :=
  (m.params.filter fun p => decide (p.dir ≠ .out)).map fun p => field p.array p.ty

/-- The pieces of the message to the client. -/
def answered (m : Method) : List Field :=
  m.ret.toList.map (field false) ++
    (m.params.filter fun p => decide (p.dir = .out ∨ p.dir = .inout)).map fun p => field p.array p.ty

/-- The macro puts a piece of this kind into a message: its pointers point to what the piece
consists of. -/
inductive Puts (s : Scope) : Op → Field → Prop
  | value {e c b k} (h : HasType s e ⟨c, b, k + 1⟩) : Puts s (.value e) (.value b k)
  | string {e c} (h : HasType s e ⟨c, "char".toList, 1⟩) : Puts s (.string e) .string
  | array {n e d c b k} (hn : HasType s n ⟨d, "size_t".toList, 1⟩)
      (h : HasType s e ⟨c, b, k + 1⟩) : Puts s (.array n e) (.array b k)
  | strings {n e d c} (hn : HasType s n ⟨d, "size_t".toList, 1⟩)
      (h : HasType s e ⟨c, "char".toList, 2⟩) : Puts s (.strings n e) .strings

/-- The macro takes a piece of this kind out of a message: its pointers point to variables, which
may be changed, for the value or for a new array or string. -/
inductive Takes (s : Scope) : Op → Field → Prop
  | value {e b k} (h : HasType s e ⟨false, b, k + 1⟩) : Takes s (.value e) (.value b k)
  | string {e} (h : HasType s e ⟨false, "char".toList, 2⟩) : Takes s (.string e) .string
  | array {n e b k} (hn : HasType s n ⟨false, "size_t".toList, 1⟩)
      (h : HasType s e ⟨false, b, k + 2⟩) : Takes s (.array n e) (.array b k)
  | strings {n e} (hn : HasType s n ⟨false, "size_t".toList, 1⟩)
      (h : HasType s e ⟨false, "char".toList, 3⟩) : Takes s (.strings n e) .strings

/-- The names of the parameters of a method are apart: they differ, and none ends in a way the
generated code uses for its own. -/
structure Apart (m : Method) : Prop where
  differ : (m.params.map (·.name)).Nodup
  ends : ∀ p ∈ m.params, ∀ e ∈ ["_sz", "_ptr", "_ptr_arr", "_ptr_str"], ¬ e.toList <:+ p.name

/-- The method and the interface have no name that the generated code uses for parameters or
results. -/
structure Plain (i : Name) (m : Method) : Prop where
  method : ¬ "p_".toList <+: m.name ++ ['_']
  iface : ¬ "p_".toList <+: i ++ ['_']
  result : i ++ '_' :: m.name ≠ m.name ++ "_ret".toList
  resultPtr : i ++ '_' :: m.name ≠ m.name ++ "_ret_ptr".toList

end Verif.RpcSig.Spec
