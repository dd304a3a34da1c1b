/-
The C declarations, definitions and calls generated for the methods of a remote procedure call
interface: `camkes/templates/component.template.h`, `camkes/templates/helpers/marshal.c`,
`camkes/templates/rpc-connector-common-from.c` and `camkes/templates/rpc-connector-common-to.c`.
-/

namespace Verif.RpcSig

/-- Names, as lists of characters. -/
abbrev Name := List Char

/-- The directions of a parameter, `camkes/ast/ast.py` (class `Parameter`). -/
inductive Dir
  | in_ | refin | out | inout
  deriving DecidableEq, Repr

/-- A parameter of a method as the templates see it: `p.direction`, `p.array`, `p.type`, `p.name`. -/
structure Param where
  dir : Dir
  array : Bool
  ty : Name
  name : Name
  deriving DecidableEq, Repr

/-- A method: `m.name`, `m.return_type`, `m.parameters`. -/
structure Method where
  name : Name
  ret : Option Name
  params : List Param
  deriving DecidableEq, Repr

/-- A C type as the templates write one: `const` or nothing, a name and a number of stars.  The
`const` stands before the name, so it is the innermost thing that is constant. -/
structure CTy where
  cst : Bool
  base : Name
  stars : Nat
  deriving DecidableEq, Repr

/-- `T *` after the text of a type. -/
def CTy.star (t : CTy) (n : Nat) : CTy := { t with stars := t.stars + n }

/-- `const` before the text of a type. -/
def CTy.const (t : CTy) : CTy := { t with cst := true }

/-- Pieces of the text of a parameter list: a declared parameter, a comma or the word `void`. -/
inductive Tok
  | decl (ty : CTy) (name : Name)
  | comma
  | void
  deriving DecidableEq, Repr

/-- An argument: a variable, `* variable`, `& variable`, the connector's buffer or the length of a
message or buffer (those of the connector templates are not modelled further). -/
inductive Expr
  | var (n : Name)
  | deref (n : Name)
  | addr (n : Name)
  | buffer
  | size
  deriving DecidableEq, Repr

/-- Pieces of the text of an argument list. -/
inductive ArgTok
  | arg (e : Expr)
  | comma
  deriving DecidableEq, Repr

/-- A local variable: its type, its name, what it is initialised with. -/
structure Local where
  ty : CTy
  name : Name
  init : Option Expr
  deriving DecidableEq, Repr

/-- A generated function: its result (`none` for `void`), its name, the text of its parameter
list. -/
structure Fn where
  ret : Option CTy
  name : Name
  params : List Tok
  deriving DecidableEq, Repr

/-- A call: the name called and the text of the argument list. -/
structure Call where
  callee : Name
  args : List ArgTok
  deriving DecidableEq, Repr

/-! ## Texts -/

/-- `'string'`. -/
def tString : Name := "string".toList

/-- `macros.show_type` for the name of a type, `camkes/templates/macros.py:148-158`. -/
def showType (t : Name) : CTy :=
  if t = tString then ⟨false, "char".toList, 1⟩
  else if t = "character".toList then ⟨false, "char".toList, 0⟩
  else if t = "boolean".toList then ⟨false, "bool".toList, 0⟩
  else ⟨false, t, 0⟩

/-- The type `size_t`. -/
def sizeT : CTy := ⟨false, "size_t".toList, 0⟩

/-- The type `char`. -/
def charT : CTy := ⟨false, "char".toList, 0⟩

/-- The type `void *`. -/
def voidPtr : CTy := ⟨false, "void".toList, 1⟩

/-- The type `unsigned`. -/
def unsignedT : CTy := ⟨false, "unsigned".toList, 0⟩

/-- The type `int`. -/
def intT : CTy := ⟨false, "int".toList, 0⟩

/-- `<prefix><name>_sz`. -/
def sz (pre n : Name) : Name := pre ++ n ++ "_sz".toList

/-- The items of a list with a comma after each but the last: `if not loop.last`. -/
def commas {α : Type} (c : α) : List (List α) → List α
  | [] => []
  | [x] => x
  | x :: y :: l => x ++ c :: commas c (y :: l)

/-! ## `component.template.h` -/

/-- One parameter in the header, `camkes/templates/component.template.h:64-97` (without the comma of
98-100). -/
def headerParam (p : Param) : List Tok :=
  if p.dir = .in_ then
    if p.array then
      [.decl sizeT (p.name ++ "_sz".toList), .comma,
        if p.ty = tString then .decl (charT.star 2) p.name
        else .decl ((showType p.ty).star 1).const p.name]
    else if p.ty = tString then [.decl (charT.star 1).const p.name]
    else [.decl (showType p.ty) p.name]
  else
    if p.array then
      [if p.dir = .refin then .decl (sizeT.star 1).const (p.name ++ "_sz".toList)
        else .decl (sizeT.star 1) (p.name ++ "_sz".toList), .comma,
        if p.ty = tString then .decl (charT.star 3) p.name
        else .decl ((showType p.ty).star 2) p.name]
    else if p.ty = tString then [.decl (charT.star 2) p.name]
    else if p.dir = .refin then [.decl ((showType p.ty).star 1).const p.name]
    else [.decl ((showType p.ty).star 1) p.name]

/-- The declaration of a method in the header of a component with the interface `iface`,
`camkes/templates/component.template.h:53-105`. -/
def header (iface : Name) (m : Method) : Fn where
  ret := m.ret.map fun t => if t = tString then charT.star 1 else showType t
  name := iface ++ '_' :: m.name
  params := commas .comma (m.params.map headerParam) ++
    if m.params.length = 0 then [.void] else []

/-! ## `helpers/marshal.c` -/

/-- `show_input_parameter`, `camkes/templates/helpers/marshal.c:7-42`. -/
def showInput (pre : Name) (p : Param) : List Tok :=
  if p.dir = .in_ then
    if p.array then
      [.decl sizeT (sz pre p.name), .comma,
        if p.ty = tString then .decl (charT.star 2) (pre ++ p.name)
        else .decl ((showType p.ty).star 1).const (pre ++ p.name)]
    else if p.ty = tString then [.decl (charT.star 1).const (pre ++ p.name)]
    else [.decl (showType p.ty) (pre ++ p.name)]
  else
    if p.array then
      [if p.dir = .refin then .decl (sizeT.star 1).const (sz pre p.name)
        else .decl (sizeT.star 1) (sz pre p.name), .comma,
        if p.ty = tString then .decl (charT.star 3) (pre ++ p.name)
        else .decl ((showType p.ty).star 2) (pre ++ p.name)]
    else if p.ty = tString then [.decl (charT.star 2) (pre ++ p.name)]
    else if p.dir = .refin then [.decl ((showType p.ty).star 1).const (pre ++ p.name)]
    else [.decl ((showType p.ty).star 1) (pre ++ p.name)]

/-- `show_input_parameter_list`, `camkes/templates/helpers/marshal.c:44-49`; nothing if the
assertion fails (the template then raises an exception). -/
def showInputList (pre : Name) (valid : List Dir) (ps : List Param) : Option (List Tok) :=
  if ps.all fun p => valid.contains p.dir then some (commas .comma (ps.map (showInput pre)))
  else none

/-- `show_output_parameter`, `camkes/templates/helpers/marshal.c:51-58`. -/
def showOutput (pre : Name) (p : Param) : List Tok :=
  if p.array then
    [.decl (sizeT.star 1) (sz pre p.name), .comma, .decl ((showType p.ty).star 2) (pre ++ p.name)]
  else [.decl ((showType p.ty).star 1) (pre ++ p.name)]

/-- `show_output_parameter_list`, `camkes/templates/helpers/marshal.c:60-64`. -/
def showOutputList (pre : Name) (ps : List Param) : List Tok :=
  commas .comma (ps.map (showOutput pre))

/-- The prefix `p_`. -/
def pre : Name := "p_".toList

/-- The directions that carry input: `camkes/templates/rpc-connector-common-from.c:41`,
`camkes/templates/rpc-connector-common-to.c:61,142`. -/
def isInput (p : Param) : Bool := p.dir = .refin || p.dir = .in_ || p.dir = .inout

/-- The directions that carry output: `camkes/templates/rpc-connector-common-from.c:44`,
`camkes/templates/rpc-connector-common-to.c:64,180`. -/
def isOutput (p : Param) : Bool := p.dir = .out || p.dir = .inout

/-- The head of the function `<m>_marshal_inputs`, `camkes/templates/helpers/marshal.c:81-86`. -/
def marshalInputFn (m : Method) : Option Fn :=
  let ps := m.params.filter isInput
  (showInputList pre [.in_, .refin, .inout] ps).map fun l =>
    { ret := some unsignedT
      name := m.name ++ "_marshal_inputs".toList
      params := [.decl voidPtr "base".toList, .comma, .decl sizeT "size".toList] ++
        (if ps.length > 0 then [.comma] else []) ++ l }

/-- The local variables for one parameter in `<m>_marshal_inputs`,
`camkes/templates/helpers/marshal.c:109-138`. -/
def marshalLocals (p : Param) : List Local :=
  if p.dir = .in_ then
    if p.array then
      [⟨sizeT.star 1, pre ++ p.name ++ "_ptr_sz".toList, some (.addr (sz pre p.name))⟩,
        if p.ty = tString then
          ⟨charT.star 2, pre ++ p.name ++ "_ptr_arr".toList, some (.var (pre ++ p.name))⟩
        else ⟨((showType p.ty).star 1).const, pre ++ p.name ++ "_ptr_arr".toList,
          some (.var (pre ++ p.name))⟩]
    else if p.ty = tString then
      [⟨(charT.star 1).const, pre ++ p.name ++ "_ptr_str".toList, some (.var (pre ++ p.name))⟩]
    else [⟨(showType p.ty).star 1, pre ++ p.name ++ "_ptr".toList, some (.addr (pre ++ p.name))⟩]
  else
    if p.array then
      [⟨(sizeT.star 1).const, pre ++ p.name ++ "_ptr_sz".toList, some (.var (sz pre p.name))⟩,
        if p.ty = tString then
          ⟨charT.star 2, pre ++ p.name ++ "_ptr_arr".toList, some (.deref (pre ++ p.name))⟩
        else ⟨((showType p.ty).star 1).const, pre ++ p.name ++ "_ptr_arr".toList,
          some (.deref (pre ++ p.name))⟩]
    else if p.ty = tString then
      [⟨(charT.star 1).const, pre ++ p.name ++ "_ptr_str".toList, some (.deref (pre ++ p.name))⟩]
    else [⟨((showType p.ty).star 1).const, pre ++ p.name ++ "_ptr".toList,
      some (.var (pre ++ p.name))⟩]

/-- `call_marshal_input`, `camkes/templates/helpers/marshal.c:165-178`, as called from
`camkes/templates/rpc-connector-common-from.c:62`. -/
def callMarshalInput (m : Method) : Call where
  callee := m.name ++ "_marshal_inputs".toList
  args := [.arg .buffer, .comma, .arg .size] ++ (m.params.filter isInput).flatMap fun p =>
    [.comma] ++ (if p.array then [.arg (.var (sz pre p.name)), .comma] else []) ++
      [.arg (.var (pre ++ p.name))]

/-- The head of the function `<m>_unmarshal_outputs`, `camkes/templates/helpers/marshal.c:199-208`. -/
def unmarshalOutputFn (m : Method) : Fn :=
  let ps := m.params.filter isOutput
  { ret := some intT
    name := m.name ++ "_unmarshal_outputs".toList
    params := [.decl voidPtr "base".toList, .comma, .decl unsignedT "size".toList] ++
      (if m.ret.isSome || ps.length > 0 then [.comma] else []) ++
      (match m.ret with
        | some t => .decl ((showType t).star 1) "return_value".toList ::
            if ps.length > 0 then [.comma] else []
        | none => []) ++
      showOutputList pre ps }

/-- `call_unmarshal_output`, `camkes/templates/helpers/marshal.c:294-314`, as called from
`camkes/templates/rpc-connector-common-from.c:80`. -/
def callUnmarshalOutput (m : Method) : Call where
  callee := m.name ++ "_unmarshal_outputs".toList
  args := [.arg .buffer, .comma, .arg .size] ++
    (if m.ret.isSome then [.comma, .arg (.var "return_ptr".toList)] else []) ++
    (m.params.filter isOutput).flatMap fun p =>
      [.comma] ++ (if p.array then [.arg (.var (sz pre p.name)), .comma] else []) ++
        [.arg (.var (pre ++ p.name))]

/-- The head of the function `<m>_unmarshal_inputs`, `camkes/templates/helpers/marshal.c:330-335`. -/
def unmarshalInputFn (m : Method) : Fn :=
  let ps := m.params.filter isInput
  { ret := some intT
    name := m.name ++ "_unmarshal_inputs".toList
    params := [.decl voidPtr "base".toList, .comma, .decl unsignedT "size".toList] ++
      (if ps.length > 0 then [.comma] else []) ++ showOutputList pre ps }

/-- `<prefix><name>_ptr`. -/
def ptr (n : Name) : Name := pre ++ n ++ "_ptr".toList

/-- `<prefix><name>_sz_ptr`. -/
def szPtr (n : Name) : Name := pre ++ n ++ "_sz_ptr".toList

/-- `call_unmarshal_input`, `camkes/templates/helpers/marshal.c:394-409`, as called from
`camkes/templates/rpc-connector-common-to.c:143`. -/
def callUnmarshalInput (m : Method) : Call where
  callee := m.name ++ "_unmarshal_inputs".toList
  args := [.arg .buffer, .comma, .arg .size] ++ (m.params.filter isInput).flatMap fun p =>
    [.comma] ++ (if p.array then [.arg (.var (szPtr p.name)), .comma] else []) ++
      [.arg (.var (ptr p.name))]

/-- The head of the function `<m>_marshal_outputs`, `camkes/templates/helpers/marshal.c:424-436`. -/
def marshalOutputFn (m : Method) : Option Fn :=
  let ps := m.params.filter isOutput
  (showInputList pre [.out, .inout] ps).map fun l =>
    { ret := some unsignedT
      name := m.name ++ "_marshal_outputs".toList
      params := [.decl voidPtr "base".toList, .comma, .decl unsignedT "size".toList] ++
        (match m.ret with
          | some t => [.comma,
              if t = tString then .decl (charT.star 2) "return_var".toList
              else .decl ((showType t).star 1).const "return_var".toList]
          | none => []) ++
        (if ps.length > 0 then [.comma] else []) ++ l }

/-- `<m>_ret`. -/
def retName (m : Method) : Name := m.name ++ "_ret".toList

/-- `<m>_ret_ptr`. -/
def retPtr (m : Method) : Name := m.name ++ "_ret_ptr".toList

/-- `call_marshal_output`, `camkes/templates/helpers/marshal.c:482-502`, as called from
`camkes/templates/rpc-connector-common-to.c:181`. -/
def callMarshalOutput (m : Method) : Call where
  callee := m.name ++ "_marshal_outputs".toList
  args := [.arg .buffer, .comma, .arg .size] ++
    (if m.ret.isSome then [.comma, .arg (.var (retPtr m))] else []) ++
    (m.params.filter isOutput).flatMap fun p =>
      [.comma] ++ (if p.array then [.arg (.var (szPtr p.name)), .comma] else []) ++
        [.arg (.var (ptr p.name))]

/-! ## The client: `camkes/templates/rpc-connector-common-from.c` -/

/-- The head of the client's function for a method, `camkes/templates/rpc-connector-common-from.c:47-50`. -/
def clientFn (iface : Name) (m : Method) : Option Fn :=
  (showInputList pre [.in_, .refin, .out, .inout] m.params).map fun l =>
    { ret := m.ret.map showType, name := iface ++ '_' :: m.name, params := l }

/-- The local variables of the client's function, `camkes/templates/rpc-connector-common-from.c:55-62,80`: `size`,
those for the result, `length` and `err`. -/
def clientLocals (m : Method) : List Local :=
  [⟨unsignedT, "size".toList, none⟩] ++
  (match m.ret with
    | some t => [⟨showType t, "return_val".toList, none⟩,
        ⟨(showType t).star 1, "return_ptr".toList, some (.addr "return_val".toList)⟩]
    | none => []) ++
  [⟨unsignedT, "length".toList, none⟩, ⟨intT, "err".toList, none⟩]

/-- What the client's function returns in the end, `camkes/templates/rpc-connector-common-from.c:97-99`. -/
def clientReturn (m : Method) : Option Expr :=
  if m.ret.isSome then some (.deref "return_ptr".toList) else none

/-! ## The server: `camkes/templates/rpc-connector-common-to.c` -/

/-- The declaration of the implementation, `camkes/templates/rpc-connector-common-to.c:51-59`. -/
def serverExtern (iface : Name) (m : Method) : Option Fn :=
  (showInputList [] [.in_, .refin, .out, .inout] m.params).map fun l =>
    { ret := m.ret.map showType
      name := iface ++ '_' :: m.name
      params := l ++ if m.params.length = 0 then [.void] else [] }

/-- The variables for one parameter, `camkes/templates/rpc-connector-common-to.c:120-139`. -/
def serverParam (p : Param) : List Local :=
  if p.array then
    [⟨sizeT, sz pre p.name, none⟩, ⟨sizeT.star 1, szPtr p.name, some (.addr (sz pre p.name))⟩] ++
    if p.ty = tString then
      [⟨charT.star 2, pre ++ p.name, none⟩,
        ⟨charT.star 3, ptr p.name, some (.addr (pre ++ p.name))⟩]
    else
      [⟨(showType p.ty).star 1, pre ++ p.name, none⟩,
        ⟨(showType p.ty).star 2, ptr p.name, some (.addr (pre ++ p.name))⟩]
  else if p.ty = tString then
    [⟨charT.star 1, pre ++ p.name, none⟩, ⟨charT.star 2, ptr p.name, some (.addr (pre ++ p.name))⟩]
  else
    [⟨showType p.ty, pre ++ p.name, none⟩,
      ⟨(showType p.ty).star 1, ptr p.name, some (.addr (pre ++ p.name))⟩]

/-- The variables of the block that serves a method: those of the parameters, `err` and those of the
result, `camkes/templates/rpc-connector-common-to.c:118-161`. -/
def serverLocals (m : Method) : List Local :=
  m.params.flatMap serverParam ++ [⟨intT, "err".toList, none⟩] ++
  match m.ret with
  | some t =>
    if t = tString then
      [⟨charT.star 1, retName m, none⟩, ⟨charT.star 2, retPtr m, some (.addr (retName m))⟩]
    else
      [⟨showType t, retName m, none⟩, ⟨(showType t).star 1, retPtr m, some (.addr (retName m))⟩]
  | none => []

/-- The arguments for one parameter in the call of the implementation,
`camkes/templates/rpc-connector-common-to.c:165-171`. -/
def implArg (p : Param) : List ArgTok :=
  (if p.array then
    [.arg (if p.dir = .in_ then .deref (szPtr p.name) else .var (szPtr p.name)), .comma]
  else []) ++
  [.arg (if p.dir = .in_ then .deref (ptr p.name) else .var (ptr p.name))]

/-- The call of the implementation, `camkes/templates/rpc-connector-common-to.c:164-174`. -/
def callImpl (iface : Name) (m : Method) : Call where
  callee := iface ++ '_' :: m.name
  args := commas .comma (m.params.map implArg)

/-- What the result of the implementation is assigned to, `camkes/templates/rpc-connector-common-to.c:162`. -/
def implResult (m : Method) : Option Expr :=
  if m.ret.isSome then some (.deref (retPtr m)) else none

/-! ## What is put into a message and taken out of one -/

/-- A piece of a message and the pointers given to the macro for it: `MARSHAL_PARAM`,
`MARSHAL_STRING_PARAM`, `MARSHAL_ARRAY_PARAM`, `MARSHAL_STRING_ARRAY_PARAM` and the four `UNMARSHAL_`
macros, `libsel4camkes/include/camkes/marshal_macros.h:67-190`.  The pointer to an array's length
comes first here. -/
inductive Op
  | value (e : Expr)
  | string (e : Expr)
  | array (n e : Expr)
  | strings (n e : Expr)
  deriving DecidableEq, Repr

/-- The macro used for a parameter in `<m>_marshal_inputs`,
`camkes/templates/helpers/marshal.c:105-108`, `139-149`. -/
def marshalInputOp (p : Param) : Op :=
  if p.array then
    if p.ty = tString then
      .strings (.var (pre ++ p.name ++ "_ptr_sz".toList)) (.var (pre ++ p.name ++ "_ptr_arr".toList))
    else .array (.var (pre ++ p.name ++ "_ptr_sz".toList)) (.var (pre ++ p.name ++ "_ptr_arr".toList))
  else if p.ty = tString then .string (.var (pre ++ p.name ++ "_ptr_str".toList))
  else .value (.var (pre ++ p.name ++ "_ptr".toList))

/-- The macros of `<m>_marshal_inputs`, `camkes/templates/helpers/marshal.c:96-150`.  The method's
index is left out: see the model of marshalling. -/
def marshalInputOps (m : Method) : List Op := (m.params.filter isInput).map marshalInputOp

/-- The macro used for a parameter in `<m>_unmarshal_inputs` and in `<m>_unmarshal_outputs`,
`camkes/templates/helpers/marshal.c:349-359`, `242-252`. -/
def unmarshalOp (p : Param) : Op :=
  if p.array then
    if p.ty = tString then .strings (.var (sz pre p.name)) (.var (pre ++ p.name))
    else .array (.var (sz pre p.name)) (.var (pre ++ p.name))
  else if p.ty = tString then .string (.var (pre ++ p.name))
  else .value (.var (pre ++ p.name))

/-- The macros of `<m>_unmarshal_inputs`, `camkes/templates/helpers/marshal.c:344-360`. -/
def unmarshalInputOps (m : Method) : List Op := (m.params.filter isInput).map unmarshalOp

/-- The macro used for a parameter in `<m>_marshal_outputs`,
`camkes/templates/helpers/marshal.c:454-464`. -/
def marshalOutputOp (p : Param) : Op :=
  if p.array then
    if p.ty = tString then .strings (.var (sz pre p.name)) (.deref (pre ++ p.name))
    else .array (.var (sz pre p.name)) (.deref (pre ++ p.name))
  else if p.ty = tString then .string (.deref (pre ++ p.name))
  else .value (.var (pre ++ p.name))

/-- The macros of `<m>_marshal_outputs`, `camkes/templates/helpers/marshal.c:440-465`. -/
def marshalOutputOps (m : Method) : List Op :=
  (match m.ret with
    | some t => [if t = tString then .string (.deref "return_var".toList)
        else .value (.var "return_var".toList)]
    | none => []) ++ (m.params.filter isOutput).map marshalOutputOp

/-- The macros of `<m>_unmarshal_outputs`, `camkes/templates/helpers/marshal.c:212-253`. -/
def unmarshalOutputOps (m : Method) : List Op :=
  (match m.ret with
    | some t => [if t = tString then .string (.var "return_value".toList)
        else .value (.var "return_value".toList)]
    | none => []) ++ (m.params.filter isOutput).map unmarshalOp

end Verif.RpcSig
