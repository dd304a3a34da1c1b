/-!
# Model: the generated formal behaviour of the glue code (camkes/templates/cimp-base.thy)

The theory that describes the system in the language of concurrent imperative programs. The generated definitions are kept as structures:
what a call sends, what a server takes, which connection stands for an interface. Their meaning is that of the constructs of CIMP that they
use: `Request` sends a question, `Response` is enabled if its set is not empty.
-/

namespace Verif.Glue

/-- The direction of a parameter, camkes/ast/objects.py:957. -/
inductive Dir
  | in_ | inout | out | refin
  deriving DecidableEq, Repr

/-- A parameter, camkes/ast/objects.py:956-968. -/
structure Param where
  name : String
  dir : Dir
  type : String
  array : Bool
  deriving DecidableEq, Repr

/-- A method of a procedure. -/
structure Method where
  name : String
  ret : Option String
  params : List Param
  deriving DecidableEq, Repr

/-- The types of the theory. -/
inductive Native
  | int | nat | char | bool | string
  deriving DecidableEq, Repr

/-- The constructors of `variable`. -/
inductive Con
  | integer | number | char | boolean | string
  deriving DecidableEq, Repr

/-- `show_native_type`, camkes/templates/cimp-base.thy:18-32; `none` is the error. -/
def native (t : String) : Option Native :=
  if t ∈ ["int", "int8_t", "int16_t", "int32_t", "int64_t"] then some .int
  else if t ∈ ["unsigned int", "uint8_t", "uint16_t", "uint32_t", "uint64_t", "uintptr_t"] then some .nat
  else if t ∈ ["char", "character"] then some .char
  else if t = "bool" then some .bool
  else if t = "string" then some .string
  else none

/-- `show_wrapped_type`, camkes/templates/cimp-base.thy:34-48. -/
def wrapped (t : String) : Option Con :=
  if t ∈ ["int", "int8_t", "int16_t", "int32_t", "int64_t"] then some .integer
  else if t ∈ ["unsigned int", "uint8_t", "uint16_t", "uint32_t", "uint64_t", "uintptr_t"] then some .number
  else if t ∈ ["char", "character"] then some .char
  else if t = "bool" then some .boolean
  else if t = "string" then some .string
  else none

/-- `x.direction in ['in', 'inout']`. -/
def isIn (p : Param) : Bool := p.dir = .in_ || p.dir = .inout

/-- `x.direction in ['out', 'inout']`. -/
def isOut (p : Param) : Bool := p.dir = .out || p.dir = .inout

/-- The glue code of a call: the functions that it gets for the values to send, what `embed_ret` gets, the number of the method, what is sent,
and where in the answer the results are. -/
structure CallDef where
  args : List (String × Native)
  embed : Option (List Native)
  number : Nat
  sends : List (Con × String)
  takes : List (Nat × Con)
  deriving DecidableEq, Repr

/-- The result as if it were a first parameter. -/
def results (m : Method) : List (String × String) :=
  (m.ret.map fun t => ("return", t)).toList ++ (m.params.filter isOut).map fun p => (p.name, p.type)

/-- The positions of the answer, camkes/templates/cimp-base.thy:145-152: `hd` for the result, then the parameters one place further if there is
a result. -/
def answerPlaces (m : Method) : Option (List (Nat × Con)) :=
  match m.ret with
  | none => ((m.params.filter isOut).zipIdx.mapM fun (p, i) => (wrapped p.type).map fun c => (i, c))
  | some t =>
    match wrapped t, ((m.params.filter isOut).zipIdx.mapM fun (p, i) => (wrapped p.type).map fun c => (i + 1, c)) with
    | some c, some cs => some ((0, c) :: cs)
    | _, _ => none

/-- `Call_<component>_<interface>_<method>`, camkes/templates/cimp-base.thy:102-157; `i` is the number of the method. -/
def genCall (i : Nat) (m : Method) : Option CallDef :=
  match (m.params.filter isIn).mapM (fun p => (native p.type).map fun n => (p.name, n)), (results m).mapM (fun r => native r.2),
      (m.params.filter isIn).mapM (fun p => (wrapped p.type).map fun c => (c, p.name)), answerPlaces m with
  | some args, some outs, some sends, some takes =>
    some { args, embed := if m.ret.isSome || (m.params.filter isOut).length > 0 then some outs else none, number := i, sends, takes }
  | _, _, _, _ => none

/-- The glue code of a server for one method: what the function that stores the parameters gets, where they are in the question, the functions
that give the results, and what is answered. -/
structure Branch where
  method : String
  embed : Option (List Native)
  number : Nat
  takes : List (Nat × Con)
  outs : List (String × Native)
  gives : List (Con × String)
  deriving DecidableEq, Repr

/-- One part of `Recv_<component>_<interface>`, camkes/templates/cimp-base.thy:166-180, 203-230. The functions are called
`<method>_return` and `<method>_<parameter>`; the model leaves out the prefix (see `recvNames`). -/
def genBranch (i : Nat) (m : Method) : Option Branch :=
  match (m.params.filter isIn).mapM (fun p => native p.type),
      ((m.params.filter isIn).zipIdx.mapM fun (p, k) => (wrapped p.type).map fun c => (k, c)),
      (results m).mapM (fun r => (native r.2).map fun n => (r.1, n)), (results m).mapM (fun r => (wrapped r.2).map fun c => (c, r.1)) with
  | some ins, some takes, some outs, some gives =>
    some { method := m.name, embed := if (m.params.filter isIn).length > 0 then some ins else none, number := i, takes, outs, gives }
  | _, _, _, _ => none

/-- `Recv_<component>_<interface>`, camkes/templates/cimp-base.thy:163-232. -/
def genRecv (ms : List Method) : Option (List Branch) := ms.zipIdx.mapM fun (m, i) => genBranch i m

/-- The names of the parameters of `Recv_<component>_<interface>` after the first, camkes/templates/cimp-base.thy:187-198. -/
def recvNames (c u : String) (ms : List Method) : List String :=
  ms.flatMap fun m =>
    (if (m.params.filter isIn).length > 0 then [m.name ++ "\\<^sub>E"] else []) ++ [c ++ "_" ++ u ++ "_" ++ m.name] ++
    (if m.ret.isSome then [m.name ++ "_return\\<^sub>P"] else []) ++ (m.params.filter isOut).map fun p => m.name ++ "_" ++ p.name ++ "\\<^sub>P"

/-! ### What the definitions mean -/

/-- A value of one of the types. -/
inductive Val
  | int (i : Int) | nat (n : Nat) | char (c : Char) | bool (b : Bool) | string (s : String)
  deriving DecidableEq, Repr

/-- `variable`, of the theory `CamkesGlueSpec.Types`. -/
inductive Var
  | integer (i : Int) | number (n : Nat) | char (c : Char) | boolean (b : Bool) | string (s : String)
  deriving DecidableEq, Repr

/-- Applying a constructor; `none` if the types do not fit, so that the theory is refused. -/
def wrap : Con → Val → Option Var
  | .integer, .int i => some (.integer i)
  | .number, .nat n => some (.number n)
  | .char, .char c => some (.char c)
  | .boolean, .bool b => some (.boolean b)
  | .string, .string s => some (.string s)
  | _, _ => none

/-- `case x of C v ⇒ v`; `none` is `undefined`. -/
def unwrap : Con → Var → Option Val
  | .integer, .integer i => some (.int i)
  | .number, .number n => some (.nat n)
  | .char, .char c => some (.char c)
  | .boolean, .boolean b => some (.bool b)
  | .string, .string s => some (.string s)
  | _, _ => none

/-- The contents of a question. -/
inductive Data
  | call (n : Nat) (xs : List Var)
  | ret (xs : List Var)
  deriving DecidableEq, Repr

/-- What an enabled or disabled `Response` does with a question. -/
inductive Reaction
  | disabled
  | undefined
  | stores (vs : List Val)
  deriving DecidableEq, Repr

/-- `case xs ! k of C v ⇒ v` for each place. -/
def takeAll (xs : List Var) (ts : List (Nat × Con)) : Reaction :=
  match ts.mapM fun t => (xs[t.1]?).bind (unwrap t.2) with
  | some vs => .stores vs
  | none => .undefined

/-- The `Request` of a call, camkes/templates/cimp-base.thy:134-138. -/
def request (d : CallDef) (args : String → Val) : Option Data :=
  (d.sends.mapM fun s => wrap s.1 (args s.2)).map (Data.call d.number)

/-- The `Response` of a server, camkes/templates/cimp-base.thy:209-219. -/
def accept (b : Branch) : Data → Reaction
  | .call n xs => if n = b.number then takeAll xs b.takes else .disabled
  | .ret _ => .disabled

/-- The `Request` of a server, camkes/templates/cimp-base.thy:222-229. -/
def reply (b : Branch) (outs : String → Val) : Option Data := (b.gives.mapM fun s => wrap s.1 (outs s.2)).map Data.ret

/-- The `Response` of a call, camkes/templates/cimp-base.thy:142-156. -/
def finish (d : CallDef) : Data → Reaction
  | .ret xs => takeAll xs d.takes
  | .call _ _ => .disabled

/-! ### Connections -/

/-- An end of a connection. -/
structure End where
  inst : String
  iface : String
  deriving DecidableEq, Repr

/-- The kinds of interfaces that a connector joins. -/
inductive Joins
  | procedure | event | dataport
  deriving DecidableEq, Repr

/-- A connection; `joins` is `type.from_type`. -/
structure Conn where
  name : String
  joins : Joins
  froms : List End
  tos : List End
  deriving DecidableEq, Repr

/-- The cases of the function from the interfaces of an instance to channels, camkes/templates/cimp-base.thy:318-333 and each other
definition of an instance: for each connection the first end on either side that is one of the instance. -/
def cases (conns : List Conn) (i : String) : List (String × String) :=
  conns.flatMap fun c =>
    ((c.froms.find? fun e => i = e.inst).map fun e => (e.iface, c.name)).toList ++
    ((c.tos.find? fun e => i = e.inst).map fun e => (e.iface, c.name)).toList

/-- `case l of …`: the first case that matches; `none` is `undefined`. -/
def channel (conns : List Conn) (i f : String) : Option String := ((cases conns i).find? fun p => p.1 = f).map (·.2)

/-- A type of components, as far as the theory looks at it; events and dataports have types. -/
structure CompType where
  name : String
  uses : List (String × List Method)
  provides : List (String × List Method)
  emits : List (String × String)
  consumes : List (String × String)
  dataports : List (String × String)

/-- An instance. -/
structure Inst where
  name : String
  type : CompType

/-- The constructors of `<component>_channel`, camkes/templates/cimp-base.thy:88-97, and the interfaces of `<component>_untrusted`,
camkes/templates/cimp-base.thy:494-506. -/
def ifaceCons (c : CompType) : List String :=
  (c.uses.map (·.1) ++ c.provides.map (·.1) ++ c.emits.map (·.1) ++ c.consumes.map (·.1) ++ c.dataports.map (·.1)).map
    fun i => c.name ++ "_" ++ i

/-- The constructors of `inst`, camkes/templates/cimp-base.thy:67-83. -/
def instCons (is : List Inst) (conns : List Conn) : List String :=
  is.map Inst.name ++ conns.flatMap fun c =>
    match c.joins with
    | .event => [c.name ++ "\\<^sub>e"]
    | .dataport => [c.name ++ "\\<^sub>d"]
    | .procedure => []

/-- The cases of the initial state, camkes/templates/cimp-base.thy:590-606: a constructor and the definition that it runs. -/
def initial (is : List Inst) (conns : List Conn) : List (String × String) :=
  is.map (fun i => (i.name, i.name ++ "_untrusted")) ++ conns.flatMap fun c =>
    match c.joins with
    | .event => [(c.name ++ "\\<^sub>e", c.name ++ "\\<^sub>e_instance")]
    | .dataport => [(c.name ++ "\\<^sub>d", c.name ++ "\\<^sub>d_instance")]
    | .procedure => []

/-- `xs + ([b.type] if b.type not in xs else [])`. -/
def dedup : List String → List String → List String
  | acc, [] => acc
  | acc, t :: ts => dedup (if t ∈ acc then acc else acc ++ [t]) ts

/-- The simulated components for events and dataports, camkes/templates/cimp-base.thy:511-540: the names of what is defined. -/
def simulated (cs : List CompType) : List String :=
  dedup [] (cs.flatMap fun c => (c.emits ++ c.consumes).map (·.2)) ++
  ((dedup [] (cs.flatMap fun c => c.dataports.map (·.2))).filter fun d => d ≠ "Buf").map fun d => d ++ "\\<^sub>d"

/-- `from_interface` of a connection, camkes/ast/objects.py:505-509, 521-523: an assertion that there is one end. -/
def fromEnd (c : Conn) : Option End := match c.froms with | [e] => some e | _ => none

/-- The type of an interface of an instance. -/
def typeOf (is : List Inst) (e : End) : Option String :=
  (is.find? fun i => i.name = e.inst).bind fun i =>
    ((i.type.emits ++ i.type.consumes ++ i.type.dataports).find? fun p => p.1 = e.iface).map (·.2)

/-- The instances of simulated components, camkes/templates/cimp-base.thy:569-583: what is defined, what it is an instance of, and the channel.
`none` is the failing assertion. Simplification: events and dataports are not sorted apart. -/
def simInstances (is : List Inst) (conns : List Conn) : Option (List (String × String × String)) :=
  (conns.filter fun c => c.joins ≠ .procedure).mapM fun c =>
    (fromEnd c).bind fun e => (typeOf is e).map fun t =>
      match c.joins with
      | .event => (c.name ++ "\\<^sub>e_instance", t, c.name)
      | _ => (c.name ++ "\\<^sub>d_instance", t ++ "\\<^sub>d", c.name)

end Verif.Glue
