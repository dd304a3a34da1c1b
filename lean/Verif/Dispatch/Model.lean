import Verif.Marshal.Spec
import Verif.Badges.Model

/-!
# The server of an RPC connection with several clients

Model of what `camkes/templates/rpc-connector-common-to.c` generates around the marshalling (for
which see `Verif.Marshal`): the choice of the interface type by the badge, the choice of the method,
the call of the implementation and the reply; and of the calling side,
`camkes/templates/rpc-connector-common-from.c`.  The clients of a connection of type
`seL4RPCCallNoType` may have interfaces of different types
(`include/builtin/std_connector.camkes:90-96`).
-/

namespace Verif.Dispatch

open Verif.Marshal (Env Ty Val Byte Out)

/-- A method: its name, the parameters that go to the server (`in`, `refin`, `inout`), the return
type and the parameters that come back (`out`, `inout`), rpc-connector-common-from.c:40-44. -/
structure Method where
  name : String
  ins : List Ty
  ret : Option Ty
  outs : List Ty
  deriving DecidableEq

/-- An interface type (a procedure). -/
structure Proc where
  name : String
  methods : List Method
  deriving DecidableEq

/-- A from end of the connection: the badge that is configured for it, if any, and the type of its
interface. -/
structure Client where
  explicit : Option Nat
  type : Proc
  deriving DecidableEq

/-! ### The generated program -/

/-- `type_dict.update({f.interface.type: cur_list})`, rpc-connector-common-to.c:41-46: dictionaries
keep the order in which keys are first set. -/
def addEnd (t : Proc) (i : Nat) : List (Proc × List Nat) → List (Proc × List Nat)
  | [] => [(t, [i])]
  | (u, l) :: d => if u = t then (u, l ++ [i]) :: d else (u, l) :: addEnd t i d

/-- The loop over the from ends, rpc-connector-common-to.c:42-46, from the end with index `i` on. -/
def typeDictFrom : Nat → List Proc → List (Proc × List Nat) → List (Proc × List Nat)
  | _, [], d => d
  | i, t :: ts, d => typeDictFrom (i + 1) ts (addEnd t i d)

/-- `type_dict`, rpc-connector-common-to.c:40-46. -/
def typeDict (cs : List Client) : List (Proc × List Nat) := typeDictFrom 0 (cs.map (·.type)) []

/-- The badges of the clients, rpc-connector.c:30-62. -/
def badges (cs : List Client) : List Nat :=
  (Badges.allocateBadges (cs.map (·.explicit))).map (·.getD 0)

/-- What stands in the loop of the server, as far as it matters which code is reached: `body t` is
the code for the methods of the type `t` (rpc-connector-common-to.c:98-230), in which braces are
balanced and which has its own `switch`; `report` is the error for an unknown badge. -/
inductive Tok
  | switch
  | label (badge : Nat)
  | otherwise
  | open_
  | close_
  | body (t : Proc)
  | report
  | leave
  deriving DecidableEq

/-- The code for one type where there are several, rpc-connector-common-to.c:91-96,231-234. -/
def block (bs : List Nat) (e : Proc × List Nat) : List Tok :=
  e.2.flatMap (fun i => [.label ((bs[i]?).getD 0), .open_]) ++ [.body e.1, .leave, .close_]

/-- The loop of the server up to the labels, rpc-connector-common-to.c:87-251. -/
def program (cs : List Client) : List Tok :=
  let d := typeDict cs
  if d.length > 1 then
    [.switch, .open_] ++ d.flatMap (block (badges cs)) ++ [.otherwise, .report, .leave, .close_]
  else d.map (fun e => .body e.1)

/-- The functions that are defined for the methods, rpc-connector-common-to.c:48-69. -/
def functions (cs : List Client) : List String :=
  (typeDict cs).flatMap fun e => e.1.methods.flatMap fun m =>
    [m.name ++ "_unmarshal_inputs", m.name ++ "_marshal_outputs"]

/-- Braces match. -/
def matched : Nat → List Tok → Bool
  | d, [] => d = 0
  | d, .open_ :: l => matched (d + 1) l
  | 0, .close_ :: _ => false
  | d + 1, .close_ :: l => matched d l
  | d, _ :: l => matched d l

/-- The labels of the `switch` over badges. -/
def labels (l : List Tok) : List Nat := l.filterMap fun t => match t with
  | .label b => some b
  | _ => none

/-- The compiler accepts the program: braces match, no label is there twice, no function is defined
twice.  Simplification: nothing else is looked at. -/
def compiles (cs : List Client) : Bool :=
  matched 0 (program cs) && decide (labels (program cs)).Nodup && decide (functions cs).Nodup

/-! ### Its execution -/

/-- Where the program gets to. -/
inductive Place
  /-- the code of a type -/
  | body (t : Proc)
  /-- the error for an unknown badge -/
  | unknown
  /-- the label `reply_recv` -/
  | reply
  deriving DecidableEq

/-- What follows a label. -/
def after (x : Tok) : List Tok → Option (List Tok)
  | [] => none
  | t :: l => if t = x then some l else after x l

/-- Execution from a place on, until something happens. -/
def exec : List Tok → Place
  | [] => .reply
  | .body t :: _ => .body t
  | .report :: _ => .unknown
  | .leave :: _ => .reply
  | _ :: l => exec l

/-- Where a message with the badge `b` gets to. -/
def reached (b : Nat) : List Tok → Place
  | .switch :: l => match after (.label b) l with
    | some r => exec r
    | none => match after .otherwise l with
      | some r => exec r
      | none => .reply
  | l => exec l

/-- What is wrong with a request or a reply. -/
inductive Problem | malformed | invalidMethod | unknownBadge | tooLong
  deriving DecidableEq

/-- What the error handler decides, error.h:220-245. -/
inductive Action | discard | ignore | abort
  deriving DecidableEq

/-- The surroundings of the server. -/
structure Env' (σ : Type) where
  env : Env
  malloc : Nat → Bool
  /-- the buffer is a shared dataport, rpc-connector.c:64-88 -/
  trailing : Bool
  size : Nat
  /-- the implementation: from the state of the component, the name of the method and the arguments
  to the new state, the return value and the outputs -/
  impl : σ → String → List Val → σ × (Option Val × List Val)
  act : Problem → Action

/-- The state of the server. -/
structure St (σ : Type) where
  comp : σ
  mem : Nat → Byte
  /-- the variable `length`; `none` for `UINT_MAX` -/
  length : Option Nat
  /-- the calls of the implementation so far, with the badge of the client -/
  log : List (Nat × String × List Val)

/-- What becomes of a request. -/
inductive Outcome
  | reply (bytes : List Byte)
  /-- the client waits for ever -/
  | dropped
  | aborted
  /-- a reply of `UINT_MAX` bytes -/
  | garbage
  deriving DecidableEq

/-- The bytes that are transferred for a message of `len` bytes, rpc-connector.c:298-308,383-391. -/
def transfer (e : Env) (trailing : Bool) (size : Nat) (o : Out) (len : Nat) : List Byte :=
  Marshal.bytesOf o (Marshal.sentLength e trailing size len)

variable {σ : Type}

/-- An error, with the code after it where it is ignored: it goes on to `reply_recv`, with the
`length` of the last reply (rpc-connector-common-to.c:214-258, error.h:228-245).  Simplification:
errors of the marshalling macros cannot be ignored here. -/
def problem (v : Env' σ) (s : St σ) (p : Problem) : St σ × Outcome :=
  match v.act p with
  | .discard => (s, .dropped)
  | .abort => (s, .aborted)
  | .ignore =>
    if p = .invalidMethod ∨ p = .unknownBadge then
      match s.length with
      | some len => (s, .reply (transfer v.env v.trailing v.size ⟨s.mem, 0⟩ len))
      | none => (s, .garbage)
    else (s, .dropped)

/-- The values with their types. -/
def typed (m : Method) (r : Option Val × List Val) : Option (Ty × Val) × List (Ty × Val) :=
  (m.ret.bind fun t => r.1.map fun x => (t, x), m.outs.zip r.2)

/-- A method is called and its results are sent, rpc-connector-common-to.c:150-210. -/
def serve (v : Env' σ) (s : St σ) (b : Nat) (m : Method) (args : List Val) : St σ × Outcome :=
  let r := v.impl s.comp m.name args
  let s1 : St σ := { s with comp := r.1, log := s.log ++ [(b, m.name, args)] }
  match Marshal.marshalOutputs v.env v.size ⟨s.mem, 0⟩ (typed m r.2).1 (typed m r.2).2 with
  | .ok (o, len) =>
    ({ s1 with mem := o.mem, length := some len }, .reply (transfer v.env v.trailing v.size o len))
  | .error o => match v.act .tooLong with
    | .abort => ({ s1 with mem := o.mem }, .aborted)
    | _ => ({ s1 with mem := o.mem, length := none }, .dropped)

/-- A message with the badge `b` arrives, rpc-connector-common-to.c:87-251. -/
def step (v : Env' σ) (prog : List Tok) (s : St σ) (b : Nat) (msg : List Byte) : St σ × Outcome :=
  let s1 : St σ := { s with mem := (Marshal.memcpy ⟨s.mem, 0⟩ 0 msg).mem }
  match reached b prog with
  | .unknown => problem v s1 .unknownBadge
  | .reply => match s1.length with
    | some len => (s1, .reply (transfer v.env v.trailing v.size ⟨s1.mem, 0⟩ len))
    | none => (s1, .garbage)
  | .body t => match Marshal.receive v.env v.malloc v.trailing (t.methods.map (·.ins)) msg with
    | .error .invalidMethod => problem v s1 .invalidMethod
    | .error _ => problem v s1 .malformed
    | .ok (i, args) => match t.methods[i]? with
      | some m => serve v s1 b m args
      | none => problem v s1 .invalidMethod

/-! ### The calling side -/

/-- What a client sends for the method with index `i` of its type, rpc-connector-common-from.c:55-75;
`none` where the parameters do not fit.  `buf` is what was in its buffer. -/
def request (v : Env' σ) (buf : Nat → Byte) (t : Proc) (i : Nat) (ps : List (Ty × Val)) :
    Option (List Byte) :=
  match Marshal.marshalInputs v.env t.methods.length i v.size ⟨buf, 0⟩ ps with
  | .ok (o, len) => some (transfer v.env v.trailing v.size o len)
  | .error _ => none

/-- What becomes of a call at the client. -/
inductive Result
  | returned (vals : List Val)
  | notSent
  | failed
  | never
  deriving DecidableEq

/-- A call: the client, the index of the method, the parameters, and what was in the client's
buffer. -/
structure Call where
  client : Nat
  index : Nat
  args : List (Ty × Val)
  buf : Nat → Byte

/-- A call from the beginning to the end, rpc-connector-common-from.c:46-98. -/
def callOnce (v : Env' σ) (cs : List Client) (s : St σ) (c : Call) : St σ × Result :=
  match cs[c.client]? with
  | none => (s, .never)
  | some cl => match cl.type.methods[c.index]? with
    | none => (s, .never)
    | some m => match request v c.buf cl.type c.index c.args with
      | none => (s, .notSent)
      | some msg =>
        match step v (program cs) s ((badges cs)[c.client]?.getD 0) msg with
        | (s', .reply bytes) =>
          match Marshal.unmarshalOutputs v.env v.malloc v.trailing bytes m.ret m.outs with
          | .ok vals => (s', .returned vals)
          | .error _ => (s', .failed)
        | (s', _) => (s', .never)

/-- Calls one after the other; the endpoint gives the server one request at a time. -/
def calls (v : Env' σ) (cs : List Client) : St σ → List Call → St σ × List Result
  | s, [] => (s, [])
  | s, c :: l =>
    let r := callOnce v cs s c
    let r' := calls v cs r.1 l
    (r'.1, r.2 :: r'.2)

/-- Messages of any content, from clients that do as they like. -/
def messages (v : Env' σ) (cs : List Client) : St σ → List (Nat × List Byte) → St σ
  | s, [] => s
  | s, (j, msg) :: l =>
    messages v cs (step v (program cs) s ((badges cs)[j]?.getD 0) msg).1 l

/-- The server at the start: `length` is 0, rpc-connector-common-to.c:79. -/
def start (c : σ) (mem : Nat → Byte) : St σ := ⟨c, mem, some 0, []⟩

end Verif.Dispatch
