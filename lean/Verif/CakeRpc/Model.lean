import Verif.Marshal.Model

/-!
# Model: remote procedure calls served by a component in CakeML
(camkes/templates/seL4RPCCall-to.template.cakeml, component.environment.start.cakeml, the CakeML parts of
rpc-connector.c, and libcamkescakeml/src/ipc.c)

The client is a component in C: its side is modelled in `Verif.Marshal`. Integers of CakeML are unbounded; accesses
to an array outside of it raise an exception, which nothing catches. Outside: what the implementation of the methods
returns, the kernel, which carries the words of the message, and what else the component does with the IPC buffer.
A word has `ws` bytes. The saving of the reply capability is not part of this model.
-/

namespace Verif.CakeRpc

open Marshal (Byte enc)

/-- What stops the component. -/
inductive Stop
  /-- the exception `Subscript` -/
  | subscript
  /-- `Utils.fail "Unexpected badge"` -/
  | badge
  /-- `Utils.fail "Unexpected method_id"` -/
  | method
  /-- the C code writes or reads outside of the array or of the IPC buffer -/
  | overrun
  deriving DecidableEq, Repr

/-- A `Word8Array`. -/
abbrev Buf := List Byte

/-- Writing bytes into an array; `Word8Array.copy` raises an exception if they do not fit. -/
def put (err : Stop) (b : Buf) (off : Nat) (bytes : List Byte) : Except Stop Buf :=
  if off + bytes.length ≤ b.length then .ok (b.take off ++ bytes ++ b.drop (off + bytes.length)) else .error err

/-- `Word8.fromInt`. -/
def word8 (w : Int) : Byte := UInt8.ofNat (w % 256).toNat

/-- The loop of `int_to_bytes`, component.environment.start.cakeml:24-30. -/
def intLoop (w : Int) : Nat → Int → List Byte
  | 0, _ => []
  | n + 1, divisor => word8 (w / divisor) :: intLoop w n (divisor * 256)

/-- `int_to_bytes`, component.environment.start.cakeml:21-33. -/
def intToBytes (w : Int) (len : Nat) : List Byte := intLoop w len 1

/-- The loop of `bytes_to_int`, component.environment.start.cakeml:38-42, when `n` bytes remain (`i = len - n`). -/
def bytesLoop (b : Buf) (off : Nat) : Nat → Nat → Except Stop Nat
  | 0, acc => .ok acc
  | n + 1, acc =>
    match b[off + n]? with
    | none => .error .subscript
    | some x => bytesLoop b off n (acc * 256 + x.toNat)

/-- `bytes_to_int`, component.environment.start.cakeml:35-44. -/
def bytesToInt (b : Buf) (off len : Nat) : Except Stop Nat := bytesLoop b off len 0

/-- `nul_byte_idx`, component.environment.start.cakeml:49-53; `fuel` is more than the number of rounds. -/
def nulIdx (b : Buf) (len : Nat) : Nat → Nat → Except Stop Nat
  | 0, _ => .error .subscript
  | fuel + 1, i =>
    if i = len then .ok i
    else match b[i]? with
      | none => .error .subscript
      | some x => if x = 0 then .ok i else nulIdx b len fuel (i + 1)

/-- `read_c_string`, component.environment.start.cakeml:46-56: the string and its length. -/
def readCString (b : Buf) (off len : Nat) : Except Stop (List Byte × Nat) :=
  match nulIdx b len (len + 2) off with
  | .error e => .error e
  | .ok i => .ok ((b.drop off).take (i - off), i - off)

/-! ## Parameters -/

/-- The types that are supported. -/
inductive Ty
  | int (size : Nat)
  | string
  deriving DecidableEq, Repr

/-- Values: integers and strings. -/
inductive Val
  | int (n : Int)
  | string (s : List Byte)
  deriving DecidableEq, Repr

/-- Which parameters are supported, and how large they are: seL4RPCCall-to.template.cakeml:21-43, 60-62 and 65-68, and
`_sizes`, macros.py:360-371; `none` is a `TemplateError`. -/
def tyOf (type : String) (array : Bool) : Option Ty :=
  if array then none
  else if type = "uint8_t" then some (.int 1)
  else if type = "uint16_t" then some (.int 2)
  else if type = "uint32_t" then some (.int 4)
  else if type = "uint64_t" then some (.int 8)
  else if type = "string" then some .string
  else none

/-- `cakeml_unmarshal`, seL4RPCCall-to.template.cakeml:23-36. -/
def unmarshal (b : Buf) (off : Nat) : Ty → Except Stop (Val × Nat)
  | .int sz =>
    match bytesToInt b off sz with
    | .error e => .error e
    | .ok n => .ok (.int n, off + sz)
  | .string =>
    match readCString b off b.length with
    | .error e => .error e
    | .ok (s, n) => .ok (.string s, off + n + 1)

/-- The input parameters, seL4RPCCall-to.template.cakeml:133-136. -/
def unmarshalAll (b : Buf) : Nat → List Ty → Except Stop (List Val)
  | _, [] => .ok []
  | off, t :: ts =>
    match unmarshal b off t with
    | .error e => .error e
    | .ok (v, off) =>
      match unmarshalAll b off ts with
      | .error e => .error e
      | .ok vs => .ok (v :: vs)

/-- `cakeml_marshal`, seL4RPCCall-to.template.cakeml:45-63. `space_remaining` can be negative; copying a negative number
of bytes raises an exception. -/
def marshal (b : Buf) (off : Nat) : Val → Ty → Except Stop (Buf × Nat)
  | .int n, .int sz =>
    match put .subscript b off (intToBytes n sz) with
    | .error e => .error e
    | .ok b => .ok (b, off + sz)
  | .string s, .string =>
    if b.length < off + 1 then .error .subscript
    else
      let space := b.length - off - 1
      let n := if s.length ≤ space then s.length else space
      match put .subscript b off (s.take n) with
      | .error e => .error e
      | .ok b =>
        match put .subscript b (off + n) [0] with
        | .error e => .error e
        | .ok b => .ok (b, off + n + 1)
  -- excluded by the types of CakeML
  | _, _ => .error .subscript

/-- The return value and the output parameters, seL4RPCCall-to.template.cakeml:163-170. -/
def marshalAll : Buf → Nat → List (Ty × Val) → Except Stop (Buf × Nat)
  | b, off, [] => .ok (b, off)
  | b, off, (t, v) :: ps =>
    match marshal b off v t with
    | .error e => .error e
    | .ok (b, off) => marshalAll b off ps

/-! ## The server -/

/-- A method: its input parameters, its return type and its output parameters. -/
structure Method where
  ins : List Ty
  ret : Option Ty
  outs : List Ty
  deriving DecidableEq, Repr

/-- `log2`, seL4RPCCall-to.template.cakeml:72-84; zero for a `TemplateError`. -/
def idBytes (methods : Nat) : Nat :=
  if methods ≤ 2 ^ 8 then 1
  else if methods ≤ 2 ^ 16 then 2
  else if methods ≤ 2 ^ 32 then 4
  else if methods ≤ 2 ^ 64 then 8
  else 0

/-- A from end of the connection: the type of its interface and the badge of its capability. -/
structure End (τ : Type) where
  type : τ
  badge : Nat
  deriving DecidableEq, Repr

/-- `type_dict`, seL4RPCCall-to.template.cakeml:12-17, with the badges instead of the indices: the ends of each type,
in the order in which the types occur first. -/
def typeDict [DecidableEq τ] : List (End τ) → List (τ × List Nat) → List (τ × List Nat)
  | [], d => d
  | e :: es, d =>
    if d.any (fun p => p.1 = e.type) then typeDict es (d.map (fun p => if p.1 = e.type then (p.1, p.2 ++ [e.badge]) else p))
    else typeDict es (d ++ [(e.type, [e.badge])])

/-- The type chosen by the badge, seL4RPCCall-to.template.cakeml:103-114 and 178-179. -/
def typeOf [DecidableEq τ] (ends : List (End τ)) (badge : Nat) : Option τ :=
  ((typeDict ends []).find? (fun p => p.2.contains badge)).map (·.1)

/-- The size of the array, rpc-connector.c:94-97. -/
def bsize (ws : Nat) : Nat := 120 * ws + 2 * ws + 1

/-- Where the message begins in the array: `cakeml_reserved_buf`, rpc-connector.c:99. -/
def reserved (ws : Nat) : Nat := 2 * ws + 1

/-- `seL4_Recv`, component.environment.start.cakeml:78-86, and `ffiseL4_Recv`, ipc.c:39-52, when the message `msg` arrives
through a capability with the badge `badge`: the array, the length and the badge. The second half of `seL4_ReplyRecv`
(start.cakeml:72-75, ipc.c:68-75) does the same. -/
def recv (ws : Nat) (b : Buf) (ep : Int) (msg : List Byte) (badge : Nat) : Except Stop (Buf × Nat × Nat) :=
  match put .subscript b 1 (intToBytes ep ws) with
  | .error e => .error e
  | .ok b =>
    match put .overrun b 0 (0 :: (enc ws msg.length ++ enc ws badge ++ msg)) with
    | .error e => .error e
    | .ok b =>
      match bytesToInt b 1 ws with
      | .error e => .error e
      | .ok len =>
        match bytesToInt b (1 + ws) ws with
        | .error e => .error e
        | .ok badge => .ok (b, len, badge)

/-- `rpc_loop` up to the call of the implementation, seL4RPCCall-to.template.cakeml:102-159: the type of the interface, the
method and its inputs. -/
def dispatch [DecidableEq τ] (ws : Nat) (ends : List (End τ)) (methods : τ → List Method) (b : Buf) (badge : Nat) :
    Except Stop (τ × Nat × List Val) :=
  match typeOf ends badge with
  | none => .error .badge
  | some t =>
    let n := (methods t).length
    match (if n ≤ 1 then .ok 0 else bytesToInt b (reserved ws) (idBytes n)) with
    | .error e => .error e
    | .ok i =>
      match (methods t)[i]? with
      | none => .error .method
      | some m =>
        match unmarshalAll b (if n ≤ 1 then reserved ws else reserved ws + idBytes n) m.ins with
        | .error e => .error e
        | .ok vs => .ok (t, i, vs)

/-- A message is received and handed to the implementation: the array, the type, the method and the inputs. The
length is not used. -/
def accept [DecidableEq τ] (ws : Nat) (ends : List (End τ)) (methods : τ → List Method) (b : Buf) (ep : Int)
    (msg : List Byte) (badge : Nat) : Except Stop (Buf × τ × Nat × List Val) :=
  match recv ws b ep msg badge with
  | .error e => .error e
  | .ok (b, _, badge) =>
    match dispatch ws ends methods b badge with
    | .error e => .error e
    | .ok (t, i, vs) => .ok (b, t, i, vs)

/-- The number `v` as a machine word. -/
def wordOf (bytes : List Byte) : Nat := Marshal.dec bytes

/-- Sending the reply: `seL4_ReplyRecv` or `seL4_Send`, component.environment.start.cakeml:67-72 and 88-93, and the first
halves of `ffiseL4_ReplyRecv` and `ffiseL4_Send`, ipc.c:54-67 and 78-91. `ipc` is what is in the IPC buffer before. The array and what is sent. -/
def send (ws : Nat) (b : Buf) (ep : Int) (len : Int) (ipc : Nat → Byte) : Except Stop (Buf × List Byte) :=
  match put .subscript b 1 (intToBytes ep ws) with
  | .error e => .error e
  | .ok b =>
    match put .subscript b (1 + ws) (intToBytes len ws) with
    | .error e => .error e
    | .ok b =>
      let len := wordOf ((b.drop (1 + ws)).take ws)
      if reserved ws + len ≤ b.length ∧ len ≤ 120 * ws then
        let o := Marshal.memcpy ⟨ipc, 0⟩ 0 ((b.drop (reserved ws)).take len)
        .ok (b, (List.range ((len + ws - 1) / ws * ws)).map o.mem)
      else .error .overrun

/-- The results of a method are marshalled and sent, seL4RPCCall-to.template.cakeml:162-172. -/
def answer (ws : Nat) (b : Buf) (ep : Int) (m : Method) (results : List Val) (ipc : Nat → Byte) : Except Stop (Buf × List Byte) :=
  match marshalAll b (reserved ws) ((m.ret.toList ++ m.outs).zip results) with
  | .error e => .error e
  | .ok (b, off) => send ws b ep (off - reserved ws : Int) ipc

/-- A message that arrives, what the implementation returns for the method and its inputs, and what is in the IPC buffer
when the reply is sent. -/
structure Event (τ : Type) where
  msg : List Byte
  badge : Nat
  impl : τ → Nat → List Val → List Val
  ipc : Nat → Byte

/-- One round of the loop: what was called, and what was sent. -/
def round [DecidableEq τ] (ws : Nat) (ends : List (End τ)) (methods : τ → List Method) (ep : Int) (b : Buf) (ev : Event τ) :
    Except Stop (Buf × (τ × Nat × List Val) × List Byte) :=
  match accept ws ends methods b ep ev.msg ev.badge with
  | .error e => .error e
  | .ok (b, t, i, vs) =>
    match (methods t)[i]? with
    | none => .error .method
    | some m =>
      match answer ws b ep m (ev.impl t i vs) ev.ipc with
      | .error e => .error e
      | .ok (b, sent) => .ok (b, (t, i, vs), sent)

/-- The loop: it goes on until something stops it. -/
def serve [DecidableEq τ] (ws : Nat) (ends : List (End τ)) (methods : τ → List Method) (ep : Int) :
    Buf → List (Event τ) → List ((τ × Nat × List Val) × List Byte) × Except Stop Buf
  | b, [] => ([], .ok b)
  | b, ev :: evs =>
    match round ws ends methods ep b ev with
    | .error e => ([], .error e)
    | .ok (b, called, sent) => ((called, sent) :: (serve ws ends methods ep b evs).1, (serve ws ends methods ep b evs).2)

/-- The array at the start, rpc-connector.c:98-101. -/
def start (ws : Nat) : Buf := List.replicate (bsize ws) 0

end Verif.CakeRpc
