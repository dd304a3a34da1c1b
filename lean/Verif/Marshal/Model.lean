import Verif.Macros.Model

/-!
# Model: marshalling of RPC parameters
(libsel4camkes/include/camkes/marshal_macros.h, camkes/templates/helpers/marshal.c,
camkes/templates/rpc-connector-common-to.c)

Machine arithmetic is modelled: `size_t` has `wb` bytes, `unsigned` has `ub` bytes, and both wrap around.
Memory is modelled to the extent that matters: marshalling records which bytes it writes and how far,
unmarshalling stops with `overrun` when the C code would read outside of the message or write outside
of what it has allocated. The counter of the loops over arrays of strings is an `int` in C; here it
does not overflow (each round uses at least one byte of a message). Numbers are stored with the lowest
byte first.
-/

namespace Verif.Marshal

abbrev Byte := UInt8

/-- `sizeof(size_t)`, which is also `sizeof(seL4_Word)` and `sizeof(char *)`, and `sizeof(unsigned)`. -/
structure Env where
  wb : Nat
  ub : Nat

/-- The number of values of `size_t`. -/
def Env.W (e : Env) : Nat := 2 ^ (8 * e.wb)

/-- The number of values of `unsigned`. -/
def Env.U (e : Env) : Nat := 2 ^ (8 * e.ub)

/-- How a number is stored in `n` bytes, and what is stored in some bytes. -/
def enc : Nat → Nat → List Byte
  | 0, _ => []
  | n + 1, v => UInt8.ofNat (v % 256) :: enc n (v / 256)
def dec : List Byte → Nat
  | [] => 0
  | b :: bs => b.toNat + 256 * dec bs

/-- The kinds of parameter that marshal.c:139-149 tells apart: a value of `k` bytes, a string, an array
of values of `k` bytes, an array of strings. -/
inductive Ty
  | scalar (k : Nat)
  | string
  | array (k : Nat)
  | strings
  deriving DecidableEq

/-- The values: bytes; characters without the terminator; a number of elements and the memory they are
in; strings. -/
inductive Val
  | scalar (bytes : List Byte)
  | string (s : List Byte)
  | array (count : Nat) (bytes : List Byte)
  | strings (ss : List (List Byte))
  deriving DecidableEq

/-! ## Marshalling -/

/-- The buffer, and an upper bound of the offsets that have been written. -/
structure Out where
  mem : Nat → Byte
  top : Nat

/-- `memcpy(buffer + off, ...)`. -/
def memcpy (o : Out) (off : Nat) (bytes : List Byte) : Out :=
  ⟨fun a => if off ≤ a then (bytes[a - off]?).getD (o.mem a) else o.mem a, max o.top (off + bytes.length)⟩

/-- `size - curr_offset` in the type of `size`, which has `m` values. -/
def space (m size off : Nat) : Nat := (size + m - off) % m

/-- The check `desired > size - curr_offset`, marshal_macros.h:11-38. -/
def exceeds (m size off desired : Nat) : Prop := desired > space m size off

instance : Decidable (exceeds m size off desired) := inferInstanceAs (Decidable (_ > _))

/-- The result of marshalling: the buffer and the next offset, or the buffer when there was an error
(`return UINT_MAX`). -/
abbrev MRes := Except Out (Out × Nat)

/-- `MARSHAL_PARAM`, marshal_macros.h:109-115. -/
def marshalScalar (e : Env) (m size : Nat) (o : Out) (off : Nat) (bytes : List Byte) : MRes :=
  if exceeds m size off bytes.length then .error o
  else .ok (memcpy o off bytes, (off + bytes.length) % e.U)

/-- `MARSHAL_STRING_PARAM`, marshal_macros.h:98-107. -/
def marshalString (e : Env) (m size : Nat) (o : Out) (off : Nat) (s : List Byte) : MRes :=
  let n := min s.length (space m size off)
  if exceeds m size off ((n + 1) % e.W) then .error o
  else .ok (memcpy o off (s ++ [0]), (off + (n + 1)) % e.U)

/-- `MARSHAL_ARRAY_PARAM`, marshal_macros.h:67-78; elements of `k` bytes. -/
def marshalArray (e : Env) (m size : Nat) (o : Out) (off k count : Nat) (bytes : List Byte) : MRes :=
  if exceeds m size off e.wb then .error o
  else
    let o := memcpy o off (enc e.wb count)
    let off := (off + e.wb) % e.U
    let n := k * count % e.W
    if exceeds m size off n then .error o
    else .ok (memcpy o off (bytes.take n), (off + n) % e.U)

/-- The loop of `MARSHAL_STRING_ARRAY_PARAM`, marshal_macros.h:87-94. -/
def marshalEach (e : Env) (m size : Nat) : Out → Nat → List (List Byte) → MRes
  | o, off, [] => .ok (o, off)
  | o, off, s :: ss =>
    match marshalString e m size o off s with
    | .error o => .error o
    | .ok (o, off) => marshalEach e m size o off ss

/-- `MARSHAL_STRING_ARRAY_PARAM`, marshal_macros.h:80-96. -/
def marshalStrings (e : Env) (m size : Nat) (o : Out) (off : Nat) (ss : List (List Byte)) : MRes :=
  if exceeds m size off e.wb then .error o
  else marshalEach e m size (memcpy o off (enc e.wb ss.length)) ((off + e.wb) % e.U) ss

/-- One parameter, marshal.c:139-149 and 454-464. The types of a value and of its parameter agree
because the C compiler has checked them; other combinations are never used. -/
def marshalParam (e : Env) (m size : Nat) (o : Out) (off : Nat) : Ty → Val → MRes
  | .scalar _, .scalar bytes => marshalScalar e m size o off bytes
  | .string, .string s => marshalString e m size o off s
  | .array k, .array count bytes => marshalArray e m size o off k count bytes
  | .strings, .strings ss => marshalStrings e m size o off ss
  | _, _ => .error o

/-- All parameters, marshal.c:96-150 and 443-465. -/
def marshalParams (e : Env) (m size : Nat) : Out → Nat → List (Ty × Val) → MRes
  | o, off, [] => .ok (o, off)
  | o, off, (t, v) :: ps =>
    match marshalParam e m size o off t v with
    | .error o => .error o
    | .ok (o, off) => marshalParams e m size o off ps

/-- How many bytes the method index takes, marshal.c:90-94: none for a single method. -/
def indexBytes (methods : Nat) : Nat := if methods > 1 then (Macros.typeToFit methods).getD 0 / 8 else 0

/-- The function made by `make_marshal_input_symbols`, marshal.c:73-157, where `size` is a `size_t`. -/
def marshalInputs (e : Env) (methods index size : Nat) (o : Out) (ps : List (Ty × Val)) : MRes :=
  if methods > 1 then
    match marshalScalar e e.W size o 0 (enc (indexBytes methods) index) with
    | .error o => .error o
    | .ok (o, off) => marshalParams e e.W size o off ps
  else marshalParams e e.W size o 0 ps

/-- The function made by `make_marshal_output_symbols`, marshal.c:414-473, where `size` is an
`unsigned`; the return value comes first. -/
def marshalOutputs (e : Env) (size : Nat) (o : Out) (ret : Option (Ty × Val)) (ps : List (Ty × Val)) : MRes :=
  marshalParams e e.U size o 0 (ret.toList ++ ps)

/-! ## Unmarshalling -/

inductive Fail
  /-- `CE_MALFORMED_RPC_PAYLOAD` -/
  | malformed
  /-- `CE_ALLOCATION_FAILURE` -/
  | noMemory
  /-- `CE_INVALID_METHOD_INDEX` -/
  | invalidMethod
  /-- memory outside of the message is read, or outside of an allocation is written; for arrays of
  strings with the number of strings that the message claims to have -/
  | overrun (claimed : Nat)
  deriving DecidableEq

abbrev URes (α : Type) := Except Fail (α × Nat)

/-- `memcpy(..., buffer + off, n)`. -/
def copy (msg : List Byte) (off n : Nat) : Except Fail (List Byte) :=
  if off + n ≤ msg.length then .ok ((msg.drop off).take n) else .error (.overrun 0)

/-- `strnlen`: `none` if it reads past the end. -/
def strnlen : List Byte → Nat → Option Nat
  | _, 0 => some 0
  | [], _ + 1 => none
  | b :: bs, n + 1 => if b = 0 then some 0 else (strnlen bs n).map (· + 1)

/-- What `strdup` copies: `none` if it reads past the end. -/
def strdup : List Byte → Option (List Byte)
  | [] => none
  | b :: bs => if b = 0 then some [] else (strdup bs).map (b :: ·)

/-- `UNMARSHAL_PARAM`, marshal_macros.h:184-191. -/
def unmarshalScalar (e : Env) (msg : List Byte) (off k : Nat) : URes (List Byte) :=
  if exceeds e.U msg.length off k then .error .malformed
  else match copy msg off k with
    | .error f => .error f
    | .ok bytes => .ok (bytes, (off + k) % e.U)

/-- `UNMARSHAL_STRING_PARAM`, marshal_macros.h:172-182. `malloc` tells which allocations succeed. -/
def unmarshalString (e : Env) (malloc : Nat → Bool) (msg : List Byte) (off : Nat) : URes (List Byte) :=
  match strnlen (msg.drop off) (space e.U msg.length off) with
  | none => .error (.overrun 0)
  | some n =>
    if exceeds e.U msg.length off ((n + 1) % e.W) then .error .malformed
    else match strdup (msg.drop off) with
      | none => .error (.overrun 0)
      | some s => if malloc (s.length + 1) then .ok (s, (off + n + 1) % e.U) else .error .noMemory

/-- `UNMARSHAL_ARRAY_PARAM`, marshal_macros.h:117-135. -/
def unmarshalArray (e : Env) (malloc : Nat → Bool) (msg : List Byte) (off k : Nat) : URes (Nat × List Byte) :=
  if exceeds e.U msg.length off e.wb then .error .malformed
  else match copy msg off e.wb with
    | .error f => .error f
    | .ok c =>
      let off := (off + e.wb) % e.U
      let n := k * dec c % e.W
      if malloc n = false then .error .noMemory
      else if exceeds e.U msg.length off n then .error .malformed
      else match copy msg off n with
        | .error f => .error f
        | .ok bytes => .ok ((dec c, bytes), (off + n) % e.U)

/-- The loop of `UNMARSHAL_STRING_ARRAY_PARAM`, marshal_macros.h:147-168: `todo` strings still to be
read, the next one is stored at index `i` of a table that has room for `room` pointers. The pointer is
stored before it is checked that the string could be allocated. -/
def unmarshalEach (e : Env) (malloc : Nat → Bool) (msg : List Byte) (room count : Nat) :
    Nat → Nat → Nat → URes (List (List Byte))
  | 0, _, off => .ok ([], off)
  | todo + 1, i, off =>
    match unmarshalString e malloc msg off with
    | .error f => if f = .noMemory ∧ room ≤ i then .error (.overrun count) else .error f
    | .ok (s, off) =>
      if i < room then
        match unmarshalEach e malloc msg room count todo (i + 1) off with
        | .error f => .error f
        | .ok (ss, off) => .ok (s :: ss, off)
      else .error (.overrun count)

/-- `UNMARSHAL_STRING_ARRAY_PARAM`, marshal_macros.h:137-170. -/
def unmarshalStrings (e : Env) (malloc : Nat → Bool) (msg : List Byte) (off : Nat) : URes (List (List Byte)) :=
  if exceeds e.U msg.length off e.wb then .error .malformed
  else match copy msg off e.wb with
    | .error f => .error f
    | .ok c =>
      if malloc (e.wb * dec c % e.W) = false then .error .noMemory
      else unmarshalEach e malloc msg (e.wb * dec c % e.W / e.wb) (dec c) (dec c) 0 ((off + e.wb) % e.U)

/-- One parameter, marshal.c:242-252 and 349-359. -/
def unmarshalParam (e : Env) (malloc : Nat → Bool) (msg : List Byte) (off : Nat) : Ty → URes Val
  | .scalar k => match unmarshalScalar e msg off k with
    | .error f => .error f
    | .ok (b, off) => .ok (.scalar b, off)
  | .string => match unmarshalString e malloc msg off with
    | .error f => .error f
    | .ok (s, off) => .ok (.string s, off)
  | .array k => match unmarshalArray e malloc msg off k with
    | .error f => .error f
    | .ok ((c, b), off) => .ok (.array c b, off)
  | .strings => match unmarshalStrings e malloc msg off with
    | .error f => .error f
    | .ok (ss, off) => .ok (.strings ss, off)

/-- All parameters, marshal.c:221-253 and 344-360. -/
def unmarshalParams (e : Env) (malloc : Nat → Bool) (msg : List Byte) : Nat → List Ty → URes (List Val)
  | off, [] => .ok ([], off)
  | off, t :: ts =>
    match unmarshalParam e malloc msg off t with
    | .error f => .error f
    | .ok (v, off) =>
      match unmarshalParams e malloc msg off ts with
      | .error f => .error f
      | .ok (vs, off) => .ok (v :: vs, off)

/-- `ERR_IF_MALFORMED_RPC_EXCESS_PAYLOAD`, marshal_macros.h:40-53. -/
def excess (e : Env) (msg : List Byte) (off : Nat) : Prop := (off + e.wb - 1) / e.wb * e.wb ≠ msg.length

instance : Decidable (excess e msg off) := inferInstanceAs (Decidable (_ ≠ _))

/-- The parameters from an offset to the end of the message. -/
def unmarshalFrom (e : Env) (malloc : Nat → Bool) (trailing : Bool) (msg : List Byte) (off : Nat) (ts : List Ty) :
    Except Fail (List Val) :=
  match unmarshalParams e malloc msg off ts with
  | .error f => .error f
  | .ok (vs, off) => if trailing = false ∧ excess e msg off then .error .malformed else .ok vs

/-- The function made by `make_unmarshal_output_symbols`, marshal.c:190-283; the return value comes first. -/
def unmarshalOutputs (e : Env) (malloc : Nat → Bool) (trailing : Bool) (msg : List Byte) (ret : Option Ty) (ts : List Ty) :
    Except Fail (List Val) :=
  unmarshalFrom e malloc trailing msg 0 (ret.toList ++ ts)

/-- The receiving side: find the method, rpc-connector-common-to.c:98-112 and 215-230, and unmarshal its
inputs, marshal.c:323-386. `methods` are the input parameters of all methods of the interface. -/
def receive (e : Env) (malloc : Nat → Bool) (trailing : Bool) (methods : List (List Ty)) (msg : List Byte) :
    Except Fail (Nat × List Val) :=
  if methods.length > 1 then
    match unmarshalScalar e msg 0 (indexBytes methods.length) with
    | .error f => .error f
    | .ok (b, _) =>
      match methods[dec b]? with
      | none => .error .invalidMethod
      | some ts => match unmarshalFrom e malloc trailing msg (indexBytes methods.length) ts with
        | .error f => .error f
        | .ok vs => .ok (dec b, vs)
  else match methods[0]? with
    | none => .error .invalidMethod
    | some ts => match unmarshalFrom e malloc trailing msg 0 ts with
      | .error f => .error f
      | .ok vs => .ok (0, vs)

end Verif.Marshal
