import Mathlib.Data.List.Basic
import Mathlib.Tactic.Tauto
import Mathlib.Tactic.ByContra

/-!
# Model: memory in the debugger (C75)

The commands `m`, `M` and `X` of the GDB server (libsel4camkes/src/sel4_arch/ia32/gdb_server/gdb.c:229-352) and what the
debugged component does for them (camkes/templates/component.debug.c:20-54, 133-158, seL4GDBMem-to.template.c:25-51).

Characters and bytes are numbers below 256, `seL4_Word` and `long` have 32 bits (ia32). Outside: the packets (C74), the
connection between server and component (it carries the arguments unchanged, C10), the kernel.
-/

namespace Verif.GdbMem

/-- How a command ends. -/
inductive Out
  /-- this message is sent -/
  | reply (message : List Nat)
  /-- `strtol` or `sscanf` gets NULL -/
  | null
  /-- memory after an array is read -/
  | outside
  /-- memory after an array is written -/
  | overflow
  /-- the thread of the component waits forever for its fault to be handled -/
  | hang
  deriving DecidableEq

/-- `OK` -/
def okMessage : List Nat := [79, 75]
/-- `E01` -/
def errorMessage : List Nat := [69, 48, 49]

/-! ## The C library -/

/-- The value of a digit in base 10 or 16. -/
def digit (base c : Nat) : Option Nat :=
  if 48 ≤ c ∧ c ≤ 57 then some (c - 48)
  else if base = 16 ∧ 97 ≤ c ∧ c ≤ 102 then some (c - 87)
  else if base = 16 ∧ 65 ≤ c ∧ c ≤ 70 then some (c - 55)
  else none

/-- The digits at the beginning of a string. -/
def digits (base acc : Nat) : List Nat → Nat
  | [] => acc
  | c :: cs => match digit base c with
    | some d => digits base (base * acc + d) cs
    | none => acc

/-- `0x` before digits in base 16. -/
def afterPrefix (base : Nat) : List Nat → List Nat
  | 48 :: 120 :: d :: cs => if base = 16 ∧ (digit 16 d).isSome then d :: cs else 48 :: 120 :: d :: cs
  | 48 :: 88 :: d :: cs => if base = 16 ∧ (digit 16 d).isSome then d :: cs else 48 :: 88 :: d :: cs
  | cs => cs

/-- `(seL4_Word) strtol(s, NULL, base)`: the result is at most `LONG_MAX`, at least `LONG_MIN`. 45 is `-`, 43 is `+`. White
space before the number is skipped. -/
def strtol (base : Nat) : List Nat → Nat
  | [] => 0
  | c :: cs =>
    if c = 32 ∨ (9 ≤ c ∧ c ≤ 13) then strtol base cs
    else if c = 45 then (2 ^ 32 - min (digits base 0 (afterPrefix base cs)) (2 ^ 31)) % 2 ^ 32
    else min (digits base 0 (afterPrefix base (if c = 43 then cs else c :: cs))) (2 ^ 31 - 1)

/-- `strtok_r`: the token, and the memory from the character after it. The string is in `m`, which goes on after it. -/
def strtok (delims m : List Nat) : Option (List Nat × List Nat) :=
  let m := m.dropWhile (delims.contains ·)
  let token := m.takeWhile (fun c => !delims.contains c && c != 0)
  if token = [] then none else some (token, m.drop token.length)

/-- Where `strtok_r` goes on: after the delimiter, which it overwrites, but not after the end of the string. -/
def next (tail : List Nat) : List Nat :=
  match tail with
  | [] => []
  | c :: cs => if c = 0 then c :: cs else cs

/-- The memory at a token: the delimiter is now 0. -/
def atToken (token tail : List Nat) : List Nat := token ++ 0 :: tail.drop 1

/-- `sscanf(s, "%2hhx", p)` where `*p` is 0: the new value. `none`: `s` is not in the array. Simplification: white space,
signs and `0x` are taken as the end of the number. -/
def scan2 (m : List Nat) : Option Nat :=
  match m with
  | [] => none
  | c :: cs => match digit 16 c with
    | none => some 0
    | some d => match cs with
      | [] => none
      | e :: _ => match digit 16 e with
        | none => some d
        | some f => some (16 * d + f)

/-! ## The component -/

/-- `MAX_MEM_RANGE`, libsel4camkes/include/camkes/gdb/delegate_types.h:11. -/
def maxRange : Nat := 100

/-- The memory of the component. Simplification: addresses do not wrap around. -/
structure Memory where
  byte : Nat → Nat
  readable : Nat → Bool
  writable : Nat → Bool

/-- What the component does: an answer, an error, or no answer. -/
inductive Res (α : Type)
  | done (a : α)
  | error
  | hang

/-- The four bytes of a word. -/
def word (p : Nat → Bool) (addr : Nat) : Bool := (List.range 4).all fun i => p (addr + i)

/-- `check_read_memory`, component.debug.c:20-36, with the handler of the fault (seL4GDBMem-to.template.c:25-51), which
returns to after the instruction with 1 in `eax` if `eax` is 0: a word at the address is read. -/
def checkRead (m : Memory) (addr : Nat) : Bool := word m.readable addr

/-- `check_write_memory`, component.debug.c:38-54: the word is read and written back. If the first instruction faults,
`eax` is 1 when the second one does, and the handler does not answer (seL4GDBMem-to.template.c:36). -/
def checkWrite (m : Memory) (addr : Nat) : Res Unit :=
  if word m.readable addr then (if word m.writable addr then .done () else .error)
  else if word m.writable addr then .error else .hang

/-- `delegate_read_memory`, component.debug.c:133-144. A fault in `memcpy` is not one that the handler of faults answers,
unless `eax` happens to be 0 (seL4GDBMem-to.template.c:36); it is taken not to be. -/
def delegateRead (m : Memory) (addr length : Nat) : Res (List Nat) :=
  if length = 0 ∨ length > maxRange then .error
  else if !checkRead m addr then .error
  else if (List.range length).all (fun i => m.readable (addr + i)) then
    .done ((List.range length).map fun i => m.byte (addr + i))
  else .hang

/-- The memory after `memcpy`. -/
def store (m : Memory) (addr length : Nat) (data : List Nat) : Memory :=
  { m with byte := fun x => if addr ≤ x ∧ x < addr + length then data.getD (x - addr) 0 else m.byte x }

/-- `delegate_write_memory`, component.debug.c:146-158. -/
def delegateWrite (m : Memory) (addr length : Nat) (data : List Nat) : Res Memory :=
  if length = 0 ∨ length > maxRange then .error
  else match checkWrite m addr with
    | .error => .error
    | .hang => .hang
    | .done () =>
      if (List.range length).all (fun i => m.writable (addr + i)) then .done (store m addr length data) else .hang

/-! ## The commands -/

/-- The array `command` in `handle_gdb`, gdb.c:183: the string, and zeros after it. -/
def array (command : List Nat) : List Nat := command ++ List.replicate (513 - command.length) 0

/-- `%02x`. -/
def hex2 (b : Nat) : List Nat :=
  let lower := fun d => if d < 10 then 48 + d else 87 + d
  [lower (b % 256 / 16), lower (b % 16)]

/-- `GDB_read_memory`, gdb.c:229-272. 109 is `m`, 44 is `,`. -/
def readMemory (m : Memory) (command : List Nat) : Out :=
  match strtok [109, 44] (array command) with
  | none => .null
  | some (addrString, t1) =>
    match strtok [44] (next t1) with
    | none => .null
    | some (lengthString, _) =>
      let addr := strtol 16 addrString
      let length := strtol 10 lengthString
      if length ≥ maxRange then .reply errorMessage
      else if addr = 0 then .reply errorMessage
      else match delegateRead m addr length with
        | .error => .reply errorMessage
        | .hang => .hang
        | .done data => .reply (data.flatMap hex2)

/-- The loop in gdb.c:303-306, from the rest of the array. -/
def parseBytes : Nat → List Nat → Option (List Nat)
  | 0, _ => some []
  | n + 1, m => match scan2 m with
    | none => none
    | some b => (parseBytes n (m.drop 2)).map (b :: ·)

/-- The answer to a write, gdb.c:309-314 and 346-351. -/
def answer (m : Memory) : Res Memory → Memory × Out
  | .error => (m, .reply errorMessage)
  | .hang => (m, .hang)
  | .done m' => (m', .reply okMessage)

/-- The bytes to write with `M`, gdb.c:283 and 300-306. -/
def payload (length : Nat) (tail : List Nat) : Except Out (List Nat) :=
  match strtok [58] (next tail) with
  | none => if length = 0 then .ok [] else .error .null
  | some (dataString, t) => match parseBytes length (atToken dataString t) with
    | none => .error .outside
    | some data => .ok data

/-- `GDB_write_memory`, gdb.c:274-315. 77 is `M`, 58 is `:`. -/
def writeMemory (m : Memory) (command : List Nat) : Memory × Out :=
  match strtok [77, 44] (array command) with
  | none => (m, .null)
  | some (addrString, t1) =>
    match strtok [44, 58] (next t1) with
    | none => (m, .null)
    | some (lengthString, t2) =>
      let addr := strtol 16 addrString
      let length := strtol 10 lengthString
      if length ≥ maxRange then (m, .reply errorMessage)
      else if addr = 0 then (m, .reply errorMessage)
      else match payload length t2 with
        | .error o => (m, o)
        | .ok data => answer m (delegateWrite m addr length data)

/-- `GDB_write_memory_binary`, gdb.c:317-352. 88 is `X`. -/
def writeBinary (m : Memory) (command : List Nat) : Memory × Out :=
  match strtok [88, 44] (array command) with
  | none => (m, .null)
  | some (addrString, t1) =>
    match strtok [44, 58] (next t1) with
    | none => (m, .null)
    | some (lengthString, t2) =>
      let addr := strtol 16 addrString
      let length := strtol 10 lengthString
      if length = 0 then (m, .reply okMessage)
      else match strtok [58] (next t2) with
        | none => (m, .reply errorMessage)
        | some (token, t3) =>
          if length > maxRange then (m, .overflow)
          else if (atToken token t3).length < length then (m, .outside)
          else answer m (delegateWrite m addr length ((atToken token t3).take length))

/-- `handle_command` for these commands, gdb.c:684-691, 739-742. -/
def command (m : Memory) (c : List Nat) : Memory × Out :=
  match c with
  | 109 :: _ => (m, readMemory m c)
  | 77 :: _ => writeMemory m c
  | 88 :: _ => writeBinary m c
  | _ => (m, .reply [])

end Verif.GdbMem
