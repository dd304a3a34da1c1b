import Mathlib.Data.List.Basic
import Mathlib.Tactic.Tauto
import Mathlib.Tactic.ByContra

/-!
# Model: packets of the debugger (C74)

The serial line of the GDB server: characters are collected (libsel4camkes/src/sel4_arch/ia32/gdb_server/serial.c:101-131,
300-376), a complete packet is checked and acknowledged (gdb_server/gdb.c:94-102, 178-207), answers are sent
(gdb.c:210-226, serial.c:340-391).

Characters are numbers below 256 (`char` is signed on x86; every use is an equality or a conversion to `unsigned char`).
Outside: what the commands do (C75-C77), the UART below `serial_putchar` (its registers; of the output, the counter of the FIFO is modelled), the locks (one thread only).
-/

namespace Verif.GdbPacket

/-- `GETCHAR_BUFSIZ`, include/camkes/gdb/gdb.h:57. -/
def bufSize : Nat := 512

/-- `gdb_buffer_t` (gdb.h:59-64) and `command_wait` (serial.c:101). -/
structure State where
  /-- `data`, always `bufSize` characters -/
  data : List Nat
  length : Nat
  count : Nat
  index : Nat
  wait : Bool
  deriving DecidableEq

/-- Static memory is zero at first; `initialise_buffer`, serial.c:106-111. -/
def initial : State := ⟨List.replicate bufSize 0, 0, 0, 0, false⟩

/-- `push_buffer`, serial.c:113-122. Its result is not looked at. -/
def push (s : State) (c : Nat) : State :=
  if s.length = bufSize then s else { s with data := s.data.set s.length c, length := s.length + 1 }

/-- `clear_buffer`, serial.c:124-131. -/
def clear (s : State) : State :=
  { s with data := List.replicate s.length 0 ++ s.data.drop s.length, length := 0, count := 0, index := 0 }

/-- `handle_char`, serial.c:300-318: the state, and whether there is a command. 36 is `$`, 35 is `#`. -/
def handleChar (s : State) (c : Nat) : State × Bool :=
  let s :=
    if c = 36 then clear { s with wait := true }
    else if s.index ≠ 0 then { s with count := s.count + 1 }
    else if c = 35 then { s with index := s.length }
    else s
  let s := push s c
  (s, s.count = 2 ∧ s.wait)

/-- `compute_checksum`, gdb.c:94-102. -/
def checksum (data : List Nat) : Nat := data.foldl (fun sum c => (sum + c) % 256) 0

/-- The value of a hexadecimal digit. -/
def hexDigit (c : Nat) : Option Nat :=
  if 48 ≤ c ∧ c ≤ 57 then some (c - 48)
  else if 97 ≤ c ∧ c ≤ 102 then some (c - 87)
  else if 65 ≤ c ∧ c ≤ 70 then some (c - 55)
  else none

/-- The digits in `strtol` with base 16. `none`: the memory ends before they do. Simplification: the value does not
saturate (there are at most two digits before a zero, if the memory does not end). -/
def digits (acc : Nat) : List Nat → Option Nat
  | [] => none
  | c :: cs => match hexDigit c with
    | some d => digits (16 * acc + d) cs
    | none => some acc

/-- `0x` before the digits, if a digit follows. 48 is `0`, 120 and 88 are `x` and `X`. -/
def afterPrefix : List Nat → Option (List Nat)
  | [] => none
  | c :: cs =>
    if c = 48 then
      match cs with
      | [] => none
      | x :: ds =>
        if x = 120 ∨ x = 88 then
          match ds with
          | [] => none
          | d :: _ => some (if (hexDigit d).isSome then ds else c :: cs)
        else some (c :: cs)
    else some (c :: cs)

/-- A sign, then the rest. 45 is `-`, 43 is `+`. The result is that of the conversion to `unsigned char`. -/
def signed : List Nat → Option Nat
  | [] => none
  | c :: cs =>
    if c = 45 then (afterPrefix cs).bind fun ds => (digits 0 ds).map fun v => (256 - v % 256) % 256
    else (afterPrefix (if c = 43 then cs else c :: cs)).bind fun ds => (digits 0 ds).map fun v => v % 256

/-- White space, for `isspace`. -/
def isSpace (c : Nat) : Bool := c = 32 || (9 ≤ c && c ≤ 13)

/-- `(unsigned char) strtol(checksum, NULL, HEX_STRING)`, gdb.c:190-192. -/
def strtolByte : List Nat → Option Nat
  | [] => none
  | c :: cs => if isSpace c then strtolByte cs else signed (c :: cs)

/-- What is seen from outside. -/
inductive Event
  /-- `+` is sent -/
  | ack
  /-- `-` is sent -/
  | nack
  /-- `handle_command` is called with this string -/
  | exec (command : List Nat)
  /-- memory after the buffer is read -/
  | outside
  deriving DecidableEq

/-- The characters of a C string. -/
def cString (l : List Nat) : List Nat := l.takeWhile (· ≠ 0)

/-- `handle_gdb`, gdb.c:178-207. The array `command` is zero at first and `strncpy` copies a string, so that only zeros
follow the string up to `command_length`. -/
def handleGdb (s : State) : List Event :=
  let n := s.index - 1
  let command := cString ((s.data.drop 1).take n)
  let sum := checksum (command ++ List.replicate (n - command.length) 0)
  match strtolByte (s.data.drop (s.index + 1)) with
  | none => [.outside]
  | some received => if sum ≠ received then [.nack] else [.ack, .exec command]

/-- A character arrives: `clear_iir` calls `handle_char` and stops at a command, serial.c:320-338, and `serial_irq_handle`
handles the command, serial.c:362-376. -/
def step (s : State) (c : Nat) : State × List Event :=
  let r := handleChar s c
  if r.2 then ({ clear r.1 with wait := false }, handleGdb r.1) else (r.1, [])

/-- All characters that arrive, with the events in order. -/
def run (s : State) : List Nat → State × List Event
  | [] => (s, [])
  | c :: cs => let r := step s c; let t := run r.1 cs; (t.1, r.2 ++ t.2)

/-! ## Answers -/

/-- A digit in `%02X`. -/
def upper (d : Nat) : Nat := if d < 10 then 48 + d else 55 + d

/-- `serial_putchar`, serial.c:352-359: what goes to the line. -/
def putchar (c : Nat) : List Nat := if c = 10 then [13, 10] else [c]

/-- `MAX_PRINTF_LENGTH`, serial.c:18. -/
def maxPrintf : Nat := 256

/-- `gdb_printf` with the formatted text, serial.c:378-391: `vsnprintf` cuts it, `strlen` ends it at a zero. -/
def printf (text : List Nat) : List Nat := ((cString text).take (maxPrintf - 1)).flatMap putchar

/-- `send_message`, gdb.c:210-226; `len` as in the code, where 0 stands for the length of the string. The buffer that
`message` points to has `len` characters at least; what follows the string is `rest`. `GDB_RESPONSE_END` is empty. -/
def sendMessage (message rest : List Nat) (len : Nat) : List Nat :=
  let actual := (cString message).length
  let len := if len = 0 then actual + 1 else len
  let sum := checksum ((message ++ 0 :: rest).take len)
  printf (36 :: cString message ++ [35, upper (sum / 16), upper (sum % 16), 10]) ++ printf []

/-! ## The line -/

/-- The sender: the counter of the code (`fifo_used`, serial.c:103), the characters in the hardware, the characters that
left it, and whether one was written to a full hardware. -/
structure Line where
  used : Nat
  fifo : List Nat
  left : List Nat
  lost : Bool

/-- `reset_state`, serial.c:260-264, after the hardware was emptied (`disable_fifo`, serial.c:244-250). -/
def Line.start : Line := ⟨0, [], [], false⟩

/-- The steps of the sender, which writes `c` with `serial_output_via_fifo` (serial.c:340-349), and of the hardware, which
has room for `room` characters. `depth` is `fifo_depth`. -/
inductive Line.Step (depth room : Nat) : Line → Option Nat → Line → Prop
  /-- the hardware sends a character -/
  | send (l : Line) (c : Nat) (cs : List Nat) : l.fifo = c :: cs →
      Line.Step depth room l none { l with fifo := cs, left := l.left ++ [c] }
  /-- the loop in `wait_for_fifo` (serial.c:294-298) ends: the hardware is empty -/
  | waited (l : Line) : l.used = depth → l.fifo = [] → Line.Step depth room l none { l with used := 0 }
  /-- `write_thr` -/
  | write (l : Line) (c : Nat) : l.used ≠ depth → Line.Step depth room l (some c)
      { l with used := l.used + 1, fifo := if l.fifo.length < room then l.fifo ++ [c] else l.fifo,
               lost := l.lost || !decide (l.fifo.length < room) }

/-- Any number of steps, with the characters that were written. -/
inductive Line.Run (depth room : Nat) : List Nat → Line → Prop
  | start : Line.Run depth room [] Line.start
  | silent {cs l m} : Line.Run depth room cs l → Line.Step depth room l none m → Line.Run depth room cs m
  | write {cs l m c} : Line.Run depth room cs l → Line.Step depth room l (some c) m → Line.Run depth room (cs ++ [c]) m

end Verif.GdbPacket
