import Verif.GdbPacket.Model

/-! # The serial port of the debugger

libsel4camkes/src/sel4_arch/ia32/gdb_server/serial.c:17-57, 100-104, 133-356: what is below the characters
that `GdbPacket` models. The port is a 16550 UART. -/

namespace Verif.GdbPort

/-- The port. `tx` is what has been written and not yet sent, `wire` what has been sent, `lost` what was
written while there was no room, `rx` what has been received and not been read. -/
structure Uart where
  lcr : Nat
  dll : Nat
  dlm : Nat
  ier : Nat
  mcr : Nat
  hasFifo : Bool
  fifo : Bool
  rx : List Nat
  tx : List Nat
  wire : List Nat
  lost : List Nat
  line : Bool
  modem : Bool
  thr : Bool
  deriving DecidableEq, Repr

/-- The bytes that fit into the transmitter and into the receiver. -/
def Uart.room (u : Uart) : Nat := if u.fifo then 16 else 1

/-- Bit 7 of the line control register: the first two addresses are those of the divisor. -/
def Uart.dlab (u : Uart) : Bool := u.lcr / 128 % 2 = 1

/-- What the port does by itself. -/
inductive Ev
  | sent
  | received (c : Nat)
  | line
  | modem
  deriving DecidableEq, Repr

def Uart.step (u : Uart) : Ev → Uart
  | .sent => match u.tx with
    | [] => u
    | c :: r => { u with tx := r, wire := u.wire ++ [c], thr := decide (r = []) }
  | .received c => if u.rx.length < u.room then { u with rx := u.rx ++ [c] } else { u with line := true }
  | .line => { u with line := true }
  | .modem => { u with modem := true }

/-- The interrupt that is pending, in the order of priority, as bits 0 to 3 of the register. -/
def Uart.reason (u : Uart) : Nat :=
  if u.ier / 4 % 2 = 1 ∧ u.line = true then 6
  else if u.ier % 2 = 1 ∧ u.rx ≠ [] then 4
  else if u.ier / 2 % 2 = 1 ∧ u.thr = true then 2
  else if u.ier / 8 % 2 = 1 ∧ u.modem = true then 0
  else 1

/-- Reading a register, by its offset. -/
def Uart.read (u : Uart) (off : Nat) : Nat × Uart :=
  match off with
  | 0 => if u.dlab then (u.dll, u) else (u.rx.headD 0, { u with rx := u.rx.tail })
  | 1 => if u.dlab then (u.dlm, u) else (u.ier, u)
  | 2 => ((if u.fifo then 192 else 0) + u.reason, if u.reason = 2 then { u with thr := false } else u)
  | 3 => (u.lcr, u)
  | 5 => ((if u.rx ≠ [] then 1 else 0) + (if u.tx = [] then 96 else 0), { u with line := false })
  | 6 => (0, { u with modem := false })
  | _ => (0, u)

/-- Writing a register. The control register of the FIFO counts only as far as bit 0 says that it is on;
switching it on or off empties both. -/
def Uart.write (u : Uart) (off v : Nat) : Uart :=
  match off with
  | 0 =>
    if u.dlab then { u with dll := v }
    else if u.tx.length < u.room then { u with tx := u.tx ++ [v], thr := false }
    else { u with lost := u.lost ++ [v] }
  | 1 => if u.dlab then { u with dlm := v } else { u with ier := v }
  | 2 =>
    let on := u.hasFifo && v % 2 = 1
    if on ≠ u.fifo then { u with fifo := on, rx := [], tx := [] }
    else if on then { u with rx := if v / 2 % 2 = 1 then [] else u.rx, tx := if v / 4 % 2 = 1 then [] else u.tx }
    else u
  | 3 => { u with lcr := v }
  | 4 => { u with mcr := v }
  | _ => u

/-- The port, what it is going to do before each access, and the variables of the program,
libsel4camkes/src/sel4_arch/ia32/gdb_server/serial.c:101-103. -/
structure S where
  u : Uart
  sched : List (List Ev)
  depth : Nat
  used : Nat
  buf : Verif.GdbPacket.State

/-- What the port does before an access. -/
def tick (s : S) : S :=
  match s.sched with
  | [] => s
  | evs :: r => { s with u := evs.foldl Uart.step s.u, sched := r }

/-- `serial_port_out8_offset` and `serial_port_in8_offset`. -/
def out8 (off v : Nat) (s : S) : S := let s := tick s; { s with u := s.u.write off v }
def in8 (off : Nat) (s : S) : Nat × S := let s := tick s; ((s.u.read off).1, { s with u := (s.u.read off).2 })

/-- `set_dlab`, libsel4camkes/src/sel4_arch/ia32/gdb_server/serial.c:230-237; bit 7 is set or cleared. -/
def setDlab (v : Bool) (s : S) : S :=
  let r := in8 3 s
  if v then out8 3 (if r.1 / 128 % 2 = 1 then r.1 else r.1 + 128) r.2
  else out8 3 (if r.1 / 128 % 2 = 1 then r.1 - 128 else r.1) r.2

/-- `write_latch`, serial.c:134-150. -/
def writeLatch (v : Nat) (s : S) : S := setDlab false (out8 0 (v % 256) (out8 1 (v / 256) (setDlab true s)))

/-- `disable_interrupt` and `enable_interrupt`, serial.c:239-242 and 278-281. -/
def setInterrupt (v : Nat) (s : S) : S := out8 1 v s

/-- `disable_fifo`, serial.c:244-250. -/
def disableFifo (s : S) : S := out8 2 0 (out8 2 6 s)

/-- `set_baud_rate`, serial.c:252-258, with the baud rate of line 17; its assertions are true. -/
def setBaudRate (s : S) : S := writeLatch (115200 / 115200) s

/-- `reset_state`, serial.c:260-264. -/
def resetState (s : S) : S := { s with used := 0 }

/-- `enable_fifo`, serial.c:266-276. -/
def enableFifo (s : S) : S :=
  let r := in8 2 s
  if r.1 / 64 % 4 = 3 then out8 2 1 { r.2 with depth := 16 } else { r.2 with depth := 1 }

/-- The inner loop of `clear_iir`, serial.c:327-332. -/
def drain : Nat → S → Option (Bool × S)
  | 0, _ => none
  | fuel + 1, s =>
    let r := in8 5 s
    if r.1 % 2 = 1 then
      let q := in8 0 r.2
      let h := Verif.GdbPacket.handleChar q.2.buf q.1
      let s := { q.2 with buf := h.1 }
      if h.2 then some (true, s) else drain fuel s
    else some (false, r.2)

/-- `clear_iir`, serial.c:320-338. -/
def clearIir : Nat → S → Option (Bool × S)
  | 0, _ => none
  | fuel + 1, s =>
    let r := in8 2 s
    if r.1 % 2 = 1 then some (false, r.2)
    else if r.1 / 2 % 8 * 2 = 4 ∨ r.1 / 2 % 8 * 2 = 12 then
      match drain fuel r.2 with
      | none => none
      | some (true, s) => some (true, s)
      | some (false, s) => clearIir fuel s
    else clearIir fuel r.2

/-- `initialise_buffer`, serial.c:106-111. -/
def initialiseBuffer (s : S) : S := { s with buf := { s.buf with length := 0, count := 0, index := 0 } }

/-- `serial_init`, serial.c:208-228; 3 is 8-n-1 (lines 283-287) and 15 the four outputs (289-292). -/
def init (fuel : Nat) (s : S) : Option S :=
  let s := setDlab false s
  let s := setInterrupt 0 s
  let s := disableFifo s
  let s := out8 3 3 s
  let s := out8 4 15 s
  match clearIir fuel s with
  | none => none
  | some (_, s) =>
    let s := setBaudRate s
    let s := resetState s
    let s := enableFifo s
    let s := setInterrupt 1 s
    match clearIir fuel s with
    | none => none
    | some (_, s) => some (initialiseBuffer s)

/-- `wait_for_fifo`, serial.c:294-298: waits for bit 5 or 6. -/
def waitForFifo : Nat → S → Option S
  | 0, _ => none
  | fuel + 1, s =>
    let r := in8 5 s
    if r.1 / 32 % 4 ≠ 0 then some { r.2 with used := 0 } else waitForFifo fuel r.2

/-- `serial_output_via_fifo`, serial.c:340-349. -/
def outputByte (fuel c : Nat) (s : S) : Option S :=
  let r := if s.used = s.depth then waitForFifo fuel s else some s
  match r with
  | none => none
  | some s =>
    let s := out8 0 c s
    some { s with used := s.used + 1 }

/-- `serial_putchar`, serial.c:352-359; 10 is the end of a line and 13 is `\r`. -/
def putchar (fuel c : Nat) (s : S) : Option S :=
  if c = 10 then
    match outputByte fuel 13 s with
    | none => none
    | some s => outputByte fuel (c % 256) s
  else outputByte fuel (c % 256) s

/-- The characters of a text, as in the loop of `gdb_printf`, serial.c:388-390. -/
def puts (fuel : Nat) : List Nat → S → Option S
  | [], s => some s
  | c :: cs, s => match putchar fuel c s with
    | none => none
    | some s => puts fuel cs s

end Verif.GdbPort
