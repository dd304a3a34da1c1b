import Verif.GdbPort.Model

/-! # What the port should do -/

namespace Verif.GdbPort

/-- 115200 baud, 8 data bits, no parity, one stop bit, all outputs on, interrupts for received data only. -/
structure Configured (u : Uart) : Prop where
  eightNOne : u.lcr = 3
  divisor : u.dlm * 256 + u.dll = 1
  outputs : u.mcr = 15
  interrupts : u.ier = 1

/-- The text as it goes over the line: a carriage return before each end of a line. -/
def onLine : List Nat → List Nat
  | [] => []
  | c :: cs => if c = 10 then 13 :: 10 :: onLine cs else c :: onLine cs

/-- The program knows of everything that the transmitter still holds, and does not believe it larger
than it is. -/
structure Ready (s : S) : Prop where
  config : s.u.dlab = false
  known : s.u.tx.length ≤ s.used
  used : s.used ≤ s.depth
  deep : 0 < s.depth
  room : s.depth ≤ s.u.room

/-- The port sends a byte before each of the next `n` accesses. -/
def Sends (n : Nat) (sched : List (List Ev)) : Prop := ∀ i < n, ∃ evs, sched[i]? = some evs ∧ .sent ∈ evs

/-- Wanted: the queue of a port that has one is used. -/
def UsesFifo (t : S) : Prop := t.u.hasFifo = true → t.u.fifo = true ∧ t.depth = 16

/-- Wanted: what was received before the port was set up has no influence on which characters make a
command afterwards. -/
def Forgets (s t : S) : Prop := ∀ cs, (Verif.GdbPacket.run t.buf cs).2 = (Verif.GdbPacket.run s.buf cs).2

/-- The characters have been given to the packet code, one after the other, and the last one completed a packet exactly if
`done`; none before it did. -/
structure Fed (before : Verif.GdbPacket.State) (cs : List Nat) (after : Verif.GdbPacket.State) (done : Bool) : Prop where
  state : after = cs.foldl (fun st c => (Verif.GdbPacket.handleChar st c).1) before
  some : done = true → cs ≠ []
  flag : ∀ a c r, cs = a ++ c :: r →
    (Verif.GdbPacket.handleChar (a.foldl (fun st c => (Verif.GdbPacket.handleChar st c).1) before) c).2 =
      (decide (r = []) && done)

end Verif.GdbPort
