import Mathlib.Data.List.Basic
import Mathlib.Tactic.Tauto
import Mathlib.Tactic.ByContra

/-!
# Model: I/O ports of a device (C70)

The functions that a component has for a device with I/O ports (camkes/templates/seL4HardwareIOPort.template.c) and the ones of
the library below them (libsel4camkes/src/arch/x86/io.c).

Outside: the kernel with the hardware, a function from a system call to an error or a result; and the handler that is
registered for errors of the interface (`action`, what it returns, libsel4camkes/include/camkes/error.h:229-250). The result of a
failed system call is `junk`.
-/

namespace Verif.IoPort

/-- `struct ioport_region`, libsel4camkes/include/camkes/io.h:48-54: the first and the last port, and the capability. -/
structure Region where
  first : Nat
  last : Nat
  cap : Nat
  deriving DecidableEq

/-- A system call: the capability, the port, the number of bytes, and what is written (`none` when reading),
io.c:51, 65, 79, 94, 107 and 119. -/
structure Sys where
  cap : Nat
  port : Nat
  size : Nat
  value : Option Nat
  deriving DecidableEq

/-- What the error handler says. -/
inductive Action
  | discard
  | ignore
  | abort
  deriving DecidableEq

/-- How a call ends. -/
inductive Out
  /-- zero is returned, with what was read -/
  | ok (v : Nat)
  /-- -1 is returned -/
  | failed
  /-- the thread is stopped -/
  | aborted
  deriving DecidableEq

/-- What surrounds the code: the regions of the component (the section `_ioport_regions`), the kernel, the error
handlers, the result of a failed system call. -/
structure Env where
  regions : List Region
  kernel : Sys → Option Nat
  action : Action
  junk : Nat

/-- `find_io_port_region`, io.c:21-30. -/
def find (rs : List Region) (port : Nat) : Option Region := rs.find? fun r => decide (port ≥ r.first ∧ port ≤ r.last)

/-- The system call with `syscall_error_handler`, io.c:33-47, and `camkes_arch_io_port_in8` to `out32`, io.c:49-127. -/
def perform (e : Env) (s : Sys) : Out :=
  match e.kernel s with
  | some v => .ok v
  | none =>
    match e.action with
    | .discard => .failed
    | .ignore => .ok e.junk
    | .abort => .aborted

/-- `camkes_arch_io_port_in`, io.c:129-146. The port is 32 bits wide and is cut to 16 bits in line 131 and by the
parameters of the functions in 49, 63 and 77. -/
def portIn (e : Env) (port size : Nat) : Option Sys × Out :=
  match find e.regions (port % 2 ^ 16) with
  | none => (none, .failed)
  | some r =>
    if size = 1 ∨ size = 2 ∨ size = 4 then
      let s : Sys := ⟨r.cap, port % 2 ^ 16, size, none⟩
      (some s, perform e s)
    else (none, .failed)

/-- `camkes_arch_io_port_out`, io.c:148-165. -/
def portOut (e : Env) (port size value : Nat) : Option Sys × Out :=
  match find e.regions (port % 2 ^ 16) with
  | none => (none, .failed)
  | some r =>
    if size = 1 ∨ size = 2 ∨ size = 4 then
      let s : Sys := ⟨r.cap, port % 2 ^ 16, size, some (value % 2 ^ (8 * size))⟩
      (some s, perform e s)
    else (none, .failed)

/-- `_in8_offset`, `_in16_offset` and `_in32_offset`, seL4HardwareIOPort.template.c:63-109, for the region of the interface.
`asserts` tells whether the program is compiled with assertions: the call that fills `ops` is inside one (58). A call through
empty `ops` is not made and fails. -/
def inOffset (e : Env) (asserts : Bool) (r : Region) (size offset : Nat) : Option Sys × Option Nat :=
  if asserts then
    if r.first + offset ≥ r.first ∧ r.first + offset ≤ r.last then
      let o := portIn e (r.first + offset) size
      (o.1, match o.2 with | .ok v => some (v % 2 ^ (8 * size)) | .failed => some 0 | .aborted => none)
    else (none, none)
  else (none, some 0)

/-- `_out8_offset`, `_out16_offset` and `_out32_offset`, seL4HardwareIOPort.template.c:111-142: the system call and whether
the function returns. -/
def outOffset (e : Env) (asserts : Bool) (r : Region) (size offset value : Nat) : Option Sys × Bool :=
  if asserts then
    if r.first + offset ≥ r.first ∧ r.first + offset ≤ r.last then
      let o := portOut e (r.first + offset) size value
      (o.1, o.2 ≠ .aborted)
    else (none, false)
  else (none, true)

end Verif.IoPort
