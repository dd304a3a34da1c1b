import Verif.Posix.Model

/-!
# Specification: system information, the clock and the table of system calls
-/

namespace Verif.Posix

/-- The string in a field: the bytes before the first zero. -/
def text : List Byte → List Byte
  | [] => []
  | b :: bs => if b = 0 then [] else b :: text bs

/-- A field of the structure: of the right size and with a terminator. -/
def Field (f : List Byte) : Prop := f.length = 65 ∧ (0 : Byte) ∈ f

/-- The host name after a history (most recent call last): POSIX, the first `len` bytes. -/
def host (cs : List Call) : List Byte :=
  cs.foldl (fun old c => match c with
    | .setHost (some mem) len => if len ≤ 64 then mem.take len else old
    | _ => old) []

/-- The domain name after a history. -/
def domain (cs : List Call) : List Byte :=
  cs.foldl (fun old c => match c with
    | .setDomain (some mem) len => if len ≤ 64 then mem.take len else old
    | _ => old) []

/-- The caller passes a string and its length. -/
def Proper (name : Option (List Byte)) (len : Nat) : Prop :=
  ∀ mem, name = some mem → len ≤ 64 → ∃ s rest, mem = s ++ 0 :: rest ∧ s.length = len ∧ (0 : Byte) ∉ s

def Call.Proper : Call → Prop
  | .setHost name len => Posix.Proper name len
  | .setDomain name len => Posix.Proper name len

/-- What a call has to return. -/
def result : Call → Ret
  | .setHost name len | .setDomain name len => if name = none then .fault else if 64 < len then .invalid else .ok

/-- The `int` that a counter of milliseconds becomes. -/
def asInt (ms : Nat) : Int := if ms % 2 ^ 32 < 2 ^ 31 then ((ms % 2 ^ 32 : Nat) : Int) else ((ms % 2 ^ 32 : Nat) : Int) - 2 ^ 32

/-- The functions for which the library has an implementation of its own (camkes/syscalls.h). -/
def implemented : List String :=
  ["set_tid_address", "sched_yield", "exit", "gettid", "getpid", "getppid", "tgkill", "mlock", "munlock", "mlockall", "munlockall",
    "madvise", "mincore", "pause", "clock_gettime", "_newselect", "sigaction", "rt_sigaction", "uname", "sethostname",
    "setdomainname", "socket", "bind", "connect", "listen", "accept", "setsockopt", "tkill"]

end Verif.Posix
