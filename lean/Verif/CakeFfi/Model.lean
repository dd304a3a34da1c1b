import Verif.Marshal.Model

/-!
# Model: files, arguments and the start of a component in CakeML
(libcamkescakeml/src/io.c, args.c, camkes_init.c, camkes/templates/component.environment.end.cakeml)

A function that is called from CakeML gets two arrays, `c`, which it reads, and `a`, which it reads and writes. The
machine stores numbers with the lowest byte first. Outside: what the system calls return. `none` means that the C code
reads or writes outside of an array.
-/

namespace Verif.CakeFfi

open Marshal (Byte enc dec)

abbrev Buf := List Byte

/-- `memcpy(a + off, ...)`. -/
def store (a : Buf) (off : Nat) (bytes : List Byte) : Option Buf :=
  if off + bytes.length ≤ a.length then some (a.take off ++ bytes ++ a.drop (off + bytes.length)) else none

/-- `memcpy(..., a + off, n)`. -/
def load (a : Buf) (off n : Nat) : Option (List Byte) :=
  if off + n ≤ a.length then some ((a.drop off).take n) else none

/-- `bswap_64` and `bswap_16` of a number, as it is stored. -/
def swapped (n v : Nat) : List Byte := (enc n v).reverse

/-- What `bswap_64` or `bswap_16` makes of stored bytes. -/
def unswapped (bytes : List Byte) : Nat := dec bytes.reverse

/-- Conversion of an `int` to `uint64_t`. -/
def toU64 (fd : Int) : Nat := (fd % 2 ^ 64).toNat

/-- Conversion of an `uint64_t` to `int`. -/
def toInt (v : Nat) : Int := if v % 2 ^ 32 < 2 ^ 31 then ((v % 2 ^ 32 : Nat) : Int) else ((v % 2 ^ 32 : Nat) : Int) - 2 ^ 32

/-- The system calls. -/
inductive Sys
  | read (fd : Int) (n : Nat)
  | write (fd : Int) (bytes : List Byte)
  | close (fd : Int)
  deriving DecidableEq, Repr

/-- `ffiopen_in`, io.c:15-24; `fd` is what `open` returns. -/
def openIn (a : Buf) (fd : Int) : Option Buf :=
  if fd < 0 then (store a 0 [0]).bind (fun a => store a 1 (swapped 8 (toU64 fd)))
  else store a 0 [1]

/-- `ffiopen_out`, io.c:26-35. -/
def openOut (a : Buf) (fd : Int) : Option Buf :=
  if 0 ≤ fd then (store a 0 [0]).bind (fun a => store a 1 (swapped 8 (toU64 fd)))
  else store a 0 [1]

/-- The result of a call that returns a count: `none` is -1. -/
def report (a : Buf) (count : Option Nat) : Option Buf :=
  match count with
  | none => store a 0 [1]
  | some n => (store a 0 [0]).bind (fun a => store a 1 (swapped 2 n))

/-- The beginning of `ffiread`, io.c:37-43: the system call. -/
def readCall (c a : Buf) : Option Sys :=
  (load c 0 8).bind (fun f => (load a 0 2).map (fun n => .read (toInt (unswapped f)) (unswapped n)))

/-- The rest of `ffiread`, io.c:43-51, when `read` has stored `data`, or has failed. -/
def readDone (a : Buf) : Option (List Byte) → Option Buf
  | none => report a none
  | some data => (store a 4 data).bind (fun a => report a (some data.length))

/-- The beginning of `ffiwrite`, io.c:53-63: the system call. -/
def writeCall (c a : Buf) : Option Sys :=
  (load c 0 8).bind (fun f => (load a 0 2).bind (fun n => (load a 2 2).bind (fun off =>
    (load a (4 + unswapped off) (unswapped n)).map (fun bytes => .write (toInt (unswapped f)) bytes))))

/-- The rest of `ffiwrite`, io.c:64-71. -/
def writeDone (a : Buf) (count : Option Nat) : Option Buf := report a count

/-- `fficlose`, io.c:74-78: the system call. -/
def closeCall (c : Buf) : Option Sys := (load c 0 8).map (fun f => .close (toInt (unswapped f)))

/-- The rest of `fficlose`; `ok` if `close` returns zero. -/
def closeDone (a : Buf) (ok : Bool) : Option Buf := store a 0 [if ok then 0 else 1]

/-! ## Arguments -/

/-- `ffiget_arg_count`, args.c:14-17. -/
def argCount (argv : List (List Byte)) (a : Buf) : Option Buf := store a 0 (swapped 2 argv.length)

/-- `ffiget_arg_length`, args.c:19-25; the strings are without their terminators. -/
def argLength (argv : List (List Byte)) (a : Buf) : Option Buf :=
  (load a 0 2).bind (fun i => (argv[unswapped i]?).bind (fun s => store a 0 (swapped 2 s.length)))

/-- `ffiget_arg`, args.c:27-32. -/
def arg (argv : List (List Byte)) (a : Buf) : Option Buf :=
  (load a 0 2).bind (fun i => (argv[unswapped i]?).bind (fun s => store a 0 (s ++ [0])))

/-! ## Start -/

/-- What happens at the start. -/
inductive Step
  | preInit
  /-- `pre_init_interface_sync` -/
  | preSync
  | postInit
  /-- `post_init_interface_sync` -/
  | postSync
  /-- `Component.run` or `Connector.run` -/
  | run
  deriving DecidableEq, Repr

/-- The byte that `ffipre_init_interface_sync` and `ffipost_init_interface_sync` store, camkes_init.c:11-20. -/
def resultByte (result : Int) : Byte := UInt8.ofNat (result % 256).toNat

/-- `camkes_entry`, component.environment.end.cakeml:17-38; `r1` and `r2` are the results of the two functions. -/
def entry (r1 r2 : Int) : List Step :=
  let raw := resultByte r1
  let result := raw = 0
  let raw := if result then resultByte r2 else raw
  [.preInit, .preSync] ++ (if result then [.postInit] else []) ++ (if result then [.postSync] else []) ++
    (if raw = 0 then [.run] else [])

end Verif.CakeFfi
