import Verif.Macros.Model

/-!
# Model: boot information in a component (camkes/runner/Context.py `register_fill_frame`, component.common.c:115-150,
component.simple.c:39-48, 449-462, libsel4camkes/src/io.c:266-290)

The loader of the system is not part of the repository. What is assumed of it: a frame with the fill
`dest len what src` gets `len` bytes at offset `dest`; they are those of the piece of boot information
that `what` names, from offset `src` on, and stay zero where the piece has ended. If there is no such
piece then the length in the header of the frame is -1. A piece begins with a header that tells its
length, the header included.
-/

namespace Verif.BootFrames

/-- The fill of a frame, Context.py:559-560, without the name of the piece. -/
structure Fill where
  dest : Nat
  len : Nat
  src : Nat
  deriving DecidableEq, Repr

/-- The frames of `register_fill_frame`, Context.py:548-573. -/
def fillFrames (size : Nat) : List Fill :=
  (List.range (size / 4096)).map (fun i => ⟨0, if size - i * 4096 ≥ 4096 then 4096 else size - i * 4096, i * 4096⟩)

/-- A byte of a frame after the loader has run. -/
def frameByte (piece : List Nat) (f : Fill) (off : Nat) : Nat :=
  if f.dest ≤ off ∧ off < f.dest + f.len then (piece[f.src + (off - f.dest)]?).getD 0 else 0

/-- A byte of the symbol that is backed by the frames: frames of 4096 bytes are mapped in order
(Context.py:565-566); `none` if nothing is there. -/
def symbolByte (piece : List Nat) (fs : List Fill) (k : Nat) : Option Nat :=
  (fs[k / 4096]?).map (fun f => frameByte piece f (k % 4096))

/-! ## The device tree -/

/-- A description of a device tree in the settings; its size in bytes (fdtQueryEngine.py:617). -/
structure Dtb where
  size : Nat
  deriving DecidableEq, Repr

/-- `configuration[interface].get('dtb')` for the connections of the composition of the component, component.common.c:126-136. -/
def firstDtb : List (Option Dtb) → Option Dtb
  | [] => none
  | some d :: _ => some d
  | none :: rest => firstDtb rest

/-- Which description is used, component.common.c:119-140: `own` is the setting of the component,
`composition` what its connections have if it has a composition. -/
def dtbOf (own : Option Dtb) (composition : Option (List (Option Dtb))) : Option Dtb :=
  match own with
  | some d => some d
  | none =>
    match composition with
    | some cs => firstDtb cs
    | none => none

/-- The size of `dtb_symbol`, component.common.c:144-147. -/
def dtbSymbolSize (d : Dtb) : Option Nat := (Macros.roundUp d.size 4096).map (fun r => (r + 4096).toNat)

/-- The frames of `dtb_symbol`, component.common.c:149. -/
def dtbFrames (d : Dtb) : Option (List Fill) := (dtbSymbolSize d).map fillFrames

/-- A byte that is read through the pointer of `ps_io_fdt_get`, io.c:266-290: `header` is `sizeof(seL4_BootInfoHeader)`.
The result of the first `Option` is `none` if the pointer is null. -/
def fdtByte (header : Nat) (fs : Option (List Fill)) (piece : List Nat) (k : Nat) : Option (Option Nat) :=
  fs.map (fun fs => symbolByte piece fs (header + k))

/-! ## Other boot information -/

/-- The pieces that are asked for, component.simple.c:40-48: numbers of types, and what the loader has for each of them. -/
abbrev Extra := List (Nat × Option (List Nat))

/-- The frame of a type, component.simple.c:451-455: the last one in the list. -/
def mapping (xs : Extra) (type : Nat) : Option (Option (List Nat)) :=
  xs.foldl (fun m x => if type = x.1 then some x.2 else m) none

/-- What a call has done. -/
inductive Answer
  /-- -1. -/
  | absent
  /-- The bytes that were copied. -/
  | copied (bytes : List Nat)
  /-- The copy has read beyond the symbol. -/
  | outside
  deriving DecidableEq, Repr

/-- `memcpy` from a symbol of one frame: the bytes at some places, or `none` if one of them is not there. -/
def readAll (piece : List Nat) : List Nat → Option (List Nat)
  | [] => some []
  | k :: ks => (symbolByte piece (fillFrames 4096) k).bind (fun b => (readAll piece ks).map (b :: ·))

/-- `camkes_get_extended_bootinfo`, component.simple.c:449-462: `maxLen` is not negative. -/
def extended (xs : Extra) (type maxLen : Nat) : Answer :=
  match mapping xs type with
  | some (some piece) =>
    match readAll piece (List.range (min piece.length maxLen)) with
    | some l => .copied l
    | none => .outside
  | some none => .absent
  | none => .absent

end Verif.BootFrames
