import Mathlib.Tactic.ByContra
import Mathlib.Tactic.Tauto

/-!
# Model: component-independent pointers into dataports (C63)

`dataport_wrap_ptr` and `dataport_unwrap_ptr` (camkes/templates/component.common.c:920-965) and the functions that
the connectors generate (seL4SharedData.template.c:46-64, seL4DMASharedData.template.c:57-77,
seL4HardwareMMIO.template.c:58-78).

Pointers are numbers below `W`, zero is `NULL`. Not modelled: the memory itself.
-/

namespace Verif.DPtr

/-- The machine: `uintptr_t` has `W` values and `off_t` goes from `-half` to `half - 1`. -/
structure Env where
  W : Nat
  half : Nat

/-- Which template generated the functions, and how it gives the size. -/
inductive Kind
  /-- seL4SharedData and seL4DMASharedData -/
  | shared
  /-- seL4HardwareMMIO where the size is `sizeof(type)`, an unsigned number -/
  | mmioSizeof
  /-- seL4HardwareMMIO where the size is the literal of `Buf(size)` (macros.py:323-328), a signed number -/
  | mmioLiteral
  deriving DecidableEq

/-- A dataport of a component: its address, its size, the number of its connection
(`composition.connections.index(me.parent)`) and whether the functions exist (they do not for optional
dataports that are not connected). -/
structure Port where
  base : Nat
  size : Nat
  id : Nat
  kind : Kind
  linked : Bool
  deriving DecidableEq

/-- `dataport_ptr_t`, libsel4camkes/include/camkes/dataport.h:30-33. -/
structure Ptr where
  id : Int
  offset : Int
  deriving DecidableEq

/-- The cast of a `uintptr_t` to `off_t`. -/
def toOff (e : Env) (x : Nat) : Int := if x < e.half then x else (x : Int) - 2 * e.half

/-- `(uintptr_t)ptr - (uintptr_t)base`. -/
def sub (e : Env) (p b : Nat) : Nat := (p + e.W - b) % e.W

/-- `<interface>_wrap_ptr`: seL4SharedData.template.c:48-56, seL4DMASharedData.template.c:61-69,
seL4HardwareMMIO.template.c:60-70; `none` is the return value -1. -/
def wrapOne (e : Env) (d : Port) (p : Nat) : Option Ptr :=
  match d.kind with
  | .shared =>
    if p < d.base ∨ p ≥ (d.base + d.size) % e.W then none
    else some ⟨d.id, toOff e (sub e p d.base)⟩
  | .mmioSizeof =>
    let off := toOff e (sub e p d.base)
    if off % (2 * e.half) < d.size then some ⟨d.id, off⟩ else none
  | .mmioLiteral =>
    let off := toOff e (sub e p d.base)
    if off < d.size then some ⟨d.id, off⟩ else none

/-- `<interface>_unwrap_ptr`: seL4SharedData.template.c:58-64, seL4DMASharedData.template.c:71-77,
seL4HardwareMMIO.template.c:72-78. -/
def unwrapOne (e : Env) (d : Port) (q : Ptr) : Nat :=
  if q.id = d.id then (d.base + (q.offset % e.W).toNat) % e.W else 0

/-- `dataport_wrap_ptr`, component.common.c:929-941. -/
def wrap (e : Env) : List Port → Nat → Ptr
  | [], _ => ⟨-1, 0⟩
  | d :: ds, p =>
    if d.linked then
      match wrapOne e d p with
      | some q => q
      | none => wrap e ds p
    else wrap e ds p

/-- `dataport_unwrap_ptr`, component.common.c:951-965. -/
def unwrap (e : Env) : List Port → Ptr → Nat
  | [], _ => 0
  | d :: ds, q =>
    if d.linked then
      if unwrapOne e d q ≠ 0 then unwrapOne e d q else unwrap e ds q
    else unwrap e ds q

end Verif.DPtr
