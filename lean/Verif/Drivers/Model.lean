import Mathlib.Tactic.ByContra
import Mathlib.Tactic.Tauto
import Mathlib.Data.List.Basic
import Mathlib.Data.List.Nodup
import Mathlib.Data.List.Perm.Subperm

/-!
# Model: initialising device drivers (C65)

`camkes_call_hardware_init_modules` and the functions that it uses (libsel4camkes/src/io.c:36-78 and 292-483).

What is outside: the device tree (`known` and `check`), the drivers (`ret`, which may depend on everything that
has happened so far) and the allocator (`token` and `node` say which of its calls succeed, memory that is freed is
not given out again). `ops` is not `NULL` and there is a device tree. Not modelled: log messages.
-/

namespace Verif.Drivers

/-- A driver module: its number and its list of compatible strings. -/
structure Mod where
  id : Nat
  strings : List String
  deriving DecidableEq

/-- `camkes_defer_token_t`, io.c:31-34: a device and a driver. -/
structure Token where
  path : Nat
  mod : Nat
  deriving DecidableEq

/-- A call of the init function of a driver, with its result. -/
structure Event where
  token : Token
  ret : Int
  deriving DecidableEq

/-- What happened, the last event first. -/
abbrev Trace := List Event

/-- The world outside. -/
structure Env where
  /-- `PS_DRIVER_INIT_DEFER` -/
  DEFER : Int
  /-- the modules in the section `_driver_modules` -/
  mods : List Mod
  /-- the path is in the device tree and has a property `compatible`, io.c:461-472 -/
  known : Nat → Bool
  /-- `fdt_node_check_compatible` -/
  check : Nat → String → Int
  /-- what a driver returns when it is called after the given events -/
  ret : Trace → Token → Int
  /-- whether there is memory for a token -/
  token : Trace → Bool
  /-- whether there is memory for a node of the list -/
  node : Trace → Bool

/-- The nodes of linked lists (`ll_t`, io.c:36-40) with the tokens that they hold. -/
structure Heap where
  data : Nat → Token
  next : Nat → Option Nat
  live : Nat → Bool
  /-- the nodes from here on have not been used yet -/
  top : Nat

/-- The results. -/
inductive Res (α : Type)
  | ok (a : α)
  /-- a node is used that has been freed -/
  | fault
  /-- `ZF_LOGF` -/
  | abort
  /-- not finished -/
  | more

/-- The state: the heap, `driver_defer_list` and what has happened. -/
structure State where
  heap : Heap
  head : Option Nat
  trace : Trace

def Heap.setNext (h : Heap) (n : Nat) (x : Option Nat) : Heap := { h with next := fun i => if i = n then x else h.next i }

/-- The last node, io.c:74. -/
def walk (h : Heap) : Nat → Nat → Res Nat
  | 0, _ => .more
  | fuel + 1, n =>
    if h.live n then
      match h.next n with
      | none => .ok n
      | some m => walk h fuel m
    else .fault

/-- `ll_append`, io.c:60-77, where there is memory. -/
def append (h : Heap) (head : Option Nat) (t : Token) : Res (Heap × Option Nat) :=
  let n := h.top
  let h1 : Heap := ⟨fun i => if i = n then t else h.data i, fun i => if i = n then none else h.next i, fun i => if i = n then true else h.live i, n + 1⟩
  match head with
  | none => .ok (h1, some n)
  | some m =>
    match walk h1 (n + 1) m with
    | .ok l => .ok (h1.setNext l (some n), some m)
    | .fault => .fault
    | .abort => .abort
    | .more => .more

/-- `defer_driver_init`, io.c:300-333; a token that cannot be put into the list is dropped. -/
def defer (e : Env) (s : State) (t : Token) : Res State :=
  if e.token s.trace then
    if e.node s.trace then
      match append s.heap s.head t with
      | .ok (h, head) => .ok ⟨h, head, s.trace⟩
      | .fault => .fault
      | .abort => .abort
      | .more => .more
    else .ok s
  else .abort

/-- The inner loop of `find_compatible_driver_module`, io.c:350-373: `some true` for a match, `some false` for a
malformed node. -/
def matchStrings (e : Env) (p : Nat) : List String → Option Bool
  | [] => none
  | s :: ss => if e.check p s = 0 then some true else if e.check p s < 0 then some false else matchStrings e p ss

/-- The outer loop, io.c:349-378. -/
def matchMods (e : Env) (p : Nat) : List Mod → Option Mod
  | [] => none
  | m :: ms =>
    match matchStrings e p m.strings with
    | none => matchMods e p ms
    | some true => some m
    | some false => none

/-- `find_compatible_driver_module`, io.c:335-379. -/
def find (e : Env) (s : State) (p : Nat) : Res State :=
  match matchMods e p e.mods with
  | none => .ok s
  | some m =>
    let t : Token := ⟨p, m.id⟩
    let r := e.ret s.trace t
    let s : State := { s with trace := ⟨t, r⟩ :: s.trace }
    if r = e.DEFER then defer e s t else .ok s

/-- The first loop of `camkes_call_hardware_init_modules`, io.c:460-476. -/
def findAll (e : Env) : State → List Nat → Res State
  | s, [] => .ok s
  | s, p :: ps =>
    if e.known p then
      match find e s p with
      | .ok s => findAll e s ps
      | r => r
    else findAll e s ps

/-- The inner loop of `handle_defered_modules`, io.c:395-426, from the node `cur`; `set` and `tail` are the list of
the drivers that have deferred again. -/
def inner (e : Env) : Nat → Heap → Option Nat → Option Nat → Option Nat → Trace → Res (Heap × Option Nat × Trace)
  | _, h, none, set, _, tr => .ok (h, set, tr)
  | 0, _, some _, _, _, _ => .more
  | fuel + 1, h, some n, set, tail, tr =>
    if h.live n then
      let t := h.data n
      let r := e.ret tr t
      let tr := ⟨t, r⟩ :: tr
      if r = e.DEFER then
        let h := match tail with
          | some m => h.setNext m (some n)
          | none => h
        let set := if set = none then some n else set
        let cur := h.next n
        inner e fuel (h.setNext n none) cur set (some n) tr
      else
        inner e fuel { h with live := fun i => if i = n then false else h.live i } (h.next n) set tail tr
    else .fault

/-- The outer loop of `handle_defered_modules`, io.c:393-431. -/
def outer (e : Env) (fuel : Nat) : Nat → Heap → Option Nat → Trace → Res (Heap × Trace)
  | _, h, none, tr => .ok (h, tr)
  | 0, _, some _, _ => .more
  | rounds + 1, h, some n, tr =>
    match inner e fuel h (some n) none none tr with
    | .ok (h, set, tr) => outer e fuel rounds h set tr
    | .fault => .fault
    | .abort => .abort
    | .more => .more

/-- `camkes_call_hardware_init_modules`, io.c:442-483, for the paths of the section `_hardware_init`.
`driver_defer_list` is not changed by `handle_defered_modules` (io.c:388). -/
def call (e : Env) (fuel rounds : Nat) (paths : List Nat) (s : State) : Res State :=
  match findAll e s paths with
  | .ok s =>
    match outer e fuel rounds s.heap s.head s.trace with
    | .ok (h, tr) => .ok ⟨h, s.head, tr⟩
    | .fault => .fault
    | .abort => .abort
    | .more => .more
  | r => r

/-- The state at the start. -/
def init : State := ⟨⟨fun _ => ⟨0, 0⟩, fun _ => none, fun _ => false, 0⟩, none, []⟩

end Verif.Drivers
