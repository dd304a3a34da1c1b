import Verif.Simple.Model
import Verif.Errors.Model
import Mathlib.Logic.Function.Basic

/-! # Where the memory of a component is

component.simple.c:405-437 and 479-498: a component that makes kernel objects itself finds out the physical
addresses of its untyped memory, by making a page in it, asking for the address of the page and deleting it again. -/

namespace Verif.UntypedAddr

/-- The kernel, for the untyped memories of a component (by capability): where they are, how large, how many objects
have been made in each, and how far it is used; and the slot for the page: its untyped memory and its address. -/
structure World where
  base : Nat → Nat
  bits : Nat → Nat
  children : Nat → Nat
  mark : Nat → Nat
  slot : Option (Nat × Nat)

/-- Where free memory begins: an untyped memory without objects is free altogether. -/
def World.free (w : World) (u : Nat) : Nat := if w.children u = 0 then 0 else w.mark u

/-- `seL4_Untyped_Retype` for one page; `none` is an error: the slot is in use or there is no room. What is free begins
at a multiple of the page size, as only pages are made here. -/
def retype (w : World) (u : Nat) : Option World :=
  if w.slot = none ∧ w.free u + 4096 ≤ 2 ^ w.bits u then
    some { w with
      children := Function.update w.children u (w.children u + 1)
      mark := Function.update w.mark u (w.free u + 4096)
      slot := some (u, w.base u + w.free u) }
  else none

/-- `seL4_ARCH_Page_GetAddress`: 0 if there is no page. -/
def getAddress (w : World) : Nat := match w.slot with | some (_, a) => a | none => 0

/-- `seL4_CNode_Delete`. -/
def delete (w : World) : World :=
  match w.slot with
  | some (u, _) => { w with children := Function.update w.children u (w.children u - 1), slot := none }
  | none => w

/-- The two errors, component.simple.c:415-423 and 426-434. -/
inductive Fault
  | retype
  | address
  deriving DecidableEq, Repr

/-- What an error leads to, `ERR_IF`, libsel4camkes/include/camkes/error.h:229-283, for what the handler says. -/
inductive Then
  | left
  | goesOn
  | stopped
  deriving DecidableEq, Repr

def after (handler : Fault → Verif.Errors.Action) (f : Fault) : Then :=
  match handler f with
  | .discard => .left
  | .ignore => .goesOn
  | _ => .stopped

/-- The second half of `make_frame_get_paddr`, component.simple.c:424-436. -/
def address (handler : Fault → Verif.Errors.Action) (w : World) : Option (Nat × World) :=
  if getAddress w = 0 then
    match after handler .address with
    | .left => some (0, w)
    | .goesOn => some (0, delete w)
    | .stopped => none
  else some (getAddress w, delete w)

/-- `make_frame_get_paddr`, component.simple.c:405-437; `none` if the component is stopped. -/
def makeFrame (handler : Fault → Verif.Errors.Action) (w : World) (u : Nat) : Option (Nat × World) :=
  match retype w u with
  | some w => address handler w
  | none =>
    match after handler .retype with
    | .left => some (0, w)
    | .goesOn => address handler w
    | .stopped => none

/-- The loop over the untyped memories, component.simple.c:489-493. -/
def loop (handler : Fault → Verif.Errors.Action) : World → List (Nat × Nat) →
    Option (List Verif.Simple.Entry × World)
  | w, [] => some ([], w)
  | w, u :: us =>
    if 12 ≤ u.2 then
      match makeFrame handler w u.1 with
      | none => none
      | some (a, w) => (loop handler w us).map (fun r => (⟨u.1, a, u.2, false⟩ :: r.1, r.2))
    else (loop handler w us).map (fun r => (Verif.Simple.Entry.zero :: r.1, r.2))

/-- The variables of the program: `simple_data.untyped` and `camkes_simple_init`, component.simple.c:184-199. -/
structure Vars where
  entries : List Verif.Simple.Entry
  init : Bool

/-- `camkes_make_simple`, component.simple.c:479-498. -/
def makeSimple (handler : Fault → Verif.Errors.Action) (g : Verif.Simple.Gen) (v : Vars) (w : World) :
    Option (Vars × World) :=
  if v.init then some (v, w)
  else
    match loop handler w g.untypeds with
    | none => none
    | some (es, w) => some (⟨es ++ g.untypedMmio.map (fun u => ⟨u.2.2, u.1, u.2.1, true⟩), true⟩, w)

end Verif.UntypedAddr
