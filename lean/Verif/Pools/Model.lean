import Verif.Context.Model
import Verif.CapAlloc.Model

/-!
# Model: objects that a component is given for itself (camkes/templates/component.common.c:86-106, 213-282, 308-420, 701-705)

Texts are lists of characters, settings are numbers. Of the names that the template uses, those that
contain the name of a thread begin with a digit (macros.py `threads`) and can not be the name of
anything that a user declares; they are left out. The fault endpoint is left out, too.

The capability space belongs to the capDL package: a new capability takes a slot that is not in use
and is not the null capability (`Space`).
-/

namespace Verif.Pools

abbrev Text := List Char

export Verif.Context (dec)

/-- The types of the objects that are made. -/
inductive Kind
  | tcb
  | endpoint
  | notification
  | untyped (bits : Nat)
  | smc (function : Nat)
  deriving DecidableEq, Repr

/-- An object and the capability to it. `resume` and `domain` are attributes of thread objects. -/
structure Entry where
  name : Text
  slot : Nat
  kind : Kind
  resume : Bool
  domain : Option Nat
  deriving DecidableEq, Repr

/-- The choice of a free slot. -/
structure Space where
  fresh : List Nat → Nat

/-- The slots that are in use and what was allocated by name so far. -/
structure State where
  used : List Nat
  named : List Entry
  deriving DecidableEq, Repr

/-- What was allocated under a name, camkes/runner/Context.py:374-380. -/
def find (name : Text) : List Entry → Option Entry
  | [] => none
  | e :: es => if e.name = name then some e else find name es

/-- A request by name. `thread` is given by the pool of threads only. -/
structure Req where
  name : Text
  kind : Kind
  thread : Option (Option Nat)

/-- The attributes that are set of the object that was returned, component.common.c:363-366. -/
def setThread (slot : Nat) (domain : Option Nat) (e : Entry) : Entry :=
  if e.slot = slot then { e with resume := false, domain := domain.or e.domain } else e

/-- `alloc` and the pair `alloc_obj`, `alloc_cap` with one name, camkes/runner/Context.py:60-87, 413-448:
what exists under the name is returned, whatever its type. -/
def alloc (sp : Space) (s : State) (r : Req) : State × Nat :=
  let t : State × Nat :=
    match find r.name s.named with
    | some e => (s, e.slot)
    | none => (⟨sp.fresh s.used :: s.used, s.named ++ [⟨r.name, sp.fresh s.used, r.kind, true, none⟩]⟩, sp.fresh s.used)
  match r.thread with
  | none => t
  | some d => ({ t.1 with named := t.1.named.map (setThread t.2 d) }, t.2)

/-- Some requests, with the slots. -/
def allocAll (sp : Space) : State → List Req → State × List Nat
  | s, [] => (s, [])
  | s, r :: rs =>
    let a := alloc sp s r
    let b := allocAll sp a.1 rs
    (b.1, a.2 :: b.2)

/-- The settings of a component. `untypeds` are the attributes `untyped<digits>_pool` with their values
in the order of the configuration. -/
structure Config where
  smcs : List Nat
  mutexes : List Text
  semaphores : List Text
  binaries : List Text
  value : Text → Option Int
  tcbs : Nat
  domains : Option (List Nat)
  eps : Nat
  notifications : Nat
  untypeds : List (Text × Nat)

/-- `int(text)` for a text of digits, component.common.c:409. -/
def pyInt (t : Text) : Nat := t.foldl (fun n c => 10 * n + (c.toNat - '0'.toNat)) 0

/-- component.common.c:93. -/
def smcReqs (c : Config) : List Req := c.smcs.map (fun f => ⟨['s', 'm', 'c', '_'] ++ dec f, .smc f, none⟩)

/-- component.common.c:220. -/
def mutexReqs (c : Config) : List Req := c.mutexes.map (fun n => ⟨n, .notification, none⟩)

/-- component.common.c:241. -/
def semaphoreReqs (c : Config) : List Req := c.semaphores.map (fun n => ⟨n, .endpoint, none⟩)

/-- component.common.c:269. -/
def binaryReqs (c : Config) : List Req := c.binaries.map (fun n => ⟨n, .notification, none⟩)

/-- component.common.c:360-366. -/
def tcbReqs (c : Config) : List Req :=
  (List.range c.tcbs).map (fun i =>
    ⟨['t', 'c', 'b', '_', 'p', 'o', 'o', 'l', '_'] ++ dec i, .tcb, some (c.domains.bind (fun ds => ds[i]?))⟩)

/-- component.common.c:378. -/
def epReqs (c : Config) : List Req :=
  (List.range c.eps).map (fun i => ⟨['e', 'p', '_', 'p', 'o', 'o', 'l', '_'] ++ dec i, .endpoint, none⟩)

/-- component.common.c:390. -/
def notificationReqs (c : Config) : List Req :=
  (List.range c.notifications).map (fun i =>
    ⟨['n', 'o', 't', 'i', 'f', 'i', 'c', 'a', 't', 'i', 'o', 'n', '_', 'p', 'o', 'o', 'l', '_'] ++ dec i, .notification, none⟩)

/-- component.common.c:398-412. -/
def untypedReqs (c : Config) : List Req :=
  c.untypeds.flatMap (fun u => (List.range u.2).map (fun i =>
    ⟨['u', 'n', 't', 'y', 'p', 'e', 'd', '_'] ++ u.1 ++ ['_', 'p', 'o', 'o', 'l', '_'] ++ dec i, .untyped (pyInt u.1), none⟩))

/-- component.common.c:701, 703, 705. -/
def startReqs : List Req :=
  [⟨['p', 'r', 'e', '_', 'i', 'n', 'i', 't', '_', 'e', 'p'], .endpoint, none⟩,
   ⟨['i', 'n', 't', 'e', 'r', 'f', 'a', 'c', 'e', '_', 'i', 'n', 'i', 't', '_', 'e', 'p'], .endpoint, none⟩,
   ⟨['p', 'o', 's', 't', '_', 'i', 'n', 'i', 't', '_', 'e', 'p'], .endpoint, none⟩]

/-- Why no code is generated. -/
inductive Err
  | initial
  | domain
  | untyped
  deriving DecidableEq, Repr

/-- The slots that appear in the generated code. -/
structure Gen where
  smcs : List Nat
  mutexes : List Nat
  semaphores : List Nat
  binaries : List Nat
  tcbs : List Nat
  eps : List Nat
  notifications : List Nat
  untypeds : List Nat
  start : List Nat
  deriving DecidableEq, Repr

/-- The initial value of a semaphore, component.common.c:242-243. -/
def semaphoreValue (c : Config) (n : Text) : Int := (c.value n).getD 1

/-- The initial value of a binary semaphore, component.common.c:270. -/
def binaryValue (c : Config) (n : Text) : Int := (c.value n).getD 0

/-- What the semaphores are initialised with, component.common.c:242-243. -/
def semaphoreInits (c : Config) (g : Gen) : List (Nat × Int) := g.semaphores.zip (c.semaphores.map (semaphoreValue c))

/-- What the binary semaphores are initialised with, component.common.c:272. -/
def binaryInits (c : Config) (g : Gen) : List (Nat × Int) := g.binaries.zip (c.binaries.map (binaryValue c))

/-- The template. The assertion of line 271; the list of domains is too short (line 365: the value is
undefined, and the capDL package can not print it); the check of line 409, which is made once for each
object. -/
def gen (sp : Space) (c : Config) (s : State) : Except Err (State × Gen) :=
  if c.binaries.any (fun n => !(binaryValue c n == 0 || binaryValue c n == 1)) then .error .initial
  else if c.domains.any (fun ds => decide (ds.length < c.tcbs)) then .error .domain
  else if c.untypeds.any (fun u => decide (0 < u.2) && !(decide (4 ≤ pyInt u.1) && decide (pyInt u.1 ≤ 28))) then .error .untyped
  else
    let a := allocAll sp s (smcReqs c)
    let b := allocAll sp a.1 (mutexReqs c)
    let d := allocAll sp b.1 (semaphoreReqs c)
    let e := allocAll sp d.1 (binaryReqs c)
    let f := allocAll sp e.1 (tcbReqs c)
    let g := allocAll sp f.1 (epReqs c)
    let h := allocAll sp g.1 (notificationReqs c)
    let i := allocAll sp h.1 (untypedReqs c)
    let j := allocAll sp i.1 startReqs
    .ok (j.1, ⟨a.2, b.2, d.2, e.2, f.2, g.2, h.2, i.2, j.2⟩)

/-! ## The generated C code -/

/-- A number in C: octal if it begins with a zero; `none` if it is not a number. -/
def cNumber (t : Text) : Option Nat :=
  match t with
  | '0' :: c :: rest =>
    if (c :: rest).all (fun d => decide ('0' ≤ d ∧ d ≤ '7')) then
      some ((c :: rest).foldl (fun n c => 8 * n + (c.toNat - '0'.toNat)) 0)
    else none
  | t => some (pyInt t)

/-- What libsel4 says of the constants `seL4_CanRead` and `seL4_CanWrite`: they are numbers, or they are
structures with one word. libsel4camkes/src/sync.c:26 takes them to be structures. -/
inductive Rights
  | number (r w : Nat)
  | struct (r w : Nat)
  deriving DecidableEq, Repr

/-- `seL4_CanRead|seL4_CanWrite`, component.common.c:379, 413: an error for structures. -/
def plainRights : Rights → Option Nat
  | .number r w => some (r ||| w)
  | .struct _ _ => none

/-- `seL4_CanRead.words[0]|seL4_CanWrite.words[0]`, component.common.c:391: an error for numbers. -/
def wordRights : Rights → Option Nat
  | .number _ _ => none
  | .struct r w => some (r ||| w)

/-- The types of objects as C numbers. -/
structure Types where
  tcb : Nat
  endpoint : Nat
  notification : Nat
  untyped : Nat

/-- A call of `camkes_provide`. -/
structure Provide where
  type : Nat
  cap : Nat
  size : Nat
  attributes : Nat
  deriving DecidableEq, Repr

/-- The digits of each untyped object, in the order of the calls. -/
def untypedDigits (c : Config) : List Text := c.untypeds.flatMap (fun u => List.replicate u.2 u.1)

/-- The calls for untyped objects, component.common.c:413. -/
def untypedCalls (ty : Types) (rg : Rights) : List (Text × Nat) → Option (List Provide)
  | [] => some []
  | (t, cap) :: rest =>
    match cNumber t, plainRights rg, untypedCalls ty rg rest with
    | some b, some a, some l => some (⟨ty.untyped, cap, 2 ^ b, a⟩ :: l)
    | _, _, _ => none

/-- The calls with rights that may not compile; nothing is there if the pool is empty. -/
def rightsCalls (type : Nat) (rights : Option Nat) : List Nat → Option (List Provide)
  | [] => some []
  | cap :: caps => rights.bind (fun a => (rightsCalls type rights caps).map (⟨type, cap, 0, a⟩ :: ·))

/-- The calls of `camkes_provide` in `init`, component.common.c:357-420; `none` if the code does not
compile. -/
def calls (ty : Types) (rg : Rights) (c : Config) (g : Gen) : Option (List Provide) :=
  match rightsCalls ty.endpoint (plainRights rg) g.eps, rightsCalls ty.notification (wordRights rg) g.notifications,
      untypedCalls ty rg ((untypedDigits c).zip g.untypeds) with
  | some e, some n, some u => some (g.tcbs.map (fun cap => ⟨ty.tcb, cap, 0, 0⟩) ++ e ++ n ++ u)
  | _, _, _ => none

/-- `init`, component.common.c:357-420, on the pool of libsel4camkes/src/allocator.c; `memory` is enough for all
calls. -/
def initPool (ps : List Provide) : List CapAlloc.Node :=
  ps.foldl (fun pool p => (CapAlloc.provide pool true p.type p.cap p.size p.attributes).1) []

/-- `n` allocations in a row, libsel4camkes/src/allocator.c:44-54, with the capabilities. -/
def take (pool : List CapAlloc.Node) (type size flags : Nat) : Nat → List CapAlloc.Node × List Nat
  | 0 => (pool, [])
  | n + 1 =>
    let a := CapAlloc.alloc pool type size flags
    let b := take a.1 type size flags n
    (b.1, a.2 :: b.2)

/-! ## Secure monitor calls -/

/-- `camkes_get_smc_cap`, component.common.c:88-105: the cases are words of `w` bits; `none` if two are the
same, which does not compile. -/
def smcCap (w : Nat) (c : Config) (g : Gen) (call : Nat) : Option Nat :=
  if (c.smcs.map (· % 2 ^ w)).Nodup then
    some (((c.smcs.zip g.smcs).find? (fun p => p.1 % 2 ^ w == call)).elim 0 (·.2))
  else none

end Verif.Pools
