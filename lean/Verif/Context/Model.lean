/-!
# Model: the template context (camkes/runner/Context.py)

Texts are lists of characters. The object allocator and the capability space allocator belong to
the capDL package, which is not part of the repository. What is assumed of them: allocating an
object under a name that exists already returns the existing object and otherwise creates one
(Context.py:489-490 relies on this), and allocating a capability takes a slot that has not been
used before and creates a capability with the rights that are passed.
-/

namespace Verif.Context

abbrev Text := List Char

/-! ## Numbers as text -/

/-- Decimal representation with a bound on the number of divisions. -/
def decAux : Nat → Nat → Text
  | 0, n => [Nat.digitChar (n % 10)]
  | f + 1, n => if n < 10 then [Nat.digitChar n] else decAux f (n / 10) ++ [Nat.digitChar (n % 10)]

/-- Decimal representation (`%d`, `str(n)`); `n` divisions are enough (`dec_eq`). -/
def dec (n : Nat) : Text := decAux n n

/-- `f'{i:0{width}}'`: decimal representation padded with zeros. -/
def padded (width i : Nat) : Text := List.replicate (width - (dec i).length) '0' ++ dec i

/-! ## Symbols -/

/-- The two patterns that the context offers, camkes/runner/Context.py:158-159. -/
inductive Pattern
  | c
  | isabelle
  deriving DecidableEq, Repr

/-- `tag or default_tag`: the default for a missing or empty tag. -/
def orDefault (d : Text) : Option Text → Text
  | none => d
  | some [] => d
  | some (c :: t) => c :: t

/-- `symbol(pattern, default_tag, tag)`, camkes/runner/Context.py:401-410, with the value of the
global counter. -/
def symbolText (counter : Nat) (p : Pattern) (tag : Option Text) : Text :=
  match p with
  | .c => ['_', 'c', 'a', 'm', 'k', 'e', 's', '_'] ++ orDefault [] tag ++ ['_'] ++ dec counter
  | .isabelle => orDefault ['s'] tag ++ dec counter ++ ['\'']

/-- A sequence of calls of `symbol`. -/
def symbols : Nat → List (Pattern × Option Text) → List Text
  | _, [] => []
  | n, (p, t) :: rest => symbolText n p t :: symbols (n + 1) rest

/-! ## Guarded allocation -/

/-- Rights of a capability. -/
structure Rights where
  read : Bool
  write : Bool
  grant : Bool
  grantreply : Bool
  deriving DecidableEq, Repr

/-- A capability in a slot: the object (identified by a number) and the rights; `none` is a slot
that is allocated but empty. -/
structure Cap where
  obj : Nat
  rights : Rights
  deriving DecidableEq, Repr

/-- The state: the store of camkes/runner/Context.py:367 as a map from clients and keys (a client is
an entity label together with a space; objects are kept for the object space, and slots for
capability spaces), the names of objects that exist, and the slots of each capability space. -/
structure St where
  objStore : Text → Text → Option Nat
  capStore : Nat → Text → Text → Option Nat
  objects : List (Text × Nat)
  nextObj : Nat
  cnodes : Nat → List (Option Cap)

/-- The allocator of capDL objects. -/
def objAlloc (s : St) (name : Text) : St × Nat :=
  match s.objects.find? (fun p => p.1 = name) with
  | some (_, o) => (s, o)
  | none => ({ s with objects := s.objects ++ [(name, s.nextObj)], nextObj := s.nextObj + 1 }, s.nextObj)

/-- The allocator of slots. -/
def slotAlloc (s : St) (space : Nat) (cap : Option Cap) : St × Nat :=
  ({ s with cnodes := fun i => if i = space then s.cnodes i ++ [cap] else s.cnodes i }, (s.cnodes space).length)

/-- `'%s_%s' % (entity.label(), name)`, camkes/runner/Context.py:60-65. -/
def fullName (label name : Text) : Text := label ++ ['_'] ++ name

/-- `alloc_obj` as offered to templates, camkes/runner/Context.py:60-65, 413-418, 385-394. -/
def allocObj (s : St) (label name : Text) : St × Nat :=
  let full := fullName label name
  let key := full ++ ['_', 'o', 'b', 'j']
  match s.objStore label key with
  | some o => (s, o)
  | none =>
    let (s', o) := objAlloc s full
    ({ s' with objStore := fun l k => if l = label ∧ k = key then some o else s'.objStore l k }, o)

/-- The rights that a capability has after an upgrade, camkes/runner/Context.py:434-441. -/
def upgrade (have_ want : Rights) : Rights :=
  { read := if !have_.read && want.read then true else have_.read
    write := if !have_.write && want.write then true else have_.write
    grant := if !have_.grant && want.grant then true else have_.grant
    grantreply := if !have_.grantreply && want.grantreply then true else have_.grantreply }

/-- `alloc_cap` as offered to templates, camkes/runner/Context.py:67-70, 421-442. -/
def allocCap (s : St) (space : Nat) (label name : Text) (obj : Option Nat) (want : Rights) : Except String (St × Nat) :=
  let key := name ++ ['_', 'c', 'a', 'p']
  let (s, slot) := match s.capStore space label key with
    | some slot => (s, slot)
    | none =>
      let (s', slot) := slotAlloc s space (obj.map (fun o => ⟨o, want⟩))
      ({ s' with capStore := fun i l k => if i = space ∧ l = label ∧ k = key then some slot else s'.capStore i l k }, slot)
  match obj with
  | none => .ok (s, slot)
  | some _ =>
    match (s.cnodes space)[slot]? with
    | some (some cap) =>
      .ok ({ s with cnodes := fun i => if i = space then (s.cnodes i).set slot (some { cap with rights := upgrade cap.rights want }) else s.cnodes i }, slot)
    | _ => .error "AttributeError"

/-- A request of a template. -/
inductive Req
  | obj (label name : Text)
  | cap (space : Nat) (label name : Text) (obj : Option Nat) (want : Rights)

/-- One request. -/
def step (s : St) : Req → Except String (St × Nat)
  | .obj label name => .ok (allocObj s label name)
  | .cap space label name obj want => allocCap s space label name obj want

/-- A history of requests, with the answers. -/
def run : St → List Req → Except String (St × List Nat)
  | s, [] => .ok (s, [])
  | s, r :: rs =>
    match step s r with
    | .error e => .error e
    | .ok (s', a) =>
      match run s' rs with
      | .error e => .error e
      | .ok (s'', as) => .ok (s'', a :: as)

/-- The state at the start. -/
def start : St := ⟨fun _ _ => none, fun _ _ _ => none, [], 0, fun _ => []⟩

/-! ## Shared variables -/

/-- `calc_frame_size`, camkes/runner/Context.py:445-452. `pageSizes` is the result of the capDL
function `page_sizes` (in increasing order); a missing or zero frame size is searched. -/
def calcFrameSize (pageSizes : List Nat) (size : Nat) (frameSize : Option Nat) : Except String Nat :=
  match frameSize with
  | some (n + 1) => .ok (n + 1)
  | _ =>
    match pageSizes.reverse.find? (fun sz => size ≥ sz && size % sz == 0) with
    | some sz => if sz = 0 then .error "AssertionError" else .ok sz
    | none => .error "AssertionError"

/-- The names of the frames, camkes/runner/Context.py:485-493. -/
def frameNames (globalName : Text) (num : Nat) : List Text :=
  let digits := if num = 0 then 2 else (dec (num - 1)).length
  (List.range num).map (fun i => globalName ++ ['_'] ++ padded digits i ++ ['_', 'o', 'b', 'j'])

/-- Allocating objects one after the other. -/
def allocAll : St → List Text → St × List Nat
  | s, [] => (s, [])
  | s, n :: ns =>
    let (s, o) := objAlloc s n
    let (s, os) := allocAll s ns
    (s, o :: os)

/-- The part of `register_shared_variable` that makes frames, camkes/runner/Context.py:481-499, 515:
the frame objects, the size of each mapping, and the physical addresses. -/
def registerShared (pageSizes : List Nat) (s : St) (globalName : Text) (size : Nat) (frameSize : Option Nat)
    (paddr : Option Nat) : Except String (St × List Nat × List Nat × Option (List Nat)) :=
  match calcFrameSize pageSizes size frameSize with
  | .error e => .error e
  | .ok fs =>
    let num := size / fs
    let (s, frames) := allocAll s (frameNames globalName num)
    .ok (s, frames, List.replicate num fs, paddr.map (fun p => (List.range num).map (fun i => p + i * fs)))

end Verif.Context
