/-! # Registration of an interface with properties

libsel4camkes/src/interface_registration.c:79-200: what `IfaceReg` leaves out. The registry itself is
that of `IfaceReg`; here the type is registered for the first time. -/

namespace Verif.IfaceProps

/-- The array of properties the caller passes: the addresses of its strings, before the NULL that ends
it, and the strings. -/
structure Caller where
  addrs : List Nat
  strings : List String

/-- How allocations turn out: of the outer node, of the node, of the array of copies and of each copy;
and where a copy is put. -/
structure Alloc where
  outer : Bool
  node : Bool
  array : Bool
  string : Nat → Bool
  addr : Nat → Nat

/-- The blocks that are allocated. -/
inductive Block
  | outer | node | array | string (i : Nat)
  deriving DecidableEq, Repr

/-- How the call ends. `fault`: a NULL pointer is read; `badFree`: memory is freed that was not
allocated. -/
inductive Out
  | ok | invalid | noMemory | fault | badFree
  deriving DecidableEq, Repr

/-- The end of a call: what it returns, what the handlers of later searches are given as properties, and
the blocks that are allocated. -/
structure End where
  out : Out
  given : Option (List String)
  live : List Block
  deriving DecidableEq, Repr

/-- The loop `for (char *curr = *properties; curr != NULL; curr++, num_strings++)`,
libsel4camkes/src/interface_registration.c:96; pointers have `word` values. Simplification: a pointer
that is advanced past the last address becomes NULL. -/
def countLoop (word : Nat) : Nat → Nat → Nat → Option Nat
  | 0, _, _ => none
  | fuel + 1, curr, num => if curr = 0 then some num else countLoop word fuel ((curr + 1) % word) (num + 1)

/-- `*properties`: the first entry of the array. -/
def first (addrs : List Nat) : Nat := addrs.headD 0

/-- The loop of `destroy_properties_array`, libsel4camkes/src/interface_registration.c:83-87: the pointers
that are freed, up to the first one that is no allocated block; `true` if there is such a one. -/
def destroyLoop (word : Nat) (blocks : List Nat) : Nat → Nat → List Nat → List Nat × Bool
  | 0, _, freed => (freed, false)
  | fuel + 1, curr, freed =>
    if curr = 0 then (freed, false)
    else if curr ∈ blocks ∧ curr ∉ freed then destroyLoop word blocks fuel ((curr + 1) % word) (freed ++ [curr])
    else (freed, true)

/-- The loop over the strings, libsel4camkes/src/interface_registration.c:105-114. The strings that
are left are those of the array; behind them is NULL, whose length cannot be taken. -/
def copyLoop (word : Nat) (a : Alloc) (num : Nat) : List String → Nat → List String → Out × List String × List Nat
  | rest, i, copied =>
    if ¬ i < num then (.ok, copied, (List.range i).map a.addr)
    else match rest with
      | [] => (.fault, copied, (List.range i).map a.addr)
      | s :: rest =>
        if a.string i then copyLoop word a num rest (i + 1) (copied ++ [s])
        else
          -- line 110: the first entry of the array of copies is NULL if `i` is zero
          let blocks := (List.range i).map a.addr
          let r := destroyLoop word blocks (word + 1) (first blocks) []
          if r.2 then (.badFree, copied, blocks) else (.noMemory, copied, blocks.filter (· ∉ r.1))

/-- `copy_properties_array`, libsel4camkes/src/interface_registration.c:90-117. -/
def copyArray (word : Nat) (a : Alloc) (c : Caller) : Out × List String × Bool × List Nat :=
  match countLoop word (word + 1) (first c.addrs) 0 with
  | none => (.fault, [], false, [])
  | some num =>
    if a.array then
      let r := copyLoop word a num c.strings 0 []
      (r.1, r.2.1, true, r.2.2)
    else (.noMemory, [], false, [])

/-- The strings that are allocated at these addresses. -/
def strings (l : List Nat) : List Block := l.map .string

/-- `camkes_interface_register`, libsel4camkes/src/interface_registration.c:119-200, for a type that has
not been registered. `null` tells whether the type is `PS_NULL_INTERFACE`; `props` is NULL or the array.
Line 169 declares the variable for the copy anew, in a block of its own; line 177 stores the one of line
167, `kept`, in the node. -/
def register (word : Nat) (a : Alloc) (inst : Nat) (null : Bool) (props : Option Caller) : End :=
  if inst = 0 ∧ null = false then ⟨.invalid, none, []⟩
  else if a.outer = false then ⟨.noMemory, none, []⟩
  else if a.node = false then ⟨.noMemory, none, []⟩
  else
    let kept : Option (List String) := none
    match props with
    | none => ⟨.ok, kept, [.outer, .node]⟩
    | some c =>
      let r := copyArray word a c
      let arr := if r.2.2.1 then [Block.array] else []
      match r.1 with
      | .ok => ⟨.ok, kept, [.outer, .node] ++ arr ++ strings r.2.2.2⟩
      | .noMemory => ⟨.noMemory, none, arr ++ strings r.2.2.2⟩
      | o => ⟨o, none, [.outer, .node] ++ arr ++ strings r.2.2.2⟩

end Verif.IfaceProps
