/-!
# Model: badges (camkes/templates/macros.py:532-646, camkes/templates/rpc-connector.c:30-62)

`bb` is the libsel4 constant `seL4_Value_BadgeBits`. Instances and connection ends are numbers
(the code compares them by identity). Exceptions are values of type `Except`. Masks, bases and
badges are non-negative.
-/

namespace Verif.Badges

/-! ## Notifications on the global endpoint -/

/-- `set_next_badge` of `global_endpoint_badges`, camkes/templates/macros.py:545-554. The recursion
is bounded by `fuel`; `bb + 1` rounds are always enough (see the proofs). -/
def nextBit (bb mask : Nat) : Nat → Nat → Except String Nat
  | 0, _ => .error "RecursionError"
  | fuel + 1, next =>
    if next ≥ 2 ^ bb then .error "Couldn't allocate notification badge"
    else
      let next := if next = 0 then 1 else next <<< 1
      if next &&& mask = 0 then nextBit bb mask fuel next else .ok next

/-- `set_next_badge(next_badge, mask)`. -/
def setNextBit (bb mask next : Nat) : Except String Nat := nextBit bb mask (bb + 2) next

/-- An end of a connection and its instance. -/
structure End where
  id : Nat
  inst : Nat
  deriving DecidableEq, Repr

/-- What the loop looks at in a connection. -/
structure Conn where
  /-- the connector is `seL4DTBHardwareThreadless` or `seL4DTBHWThreadless` -/
  threadless : Bool
  /-- the connector has a true default for `from_global_endpoint` -/
  fromGlobal : Bool
  toGlobal : Bool
  fromEnds : List End
  toEnds : List End

/-- The configuration of an end: `generate_interrupts`, and the number of interrupts of its device
tree node (or the exception that reading them raises). -/
structure IrqCfg where
  generate : End → Bool
  irqs : End → Except String Nat

/-- Steps of the loop over the connections, camkes/templates/macros.py:562-584: a group of
interrupts, or one badge. -/
inductive Item
  | irqs (e : End) (n : Except String Nat)
  | one (e : End)

/-- The steps for one connection. -/
def connItems (cfg : IrqCfg) (inst : Nat) (c : Conn) : List Item :=
  (if c.threadless && c.toEnds.any (fun e => e.inst = inst) then
      (c.toEnds.filter cfg.generate).map (fun e => Item.irqs e (cfg.irqs e)) else []) ++
  (if c.fromGlobal then (c.fromEnds.filter (fun e => e.inst = inst)).map Item.one else []) ++
  (if c.toGlobal then (c.toEnds.filter (fun e => e.inst = inst)).map Item.one else [])

/-- `for i in irqs: irq_badges.append(next_badge | base); next_badge = set_next_badge(...)`,
camkes/templates/macros.py:569-571. -/
def takeBadges (bb mask base : Nat) : Nat → Nat → Except String (List Nat × Nat)
  | 0, next => .ok ([], next)
  | n + 1, next =>
    match setNextBit bb mask next with
    | .error e => .error e
    | .ok next' =>
      match takeBadges bb mask base n next' with
      | .error e => .error e
      | .ok (bs, last) => .ok ((next ||| base) :: bs, last)

/-- The loop, camkes/templates/macros.py:562-586. The result is the list of badges; an end of a
connection with the global endpoint gets a single one. -/
def badgeLoop (bb mask base : Nat) (e : End) : List Item → Nat → Except String (List Nat)
  | [], _ => .error "Couldn't allocate notification badge"
  | .irqs _ (.error err) :: _, _ => .error err
  | .irqs o (.ok n) :: rest, next =>
    match takeBadges bb mask base n next with
    | .error err => .error err
    | .ok (bs, next') => if e.id = o.id then .ok bs else badgeLoop bb mask base e rest next'
  | .one o :: rest, next =>
    if e.id = o.id then .ok [next ||| base]
    else match setNextBit bb mask next with
      | .error err => .error err
      | .ok next' => badgeLoop bb mask base e rest next'

/-- `global_endpoint_badges`, camkes/templates/macros.py:532-586, for the base and mask configured
for the instance of the end. -/
def globalBadges (bb mask base : Nat) (cfg : IrqCfg) (conns : List Conn) (e : End) : Except String (List Nat) :=
  match setNextBit bb mask 0 with
  | .error err => .error err
  | .ok first => badgeLoop bb mask base e (conns.flatMap (connItems cfg e.inst)) first

/-- The mask used if none is configured, camkes/templates/macros.py:558-559. -/
def defaultMask (bb base : Nat) : Nat := (2 ^ bb - 1) ^^^ ((2 ^ bb - 1) &&& base)

/-! ## Clients of the global RPC endpoint -/

/-- `set_next_badge` of `global_rpc_endpoint_badges`, camkes/templates/macros.py:610-619. The bits
of the badge outside the mask (`~mask & next_badge`) are `next ^^^ (next &&& mask)`. -/
def nextSub (bb mask : Nat) : Nat → Nat → Except String Nat
  | 0, _ => .error "RecursionError"
  | fuel + 1, next =>
    if next ≥ min (2 ^ bb) mask then .error "Couldn't allocate endpoint badge"
    else if next &&& mask = next then .ok next
    else nextSub bb mask fuel ((next ^^^ (next &&& mask)) + next)

/-- `set_next_badge(next_badge, mask)`. -/
def setNextSub (bb mask next : Nat) : Except String Nat := nextSub bb mask (mask + 1) next

/-- What the loop looks at in a connection. -/
structure RpcConn where
  fromGlobal : Bool
  toGlobal : Bool
  fromEnds : List End
  toEnds : List End

/-- The steps of the loop, camkes/templates/macros.py:626-644: an end of the instance with the
number of ends on the other side. -/
def rpcItems (inst : Nat) (c : RpcConn) : List (End × Nat) :=
  (if c.fromGlobal then (c.fromEnds.filter (fun e => e.inst = inst)).map (fun e => (e, c.toEnds.length)) else []) ++
  (if c.toGlobal then (c.toEnds.filter (fun e => e.inst = inst)).map (fun e => (e, c.fromEnds.length)) else [])

/-- `for i2 in c.to_ends: badges.append(...); next_badge = set_next_badge(next_badge+1, mask)`,
camkes/templates/macros.py:630-632. -/
def takeSubs (bb mask base : Nat) : Nat → Nat → Except String (List Nat × Nat)
  | 0, next => .ok ([], next)
  | n + 1, next =>
    match setNextSub bb mask (next + 1) with
    | .error e => .error e
    | .ok next' =>
      match takeSubs bb mask base n next' with
      | .error e => .error e
      | .ok (bs, last) => .ok ((next ||| base) :: bs, last)

/-- The loop, camkes/templates/macros.py:626-646. -/
def rpcLoop (bb mask base : Nat) (e : End) : List (End × Nat) → Nat → Except String (List Nat)
  | [], _ => .error "Couldn't allocate notification badge"
  | (o, n) :: rest, next =>
    match takeSubs bb mask base n next with
    | .error err => .error err
    | .ok (bs, next') => if e.id = o.id then .ok bs else rpcLoop bb mask base e rest next'

/-- `global_rpc_endpoint_badges`, camkes/templates/macros.py:594-646. -/
def rpcBadges (bb mask base : Nat) (conns : List RpcConn) (e : End) : Except String (List Nat) :=
  match setNextSub bb mask 1 with
  | .error err => .error err
  | .ok first => rpcLoop bb mask base e (conns.flatMap (rpcItems e.inst)) first

/-! ## Clients of one RPC connection -/

/-- `for _ in namespace.badges: if next[0] in namespace.badges: next[0] += 1`,
camkes/templates/rpc-connector.c:54-58. -/
def skipUsed (badges : List (Option Nat)) : Nat → Nat → Nat
  | 0, next => next
  | n + 1, next => skipUsed badges n (if some next ∈ badges then next + 1 else next)

/-- The loop that fills in missing badges, camkes/templates/rpc-connector.c:51-61, from index `i`
for the remaining ends. -/
def fillBadges : Nat → Nat → Nat → List (Option Nat) → List (Option Nat)
  | 0, _, _, badges => badges
  | rest + 1, i, next, badges =>
    match badges[i]? with
    | some none =>
      let next := skipUsed badges badges.length next
      fillBadges rest (i + 1) next (badges.set i (some next))
    | _ => fillBadges rest (i + 1) next badges

/-- `allocate_badges`, camkes/templates/rpc-connector.c:30-62, from the explicitly configured
badges of the from ends. -/
def allocateBadges (explicit : List (Option Nat)) : List (Option Nat) :=
  fillBadges explicit.length 0 1 explicit

end Verif.Badges
