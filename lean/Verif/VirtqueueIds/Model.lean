/-!
# Model: ids of virtqueue clients (camkes/templates/macros.py:652-684)

Configured ids are natural numbers. An end of a connection is represented by a key with decidable
equality (`connections.index(end)` uses `==`).
-/

namespace Verif.VirtqueueIds

/-- `for _ in ids: if current_id not in ids: ...; current_id += 1`, camkes/templates/macros.py:678-683:
the id found, if any, and the counter afterwards. -/
def tryId (ids : List (Option Nat)) : Nat → Nat → Option Nat × Nat
  | 0, cur => (none, cur)
  | n + 1, cur => if some cur ∈ ids then tryId ids n (cur + 1) else (some cur, cur + 1)

/-- `for index, c in enumerate(connections): if ids[index] is None: ...`,
camkes/templates/macros.py:676-683, from index `i` on. -/
def fillIds : Nat → Nat → Nat → List (Option Nat) → List (Option Nat)
  | 0, _, _, ids => ids
  | rest + 1, i, cur, ids =>
    match ids[i]? with
    | some none =>
      match tryId ids ids.length cur with
      | (some x, cur') => fillIds rest (i + 1) cur' (ids.set i (some x))
      | (none, cur') => fillIds rest (i + 1) cur' ids
    | _ => fillIds rest (i + 1) cur ids

/-- The ids of all ends of the instance, camkes/templates/macros.py:666-683. -/
def allIds (configured : List (Option Nat)) : List (Option Nat) := fillIds configured.length 0 0 configured

/-- `virtqueue_get_client_id`, camkes/templates/macros.py:652-684. `ends` are the ends at virtqueue
connections of the instance, each with its configured id. -/
def clientId {K : Type} [DecidableEq K] (ends : List (K × Option Nat)) (e : K) : Except String (Option Nat) :=
  match ends.findIdx? (fun x => x.1 = e) with
  | none => .error "ValueError"
  | some i =>
    match (allIds (ends.map (·.2)))[i]? with
    | some id => .ok id
    | none => .error "IndexError"

end Verif.VirtqueueIds
