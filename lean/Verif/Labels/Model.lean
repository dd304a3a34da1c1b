/-!
# Model: integrity labels (camkes/templates/macros.py:473-526)
-/

namespace Verif.Labels

/-- An instance: its name, its address space, and the `integrity_label` of its configuration. -/
structure Inst where
  name : String
  addressSpace : String
  label : Option String

/-- A connection and the names of the instances at its ends. -/
structure Conn where
  name : String
  ends : List String

/-- A dictionary. -/
abbrev Dict := List (String × String)

/-- `k in d` / `d[k]`. -/
def get (d : Dict) (k : String) : Option String := (d.find? (fun p => p.1 = k)).map (·.2)

/-- `d[k] = v`. -/
def put : Dict → String → String → Dict
  | [], k, v => [(k, v)]
  | (k', v') :: d, k, v => if k' = k then (k, v) :: d else (k', v') :: put d k v

/-- The loop of `get_canonical_label`, camkes/templates/macros.py:495-502; one more round than there
are keys is always enough (see the proofs). -/
def canonLoop (d : Dict) : Nat → List String → String → Except String String
  | 0, _, _ => .error "does not end"
  | fuel + 1, seen, group =>
    match get d group with
    | none => .ok group
    | some g => if g ∈ seen then .error "cycle in group labelling" else canonLoop d fuel (seen ++ [g]) g

/-- `get_canonical_label`, camkes/templates/macros.py:493-502. -/
def canon (d : Dict) (l : String) : Except String String := canonLoop d (d.length + 1) [l] l

/-- One assignment `group_labels[c] = get_canonical_label(l)`. -/
def assign (d : Dict) (c l : String) : Except String Dict :=
  match canon d l with
  | .error e => .error e
  | .ok g => .ok (put d c g)

/-- Step 1, camkes/templates/macros.py:507-509. -/
def groups : List Inst → Dict → Except String Dict
  | [], d => .ok d
  | i :: is, d =>
    if i.addressSpace ≠ i.name then
      match assign d i.name i.addressSpace with
      | .error e => .error e
      | .ok d' => groups is d'
    else groups is d

/-- Step 2, camkes/templates/macros.py:512-515. -/
def configured : List Inst → Dict → Except String Dict
  | [], d => .ok d
  | i :: is, d =>
    match i.label with
    | some l =>
      match assign d i.name l with
      | .error e => .error e
      | .ok d' => configured is d'
    | none => configured is d

/-- The canonical labels of some names. -/
def canonAll (d : Dict) : List String → Except String (List String)
  | [] => .ok []
  | x :: xs =>
    match canon d x with
    | .error e => .error e
    | .ok g =>
      match canonAll d xs with
      | .error e => .error e
      | .ok gs => .ok (g :: gs)

/-- Step 3, camkes/templates/macros.py:518-522. -/
def internal : List Conn → Dict → Except String Dict
  | [], d => .ok d
  | c :: cs, d =>
    match canonAll d c.ends with
    | .error e => .error e
    | .ok gs =>
      match gs.eraseDups with
      | [g] => internal cs (put d c.name g)
      | _ => internal cs d

/-- The dictionary that is returned, camkes/templates/macros.py:524-527. -/
def finish (d : Dict) : Dict → Except String Dict
  | [] => .ok []
  | (c, g) :: rest =>
    match canon d g with
    | .error e => .error e
    | .ok l =>
      match finish d rest with
      | .error e => .error e
      | .ok r => .ok ((c, l) :: r)

/-- `integrity_group_labels`, camkes/templates/macros.py:473-527. -/
def labels (is : List Inst) (cs : List Conn) : Except String Dict :=
  match groups is [] with
  | .error e => .error e
  | .ok d1 =>
    match configured is d1 with
    | .error e => .error e
    | .ok d2 =>
      match internal cs d2 with
      | .error e => .error e
      | .ok d3 => finish d3 d3

end Verif.Labels
