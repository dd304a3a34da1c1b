/-!
# Model: consolidation of N-1 connections (camkes/parser/stage9.py)

Connections are identified by their position in the assembly (their names are distinct, so they
are pairwise different objects). `E` are connection ends, compared structurally as the code
does; `T` are connector types. Python sets are duplicate-free lists; the order of a Python set
is not observable in what is stated about the result.
-/

namespace Verif.Consolidate

structure Conn (E T : Type) where
  name : String
  type : T
  froms : List E
  tos : List E
  deriving DecidableEq, Repr

inductive Err
  | parseError   -- different connectors involved
  | valueError   -- `list.remove(x): x not in list`
  deriving DecidableEq, Repr

variable {E T : Type} [DecidableEq E] [DecidableEq T]

/-- `s.add(x)` / `s |= {x}`. -/
def insertSet {α : Type} [DecidableEq α] (s : List α) (x : α) : List α :=
  if x ∈ s then s else s ++ [x]

/-- The body of the inner loop of `add_connections`, camkes/parser/stage9.py:36-40. -/
def addEnd : List (E × List Nat) → E → Nat → List (E × List Nat)
  | [], e, c => [(e, [c])]
  | (e', s) :: rest, e, c =>
    if e' = e then (e', insertSet s c) :: rest else (e', s) :: addEnd rest e c

/-- All (end, connection) pairs in the order visited, camkes/parser/stage9.py:34-35. -/
def pairs (conns : List (Conn E T)) : List (E × Nat) :=
  (List.range conns.length).flatMap fun c =>
    match conns[c]? with
    | some k => (k.tos ++ k.froms).map fun e => (e, c)
    | none => []

/-- `add_connections`, camkes/parser/stage9.py:32-41. -/
def addConnections (conns : List (Conn E T)) : List (E × List Nat) :=
  (pairs conns).foldl (fun m p => addEnd m p.1 p.2) []

/-- One iteration of the merging loop, camkes/parser/stage9.py:49-56: `i` is merged into the
first set it meets, otherwise appended. -/
def mergeInto : List (List Nat) → List Nat → List (List Nat)
  | [], i => [i]
  | j :: rest, i =>
    if i.any (fun x => j.contains x) then i.foldl insertSet j :: rest else j :: mergeInto rest i

/-- `multi` after the loop, camkes/parser/stage9.py:48-56. -/
def multi (cands : List (E × List Nat)) : List (List Nat) :=
  (cands.map Prod.snd).foldl mergeInto []

/-- The set of all ends of one side of the given connections, camkes/parser/stage9.py:64-65. -/
def endsOf (side : Conn E T → List E) (conns : List (Conn E T)) (s : List Nat) : List E :=
  s.foldl (fun acc c => match conns[c]? with
    | some k => (side k).foldl insertSet acc
    | none => acc) []

/-- The common connector type, camkes/parser/stage9.py:66-75. -/
def commonType : List T → Option T → Except Err (Option T)
  | [], t => .ok t
  | x :: xs, none => commonType xs (some x)
  | x :: xs, some t => if x = t then commonType xs (some t) else .error .parseError

/-- An entry of the assembly's connection list: an original connection (with its number) or a
new one. -/
abbrev Item (E T : Type) := Option Nat × Conn E T

/-- `connections.remove(c)`, camkes/parser/stage9.py:92. -/
def removeConn : List (Item E T) → Nat → Except Err (List (Item E T))
  | [], _ => .error .valueError
  | x :: xs, c =>
    if x.1 = some c then .ok xs
    else match removeConn xs c with
      | .error e => .error e
      | .ok ys => .ok (x :: ys)

def removeAll : List (Item E T) → List Nat → Except Err (List (Item E T))
  | xs, [] => .ok xs
  | xs, c :: cs =>
    match removeConn xs c with
    | .error e => .error e
    | .ok ys => removeAll ys cs

/-- `".".join(sorted([...]))`, camkes/parser/stage9.py:63. -/
def joinNames (l : List String) : String := ".".intercalate (l.mergeSort (fun a b => decide (a ≤ b)))

/-- The connection replacing a set of connections, camkes/parser/stage9.py:63-76. -/
def build (conns : List (Conn E T)) (s : List Nat) : Except Err (Option (Conn E T)) :=
  match commonType (s.filterMap fun c => (conns[c]?).map (·.type)) none with
  | .error e => .error e
  | .ok none => .ok none
  | .ok (some t) => .ok (some ⟨joinNames (s.filterMap fun c => (conns[c]?).map (·.name)), t,
      endsOf (·.froms) conns s, endsOf (·.tos) conns s⟩)

/-- The loop of `Parse9.transform` over the results of `consolidate`,
camkes/parser/stage9.py:60-77 and 90-93. -/
def replaceLoop (conns : List (Conn E T)) : List (Item E T) → List (List Nat) → Except Err (List (Item E T))
  | xs, [] => .ok xs
  | xs, s :: rest =>
    if s.length = 1 then replaceLoop conns xs rest
    else match build conns s with
      | .error e => .error e
      | .ok none => replaceLoop conns xs rest
      | .ok (some k) =>
        match removeAll xs s with
        | .error e => .error e
        | .ok ys => replaceLoop conns (ys ++ [(none, k)]) rest

/-- `Parse9.transform`, camkes/parser/stage9.py:86-95. -/
def transform (conns : List (Conn E T)) : Except Err (List (Conn E T)) :=
  let items : List (Item E T) := (List.range conns.length).filterMap fun c =>
    (conns[c]?).map fun k => (some c, k)
  match replaceLoop conns items (multi (addConnections conns)) with
  | .error e => .error e
  | .ok ys => .ok (ys.map Prod.snd)

end Verif.Consolidate
