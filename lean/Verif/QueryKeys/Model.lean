/-!
# Model: normalising the keys of a query result (camkes/parser/query.py:94-100)

A dictionary is the list of its entries in insertion order. Keys are lists of characters. Which
characters are word characters (`\w`) is a parameter.
-/

namespace Verif.QueryKeys

abbrev Key := List Char

variable {V : Type}

/-- `d[k]`. -/
def get (d : List (Key × V)) (k : Key) : Option V := (d.find? (fun e => e.1 = k)).map (·.2)

/-- `del d[k]`; `none` if there is no such key. -/
def del (d : List (Key × V)) (k : Key) : Option (List (Key × V)) :=
  if d.any (fun e => e.1 = k) then some (d.filter (fun e => !decide (e.1 = k))) else none

/-- `d[k] = v`. -/
def put (d : List (Key × V)) (k : Key) (v : V) : List (Key × V) :=
  if d.any (fun e => e.1 = k) then d.map (fun e => if e.1 = k then (k, v) else e) else d ++ [(k, v)]

/-- `re.compile(r'^\w+$').match(key)`: `$` also matches in front of a final newline. -/
def isIdent (isWord : Char → Bool) (k : Key) : Bool :=
  (!k.isEmpty && k.all isWord) ||
    (k.getLast? == some '\n' && !k.dropLast.isEmpty && k.dropLast.all isWord)

/-- The new key, camkes/parser/query.py:98-99. -/
def sanitise (isWord : Char → Bool) (k : Key) : Key :=
  if isIdent isWord k then k else k.map (fun c => if isWord c then c else '_')

/-- The loop body of `update_dict_keys`, camkes/parser/query.py:96-100. -/
def step (isWord : Char → Bool) (d : List (Key × V)) (e : Key × V) : Option (List (Key × V)) :=
  (del d e.1).map (fun d' => put d' (sanitise isWord e.1) e.2)

/-- `update_dict_keys`, camkes/parser/query.py:94-100; `none` is `KeyError`. -/
def updateKeys (isWord : Char → Bool) (d : List (Key × V)) : Option (List (Key × V)) :=
  d.foldlM (step isWord) d

end Verif.QueryKeys
