import Verif.QueryKeys.Model

/-!
# Model: queries in settings (camkes/parser/query.py, camkes/parser/stage3.py:770-785)

Which characters are word characters (`\w`) is a parameter, as in `QueryKeys`. Objects of a result are taken to be fresh for each call
of a query, so that changing them in place changes nothing else.
-/

namespace Verif.Queries

open QueryKeys (Key)

/-- Values of settings and of results of queries. -/
inductive Val
  | int (n : Int)
  | str (s : Key)
  | list (l : List Val)
  | dict (d : List (Key × Val))

/-- Exceptions. -/
inductive Err
  /-- `ParseError("unknown query …")` -/
  | unknown (type : String)
  /-- an exception from the query itself -/
  | query (text : String)
  /-- `KeyError`, `IndexError`, `TypeError`, `AttributeError`, `AssertionError`: errors of the tool -/
  | key | index | type | attr | assertion
  deriving DecidableEq, Repr

/-- What is written in a specification: arguments are dictionaries. -/
structure Query where
  type : String
  args : List (List (Key × Val))
  lookup : Option (List Val)

/-- What an attribute is set to. References to other attributes are resolved later. -/
inductive SVal
  | val (v : Val)
  | query (q : Query)
  | ref (name : String)

/-- camkes/ast/objects.py:541-552. -/
structure Setting where
  inst : String
  attr : String
  value : SVal

/-- An object that answers queries: `resolve` and `get_deps`, query.py:27-66. -/
structure Engine where
  resolve : List (List (Key × Val)) → Except Err (List (Key × Val))
  deps : List String

/-- `item[key]` for these values. -/
def index : Val → Val → Except Err Val
  | .dict d, .str k => match QueryKeys.get d k with | some v => .ok v | none => .error .key
  | .dict _, .int _ => .error .key
  | .dict _, _ => .error .type
  | .list l, .int n =>
    match (if n < 0 then (if -n ≤ l.length then l[(l.length + n).toNat]? else none) else l[n.toNat]?) with
    | some v => .ok v
    | none => .error .index
  | .list _, _ => .error .type
  | .str s, .int n =>
    match (if n < 0 then (if -n ≤ s.length then s[(s.length + n).toNat]? else none) else s[n.toNat]?) with
    | some c => .ok (.str [c])
    | none => .error .index
  | .str _, _ => .error .type
  | .int _, _ => .error .type

/-- `for key in lookup: item = item[key]`, query.py:130-132. -/
def follow : Val → List Val → Except Err Val
  | v, [] => .ok v
  | v, k :: ks => match index v k with | .error e => .error e | .ok w => follow w ks

/-- `for i in range(0, len(s.value))`, query.py:129-134. -/
def followAll (ks : List Val) : List Val → Except Err (List Val)
  | [] => .ok []
  | v :: vs =>
    match follow v ks with
    | .error e => .error e
    | .ok w => match followAll ks vs with | .error e => .error e | .ok ws => .ok (w :: ws)

/-- `update_dict_keys(item)`, query.py:94-100: `item.items()` fails for what is no dictionary. -/
def cleanItem (isWord : Char → Bool) : Val → Except Err Val
  | .dict d => match QueryKeys.updateKeys isWord d with | some d => .ok (.dict d) | none => .error .key
  | _ => .error .attr

/-- `for item in …: update_dict_keys(item)`, query.py:124-125. -/
def cleanAll (isWord : Char → Bool) : List Val → Except Err (List Val)
  | [] => .ok []
  | v :: vs =>
    match cleanItem isWord v with
    | .error e => .error e
    | .ok w => match cleanAll isWord vs with | .error e => .error e | .ok ws => .ok (w :: ws)

/-- `result['query']`. -/
def rows (d : List (Key × Val)) : Except Err (List Val) :=
  match QueryKeys.get d "query".toList with
  | some (.list l) => .ok l
  | some _ => .error .type
  | none => .error .key

/-- The value of one query, query.py:115-134. -/
def answer (isWord : Char → Bool) (e : Engine) (q : Query) : Except Err Val :=
  match e.resolve q.args with
  | .error x => .error x
  | .ok result =>
    match q.lookup with
    | none =>
      match QueryKeys.updateKeys isWord result with
      | none => .error .key
      | some result =>
        match rows result with
        | .error x => .error x
        | .ok l =>
          match cleanAll isWord l with
          | .error x => .error x
          | .ok l => .ok (.dict (QueryKeys.put result "query".toList (.list l)))
    | some ks =>
      match rows result with
      | .error x => .error x
      | .ok l => match followAll ks l with | .error x => .error x | .ok l => .ok (.list l)

/-- The loop over settings, query.py:112-138: the new settings and the types that were used. -/
def loop (isWord : Char → Bool) (queries : List (String × Engine)) : List Setting → Except Err (List Setting × List String)
  | [] => .ok ([], [])
  | s :: rest =>
    match s.value with
    | .query q =>
      match queries.lookup q.type with
      | none => .error (.unknown q.type)
      | some e =>
        match answer isWord e q with
        | .error x => .error x
        | .ok v =>
          match loop isWord queries rest with
          | .error x => .error x
          | .ok (ss, used) => .ok ({ s with value := .val v } :: ss, q.type :: used)
    | _ =>
      match loop isWord queries rest with
      | .error x => .error x
      | .ok (ss, used) => .ok (s :: ss, used)

/-- `resolve`, query.py:103-144. `read` is the set of files read so far. -/
def resolve (isWord : Char → Bool) (queries : List (String × Engine)) (read : List String) (settings : List Setting) :
    Except Err (List Setting × List String) :=
  match loop isWord queries settings with
  | .error x => .error x
  | .ok (ss, used) => .ok (ss, read ++ used.flatMap fun t => ((queries.lookup t).map Engine.deps).getD [])

/-- Arguments that the grammar produces for `query`, camkes/parser/camkes.g:227: `id '(' (dict | dict_list)? ')' dict_lookup?`. -/
inductive Arg
  | dict (d : List (Key × Val))
  | dicts (l : List (List (Key × Val)))
  | lookup (ks : List Val)

/-- `_lift_query`, stage3.py:777-785; a missing argument is a `TypeError`. -/
def liftQuery (type : String) : List Arg → Except Err Query
  | [] => .error .type
  | [.dict d] => .ok ⟨type, [d], none⟩
  | [.dicts l] => .ok ⟨type, l, none⟩
  | [.dict d, .lookup ks] => .ok ⟨type, [d], some ks⟩
  | [.dicts l, .lookup ks] => .ok ⟨type, l, some ks⟩
  | .lookup _ :: _ => .error .assertion
  | [_, _] => .error .assertion
  | _ => .error .type

end Verif.Queries
