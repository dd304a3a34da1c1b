/-!
# Model: device tree queries (camkes/parser/fdtQueryEngine.py:47-360)

The parsed device tree comes from pyfdt, which is not part of the repository. It is represented by
the device nodes in the order in which `walk` yields them, each with its path and properties.
Regular expressions and the parsing of integers are parameters.
-/

namespace Verif.FdtQuery

/-- The values of a property: `FdtPropertyStrings`, `FdtPropertyWords`, `FdtPropertyBytes`, or
a plain `FdtProperty`. -/
inductive PVal
  | strings (l : List String)
  | words (l : List Int)
  | bytes (l : List Int)
  | plain
  deriving DecidableEq, Repr

structure Property where
  name : String
  val : PVal
  deriving DecidableEq, Repr

structure Node where
  path : String
  props : List Property
  deriving DecidableEq, Repr

/-- Values in a query. -/
inductive AVal
  | str (s : String)
  | int (n : Int)
  | strs (l : List String)
  | ints (l : List Int)
  deriving DecidableEq, Repr

structure Tree where
  /-- device nodes, in the order of `walk` -/
  nodes : List Node
  /-- properties of `/aliases`, if the node exists -/
  aliases : Option (List Property)
  /-- properties of `/chosen`, if the node exists -/
  chosen : Option (List Property)

/-- What the model is parametric in: `re.compile(pattern, re.IGNORECASE).search`, `none` if the
pattern is not valid; and `int(s, 16)` or `int(s, 10)`. -/
structure Env where
  search : String → Option (String → Bool)
  parseInt : String → Option Int

/-- One element of the list given to `query`. -/
structure Query where
  aliasName : Option String
  chosenName : Option String
  path : Option String
  properties : Option (List (String × AVal))

/-- `_parse_key`, camkes/parser/fdtQueryEngine.py:233-269. -/
def parseKey (env : Env) (key : String) : Except String (String × Int) :=
  let cs := key.toList
  let attr := cs.takeWhile (· ≠ '[')
  match cs.dropWhile (· ≠ '[') with
  | [] => .ok (key, 0)
  | _ :: rest =>
    if ']' ∈ rest then
      let idx := String.ofList (((rest.takeWhile (· ≠ ']')).dropWhile (· = ' ')).reverse.dropWhile (· = ' ')).reverse
      if idx = "*" then .ok (String.ofList attr, -1)
      else match env.parseInt idx with
        | some n => .ok (String.ofList attr, n)
        | none => .error "Invalid integer index"
    else .error "incomplete brace notation"

/-- `_get_matching_prop_from_node`, camkes/parser/fdtQueryEngine.py:271-283. -/
def matchingProp (props : List Property) (name : String) : Except String (Option Property) :=
  match props.filter (fun p => p.name = name) with
  | [] => .ok none
  | [p] => .ok (some p)
  | _ => .error "two properties having the same name"

/-- `_compare_node_property_as_string`, camkes/parser/fdtQueryEngine.py:152-171. -/
def compareStrings (l : List String) (index : Int) (v : AVal) : Except String Bool :=
  if index < 0 then
    match v with
    | .strs m => .ok (l.length = m.length && l == m)
    | .ints m => .ok (l.length = m.length && l.isEmpty)
    | _ => .error "AssertionError"
  else
    match v with
    | .str s => if l.length > index.toNat then .ok (l[index.toNat]? == some s) else .ok false
    | _ => .error "values matched against it must also be strings"

/-- `_compare_node_property_as_integers`, camkes/parser/fdtQueryEngine.py:173-202. -/
def compareInts (l : List Int) (index : Int) (v : AVal) (byte : Bool) : Except String Bool :=
  if index < 0 then
    match v with
    | .ints m =>
      if byte && m.any (fun i => !decide (-128 ≤ i ∧ i ≤ 127)) then .error "exceeds size of a byte"
      else .ok (l.length = m.length && l == m)
    | .strs m => if byte && !m.isEmpty then .error "AssertionError" else .ok (l.length = m.length && l.isEmpty)
    | _ => .error "AssertionError"
  else
    match v with
    | .int n => if l.length > index.toNat then .ok (l[index.toNat]? == some n) else .ok false
    | _ => .error "type"

/-- `_compare_node_property_to_attr`, camkes/parser/fdtQueryEngine.py:217-231. The `FdtNop` case
cannot arise, since only instances of `FdtProperty` are considered. -/
def compareProp (p : Property) (index : Int) (v : AVal) : Except String Bool :=
  match p.val with
  | .strings l => compareStrings l index v
  | .words l => compareInts l index v false
  | .bytes l => compareInts l index v true
  | .plain => .error "unexpected type"

/-- `_match_node_by_attrs`, camkes/parser/fdtQueryEngine.py:285-316. -/
def matchNode (env : Env) (n : Node) : List (String × AVal) → Except String Bool
  | [] => .ok true
  | (key, v) :: rest =>
    match parseKey env key with
    | .error e => .error e
    | .ok (name, index) =>
      match matchingProp n.props name with
      | .error e => .error e
      | .ok none => .ok false
      | .ok (some p) =>
        match compareProp p index v with
        | .error e => .error e
        | .ok false => .ok false
        | .ok true => matchNode env n rest

/-- The loops of `_match_nodes_by_attrs`, camkes/parser/fdtQueryEngine.py:323-345. -/
def filterNodes (env : Env) (attrs : List (String × AVal)) : List Node → Except String (List Node)
  | [] => .ok []
  | n :: ns =>
    match matchNode env n attrs with
    | .error e => .error e
    | .ok b =>
      match filterNodes env attrs ns with
      | .error e => .error e
      | .ok r => .ok (if b then n :: r else r)

/-- `_match_nodes_by_attrs`, camkes/parser/fdtQueryEngine.py:318-347: the whole tree is searched
if the given set is empty. -/
def matchByAttrs (env : Env) (t : Tree) (attrs : List (String × AVal)) (set : List Node) :
    Except String (List Node) :=
  if attrs.isEmpty then .ok []
  else if set.isEmpty then filterNodes env attrs t.nodes
  else filterNodes env attrs set

/-- `_match_nodes_by_path`, camkes/parser/fdtQueryEngine.py:114-149. -/
def matchByPath (env : Env) (t : Tree) (pattern : String) : Except String (List Node) :=
  match env.search pattern with
  | none => .error "not a valid regex"
  | some f => .ok (t.nodes.filter (fun n => f n.path))

/-- Substring test. -/
def infixB (a : List Char) : List Char → Bool
  | [] => a.isEmpty
  | c :: cs => a.isPrefixOf (c :: cs) || infixB a cs

/-- `re.compile(re.escape(p), re.IGNORECASE).search(path)`. -/
def literalSearch (p path : String) : Bool :=
  infixB (p.toList.map Char.toLower) (path.toList.map Char.toLower)

/-- The single node for a path, camkes/parser/fdtQueryEngine.py:99-112. -/
def nodeForPath (t : Tree) (p : String) : Except String (List Node) :=
  match t.nodes.filter (fun n => literalSearch p n.path) with
  | [] => .error "resolves to nothing"
  | [n] => .ok [n]
  | _ => .error "resolves to multiple results"

/-- The single string of a property, camkes/parser/fdtQueryEngine.py:66-90. -/
def singleString (node : Option (List Property)) (name : String) : Except String String :=
  match node with
  | none => .error "no such node"
  | some props =>
    match props.find? (fun p => p.name = name) with
    | none => .error "no such instance"
    | some p =>
      match p.val with
      | .strings [s] => .ok s
      | _ => .error "not one string"

/-- `_match_node_by_alias_or_chosen(name, True)`, camkes/parser/fdtQueryEngine.py:47-112. -/
def byAlias (t : Tree) (name : String) : Except String (List Node) :=
  match singleString t.aliases name with
  | .error e => .error e
  | .ok s => nodeForPath t s

/-- `_match_node_by_alias_or_chosen(name, False)`. -/
def byChosen (t : Tree) (name : String) : Except String (List Node) :=
  match singleString t.chosen name with
  | .error e => .error e
  | .ok s =>
    let s := String.ofList (s.toList.takeWhile (· ≠ ':'))
    if s.toList.head? = some '/' then nodeForPath t s else byAlias t s

/-- Python's truth value of an optional string. -/
def given (s : Option String) : Option String := s.filter (· ≠ "")

/-- `_match_attr_dict`, camkes/parser/fdtQueryEngine.py:349-402. -/
def matchQuery (env : Env) (t : Tree) (q : Query) : Except String (List Node) :=
  match given q.aliasName with
  | some a => byAlias t a
  | none =>
    match given q.chosenName with
    | some c => byChosen t c
    | none =>
      let pathMatches := match given q.path with
        | some p => matchByPath env t p
        | none => .ok []
      match pathMatches with
      | .error e => .error e
      | .ok pm =>
        match q.properties with
        | none => .ok pm
        | some attrs => if attrs.isEmpty then .ok pm else matchByAttrs env t attrs pm

/-- `FdtQueryEngine.query`, camkes/parser/fdtQueryEngine.py:407-414. -/
def query (env : Env) (t : Tree) : List Query → Except String (List (List Node))
  | [] => .ok []
  | q :: qs =>
    match matchQuery env t q with
    | .error e => .error e
    | .ok r => match query env t qs with
      | .error e => .error e
      | .ok rs => .ok (r :: rs)

end Verif.FdtQuery
