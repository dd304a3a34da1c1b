import Verif.NumExpr.Model
import Verif.Lift.Model

/-!
# Model: lifting whole declarations (camkes/parser/stage3.py)

`lift_raw` turns the tree of one top level declaration into an AST object. A tree is what
plyplus returns for the grammar camkes/parser/camkes.g: a rule with more than one child has
its anonymous tokens and keywords filtered out, a sole token is kept, rules that begin with
`@` are expanded into their parent. A numeric expression is a leaf here; its lifting is
`Verif.NumExpr.lift`. Strings are lists of characters.

Simplifications: source locations and parent pointers are left out; an anonymous struct has
no name here instead of a fresh one; a number that is not an integer is an outcome of its own
(`Err.float`) that is not followed. Arguments that no tree of the grammar gives a lifter are
an assertion failure here, whatever exception Python would raise.
-/

namespace Verif.Decls

abbrev Str := List Char

/-- The characters of a word that the code spells out. -/
@[irreducible] def kw (s : String) : Str := s.toList

/-- Outcomes: `ParseError` (also any other exception, stage3.py:131-138), `AssertionError`
(re-raised as it is, stage3.py:129-130), and a numeric value that is not an integer. -/
inductive Err
  | parse
  | assertion
  | float
  deriving DecidableEq, Repr

/-- The grammar rules that appear as nodes (camkes.g:81-227; the keys of `LIFT`,
stage3.py:794-884), without those of numeric expressions. -/
inductive Head
  | angleString | assemblyDecl | assemblyDefn | attributeDecl | attributeArrayParameter
  | attributeReference | attributeScalarParameter | char | componentDecl | componentDefn
  | componentRef | compositionDecl | compositionDefn | compositionSing | configurationDecl
  | configurationDefn | configurationSing | scheduleDefn | scheduleItem | scheduleUnit
  | connectionDefn | connectionEnd | connectorDecl | connectorDefn | connectorEndType
  | connectorRef | consumes | control | dataport | dataportType | dict | dictLookup | dictList
  | direction | emits | exportStmt | fromKw | groupDecl | groupDefn | hardware | hardwareBare
  | id | includeStmt | instanceDefn | int64 | list | maybe | methodArrayParameter | methodDecl
  | methodScalarParameter | multiString | mutexDecl | procedureDecl | procedureDefn | provides
  | quotedString | reference | semaphore | binarySemaphore | setting | signedChar | signedInt
  | structType | structDefn | structDecl | structRef | toKw | type | unsignedChar | unsignedInt
  | uint64 | uses | query
  deriving DecidableEq, Repr

/-- A plyplus tree: a token, a numeric expression (`precedence11` or `number`), or a node. -/
inductive Tree
  | tok (s : Str)
  | num (e : NumExpr.Tree)
  | node (head : Head) (tail : List Tree)

/-- The types a `Reference` can be given (the second argument of `Reference` in
stage3.py:228, 274, 303, 322, 357-361, 443, 498-500, 675, 767). -/
inductive Kind
  | component | composition | configuration | connector | procedure | struct | instanceK
  | interface
  deriving DecidableEq, Repr

/-- Keys of a dictionary and of a dictionary lookup: Python `int` or `str`. -/
inductive Key
  | num (n : Int)
  | str (s : Str)
  deriving DecidableEq, Repr

/-- Python values that lifting gives: plain values and the classes of
camkes/ast/objects.py. -/
inductive Obj
  | str (s : Str)
  | num (n : Int)
  | list (xs : List Obj)
  | dict (d : List (Key × Obj))
  | tree (t : Tree)
  | unit (ticks : Bool)
  /-- A schedule item: domain, duration and, if written, the unit. -/
  | slot (domain duration : Int) (ticks : Option Bool)
  | incl (source : Str) (relative : Bool)
  | ref (name : List Str) (type : Option Kind)
  | schedule (items : List Obj)
  | assembly (name : Option Str) (composition configuration schedule : Obj)
  | composition (name : Option Str) (instances connections groups exports : List Obj)
  | configuration (name : Option Str) (settings : List Obj)
  | setting (inst attr : Str) (value : Obj)
  | struct (name : Option Str) (attributes : List Obj)
  | component (name : Option Str) (includes : List Obj) (control hardware : Bool)
      (provides uses emits consumes dataports attributes mutexes semaphores
        binarySemaphores : List Obj) (composition configuration : Option Obj)
  | provides (type : Obj) (name : Str)
  | uses (type : Obj) (name : Str) (optional : Bool)
  | emits (type name : Str)
  | consumes (type name : Str) (optional : Bool)
  | dataport (type name : Str) (optional : Bool)
  | mutexO (name : Str)
  | semaphore (name : Str)
  | binarySemaphore (name : Str)
  | connector (c : Lift.Connector Obj)
  | group (name : Option Str) (instances : List Obj)
  | procedure (name : Option Str) (includes methods attributes : List Obj)
  | method (name : Str) (returnType : Option Str) (parameters : List Obj)
  | attribute (type : Obj) (name : Str) (array : Bool) (default : Option Obj)
  | parameter (name direction type : Str) (array : Bool)
  | connEnd (isFrom : Bool) (inst : Option Obj) (interface : Obj)
  | connection (type : Obj) (name : Str) (fromEnds toEnds : List Obj)
  | inst (type : Obj) (name : Str)
  | exportO (sourceInstance sourceInterface destination : Obj)
  | attrRef (reference : Str) (lookup : Option (List Key))
  | lookup (keys : List Key)
  | queryO (type : Str) (args : List Obj) (lookup : Option (List Key))

/-! ### `isinstance` tests -/

/-- `isinstance(x, Composition)` (stage3.py:171, 248, 300). -/
def isComposition : Obj → Bool | .composition .. => true | _ => false
/-- `isinstance(x, Configuration)` (stage3.py:174, 251, 319). -/
def isConfiguration : Obj → Bool | .configuration .. => true | _ => false
/-- `isinstance(x, Schedule)` (stage3.py:177). -/
def isSchedule : Obj → Bool | .schedule .. => true | _ => false
/-- `isinstance(x, Include)` (stage3.py:254, 668). -/
def isInclude : Obj → Bool | .incl .. => true | _ => false
/-- `isinstance(x, Provides)` (stage3.py:257). -/
def isProvides : Obj → Bool | .provides .. => true | _ => false
/-- `isinstance(x, Uses)` (stage3.py:258). -/
def isUses : Obj → Bool | .uses .. => true | _ => false
/-- `isinstance(x, Emits)` (stage3.py:259). -/
def isEmits : Obj → Bool | .emits .. => true | _ => false
/-- `isinstance(x, Consumes)` (stage3.py:260). -/
def isConsumes : Obj → Bool | .consumes .. => true | _ => false
/-- `isinstance(x, Dataport)` (stage3.py:261). -/
def isDataport : Obj → Bool | .dataport .. => true | _ => false
/-- `isinstance(x, Attribute)` (stage3.py:262, 428, 670). -/
def isAttribute : Obj → Bool | .attribute .. => true | _ => false
/-- `isinstance(x, Mutex)` (stage3.py:263). -/
def isMutex : Obj → Bool | .mutexO .. => true | _ => false
/-- `isinstance(x, Semaphore)` (stage3.py:264). -/
def isSemaphore : Obj → Bool | .semaphore .. => true | _ => false
/-- `isinstance(x, BinarySemaphore)` (stage3.py:265). -/
def isBinarySemaphore : Obj → Bool | .binarySemaphore .. => true | _ => false
/-- `isinstance(x, Instance)` (stage3.py:292; objects.py:849). -/
def isInstance : Obj → Bool | .inst .. => true | _ => false
/-- `isinstance(x, Connection)` (stage3.py:293). -/
def isConnection : Obj → Bool | .connection .. => true | _ => false
/-- `isinstance(x, Group)` (stage3.py:294). -/
def isGroup : Obj → Bool | .group .. => true | _ => false
/-- `isinstance(x, Export)` (stage3.py:295). -/
def isExport : Obj → Bool | .exportO .. => true | _ => false
/-- `isinstance(x, Method)` (stage3.py:669). -/
def isMethod : Obj → Bool | .method .. => true | _ => false
/-- `isinstance(x, Parameter)` (objects.py:890). -/
def isParameter : Obj → Bool | .parameter .. => true | _ => false
/-- `isinstance(x, dict)` (stage3.py:778-782). -/
def isDict : Obj → Bool | .dict .. => true | _ => false
/-- `x == text` for the membership tests `'control' in args` (stage3.py:255-256). -/
def isStr (text : Str) : Obj → Bool | .str s => s == text | _ => false
/-- The types that `Schedule.items` admits (objects.py:148-151). -/
def isSlot : Obj → Bool | .slot .. => true | _ => false

/-! ### Plain values -/

/-- `x[1:-1]`. -/
def inner (s : Str) : Str := (s.drop 1).dropLast

/-- `strip_quotes`, camkes/parser/stage3.py:141-147. -/
def stripQuotes : Obj → Except Err Obj
  | .str [] => .error .parse
  | .str (c :: s) =>
    if c = '"' ∧ (c :: s).getLast? = some '"' then .ok (.str (inner (c :: s)))
    else .error .assertion
  | o => .ok o

/-- A lifted and stripped key as a dictionary key; an unhashable key is a `TypeError`. -/
def toKey : Obj → Except Err Key
  | .num n => .ok (.num n)
  | .str s => .ok (.str s)
  | _ => .error .parse

/-- The comprehension of `_lift_dict`, camkes/parser/stage3.py:480-481; `pairwise` 53-55
drops an odd last argument. -/
def liftPairs (d : List (Key × Obj)) : List Obj → Except Err (List (Key × Obj))
  | k :: v :: rest =>
    match stripQuotes k with
    | .error e => .error e
    | .ok k' =>
      match stripQuotes v with
      | .error e => .error e
      | .ok v' =>
        match toKey k' with
        | .error e => .error e
        | .ok key => liftPairs (Lift.dictSet d key v') rest
  | _ => .ok d

/-- `[strip_quotes(x) for x in args]`, camkes/parser/stage3.py:541-542. -/
def stripAll : List Obj → Except Err (List Obj)
  | [] => .ok []
  | x :: xs =>
    match stripQuotes x with
    | .error e => .error e
    | .ok x' =>
      match stripAll xs with
      | .error e => .error e
      | .ok xs' => .ok (x' :: xs')

/-- `''.join(x[1:-1] for x in strings)`, camkes/parser/stage3.py:565. -/
def joinInner : List Obj → Except Err Str
  | [] => .ok []
  | .str s :: rest =>
    match joinInner rest with
    | .error e => .error e
    | .ok t => .ok (inner s ++ t)
  | _ => .error .assertion

/-- `_lift_multi_string`, camkes/parser/stage3.py:562-565. -/
def liftMultiString (args : List Obj) : Except Err Obj :=
  match args with
  | [] => .error .assertion
  | _ =>
    match joinInner args with
    | .error e => .error e
    | .ok s => .ok (.str ('"' :: (s ++ ['"'])))

/-- `''.join(str(x.tail[0][1:-1]) for x in source.tail)`, camkes/parser/stage3.py:521. -/
def joinTails : List Tree → Except Err Str
  | [] => .ok []
  | .node _ (.tok s :: _) :: rest =>
    match joinTails rest with
    | .error e => .error e
    | .ok t => .ok (inner s ++ t)
  | _ => .error .parse

/-- `_lift_include`, camkes/parser/stage3.py:519-526. -/
def liftInclude : List Obj → Except Err Obj
  | [.tree (.node .multiString ts)] =>
    match joinTails ts with
    | .error e => .error e
    | .ok s => .ok (.incl s true)
  | [.tree (.node .angleString (.tok s :: _))] => .ok (.incl (inner s) false)
  | _ => .error .assertion

/-- All arguments as strings (identifiers). -/
def strs : List Obj → Except Err (List Str)
  | [] => .ok []
  | .str s :: rest =>
    match strs rest with
    | .error e => .error e
    | .ok t => .ok (s :: t)
  | _ => .error .assertion

/-- All arguments as dictionary keys, for a lookup. -/
def keys : List Obj → Except Err (List Key)
  | [] => .ok []
  | o :: rest =>
    match toKey o with
    | .error e => .error e
    | .ok k =>
      match keys rest with
      | .error e => .error e
      | .ok t => .ok (k :: t)

/-- `_lift_reference`, camkes/parser/stage3.py:678-679; a `Reference` needs at least one name
(objects.py:137-138). -/
def liftReference (args : List Obj) : Except Err Obj :=
  match strs args with
  | .error e => .error e
  | .ok [] => .error .assertion
  | .ok ns => .ok (.ref ns none)

/-- `_lift_dict_lookup`, camkes/parser/stage3.py:770-774. Simplification: a lookup holds
keys. -/
def liftDictLookup (args : List Obj) : Except Err Obj :=
  match stripAll args with
  | .error e => .error e
  | .ok xs =>
    match keys xs with
    | .error e => .error e
    | .ok ks => .ok (.lookup ks)

/-- `'.'.join(args)`. -/
def joinDots : List Str → Str
  | [] => []
  | [s] => s
  | s :: rest => s ++ '.' :: joinDots rest

/-- `_lift_attribute_reference`, camkes/parser/stage3.py:192-198. -/
def liftAttributeReference (args : List Obj) : Except Err Obj :=
  match args.getLast? with
  | some (.lookup ks) =>
    match strs args.dropLast with
    | .error e => .error e
    | .ok ns => .ok (.attrRef (joinDots ns) (some ks))
  | _ =>
    match strs args with
    | .error e => .error e
    | .ok ns => .ok (.attrRef (joinDots ns) none)

/-- `_lift_query`, camkes/parser/stage3.py:777-785. A call with only the type is a
`TypeError`, reported as a parse error (131-138). -/
def liftQuery : List Obj → Except Err Obj
  | [.str t, .dict d] => .ok (.queryO t [.dict d] none)
  | [.str t, .dict d, .lookup ks] => .ok (.queryO t [.dict d] (some ks))
  | [.str t, .list xs] => if xs.all isDict then .ok (.queryO t xs none) else .error .assertion
  | [.str t, .list xs, .lookup ks] =>
    if xs.all isDict then .ok (.queryO t xs (some ks)) else .error .assertion
  | [.str _] => .error .parse
  | _ => .error .assertion

/-- The types that `Setting.value` admits (objects.py:539-540): not a reference. -/
def settable : Obj → Bool
  | .num _ | .str _ | .list _ | .dict _ | .attrRef .. | .queryO .. => true
  | _ => false

/-- `_lift_setting`, camkes/parser/stage3.py:716-718. -/
def liftSetting : List Obj → Except Err Obj
  | [.str i, .str a, item] =>
    match stripQuotes item with
    | .error e => .error e
    | .ok v => if settable v then .ok (.setting i a v) else .error .assertion
  | _ => .error .assertion

/-! ### Types, attributes and methods -/

/-- `normalise_type`, camkes/ast/type.py:14-26. -/
def normaliseType (t : Str) : Str :=
  if t = (kw "integer") then (kw "int")
  else if t = (kw "signed int") then (kw "int")
  else if t = (kw "unsigned integer") then (kw "unsigned int")
  else if t = (kw "bool") then (kw "boolean")
  else t

/-- `_lift_type`, camkes/parser/stage3.py:737-741; looking up a `Struct` in the table finds
nothing. -/
def liftType : List Obj → Except Err Obj
  | [.ref ns k] => .ok (.ref ns k)
  | [.str s] => .ok (.str (normaliseType s))
  | [o] => .ok o
  | _ => .error .assertion

/-- `_lift_struct_ref`, camkes/parser/stage3.py:224-228. -/
def liftStructRef : List Obj → Except Err Obj
  | [.struct n as] => .ok (.struct n as)
  | [.ref ns _] => .ok (.ref ns (some .struct))
  | _ => .error .assertion

/-- `_lift_struct_defn`, camkes/parser/stage3.py:219-221; the attributes' type is asserted
at objects.py:580-581. -/
def liftStructDefn (args : List Obj) : Except Err Obj :=
  if args.isEmpty then .error .assertion
  else if args.all isAttribute then .ok (.struct none args) else .error .assertion

/-- `_lift_struct_decl`, camkes/parser/stage3.py:215-216. -/
def liftStructDecl : List Obj → Except Err Obj
  | [.str n, .struct _ as] => .ok (.struct (some n) as)
  | _ => .error .assertion

/-- `type.startswith("struct ")`. -/
def startsStruct (t : Str) : Bool := (kw "struct ").isPrefixOf t

/-- `_lift_attribute_scalar_parameter`, camkes/parser/stage3.py:697-705. -/
def liftAttributeScalar : List Obj → Except Err Obj
  | [.str t, .str n] =>
    if startsStruct t then .error .parse else .ok (.attribute (.str t) n false none)
  | [.ref ns k, .str n] => .ok (.attribute (.ref ns k) n false none)
  | [.struct s as, .str n] => .ok (.attribute (.struct s as) n false none)
  | _ => .error .assertion

/-- `_lift_attribute_array_parameter`, camkes/parser/stage3.py:155-156. -/
def liftAttributeArray : List Obj → Except Err Obj
  | [.attribute t n _ _] => .ok (.attribute t n true none)
  | _ => .error .assertion

/-- The types that `Attribute.default` admits (objects.py:923). -/
def isValue : Obj → Bool
  | .num _ | .str _ | .list _ | .dict _ => true
  | _ => false

/-- `_lift_attribute`, camkes/parser/stage3.py:184-189. -/
def liftAttribute : List Obj → Except Err Obj
  | [.attribute t n a _] => .ok (.attribute t n a none)
  | [.attribute t n a _, d] =>
    match stripQuotes d with
    | .error e => .error e
    | .ok v => if isValue v then .ok (.attribute t n a (some v)) else .error .assertion
  | _ => .error .assertion

/-- The type of a method or parameter: a reference must be a single name
(stage3.py:551-555, 690-693); anything but a string fails the property's assertion
(objects.py:888, 958). -/
def methodType : Obj → Except Err Str
  | .str t => .ok t
  | .ref [n] _ => .ok (normaliseType n)
  | .ref _ _ => .error .parse
  | _ => .error .assertion

/-- The values that `Parameter.direction` admits (objects.py:957). -/
def isDirection (d : Str) : Bool :=
  d == (kw "in") || d == (kw "inout") || d == (kw "out") || d == (kw "refin")

/-- `Parameter(id, direction, type)`, camkes/parser/stage3.py:690-694. -/
def mkParameter (d : Str) (t : Obj) (n : Str) : Except Err Obj :=
  match methodType t with
  | .error e => .error e
  | .ok ty => if isDirection d then .ok (.parameter n d ty false) else .error .assertion

/-- `_lift_method_scalar_parameter`, camkes/parser/stage3.py:682-694. -/
def liftMethodScalar : List Obj → Except Err Obj
  | [t, .str n] => mkParameter (kw "in") t n
  | [.str d, t, .str n] => mkParameter d t n
  | _ => .error .assertion

/-- `_lift_method_array_parameter`, camkes/parser/stage3.py:150-152. -/
def liftMethodArray : List Obj → Except Err Obj
  | [.parameter n d t _] => .ok (.parameter n d t true)
  | _ => .error .assertion

/-- `Method(id, return_type, list(args[1:]))`, camkes/parser/stage3.py:558-559. -/
def mkMethod (n : Str) (ret : Option Str) (ps : List Obj) : Except Err Obj :=
  if ps.all isParameter then .ok (.method n ret ps) else .error .assertion

/-- `_lift_method_decl`, camkes/parser/stage3.py:549-559: when the second argument is a
string, the first is the return type. -/
def liftMethodDecl : List Obj → Except Err Obj
  | t :: .str n :: ps =>
    match methodType t with
    | .error e => .error e
    | .ok ty => mkMethod n (some ty) ps
  | .str n :: ps => mkMethod n none ps
  | _ => .error .assertion

/-- `_lift_procedure_defn`, camkes/parser/stage3.py:667-671. -/
def liftProcedureDefn (args : List Obj) : Except Err Obj :=
  .ok (.procedure none (args.filter isInclude) (args.filter isMethod) (args.filter isAttribute))

/-- `_lift_procedure_decl`, camkes/parser/stage3.py:658-664. -/
def liftProcedureDecl : List Obj → Except Err Obj
  | [.str n, .procedure _ is ms as] => .ok (.procedure (some n) is ms as)
  | [o] => .ok o
  | _ => .error .assertion

/-! ### Components -/

/-- `_lift_component_defn`, camkes/parser/stage3.py:247-267. -/
def liftComponentDefn (args : List Obj) : Except Err Obj :=
  let compositions := args.filter isComposition
  let configurations := args.filter isConfiguration
  if compositions.length ≤ 1 ∧ configurations.length ≤ 1 then
    .ok (.component none (args.filter isInclude) (args.any (isStr (kw "control")))
      (args.any (isStr (kw "hardware"))) (args.filter isProvides) (args.filter isUses)
      (args.filter isEmits) (args.filter isConsumes) (args.filter isDataport)
      (args.filter isAttribute) (args.filter isMutex) (args.filter isSemaphore)
      (args.filter isBinarySemaphore) compositions.head? configurations.head?)
  else .error .assertion

/-- `_lift_component_decl`, camkes/parser/stage3.py:231-244. -/
def liftComponentDecl : List Obj → Except Err Obj
  | [.str n, .component _ is c h p u e cs d a m s b comp conf] =>
    .ok (.component (some n) is c h p u e cs d a m s b comp conf)
  | [o] => .ok o
  | _ => .error .assertion

/-- `_lift_component_ref`, camkes/parser/stage3.py:270-274. -/
def liftComponentRef : List Obj → Except Err Obj
  | [.component n is c h p u e cs d a m s b comp conf] =>
    .ok (.component n is c h p u e cs d a m s b comp conf)
  | [.ref ns _] => .ok (.ref ns (some .component))
  | _ => .error .assertion

/-- `_lift_consumes`, camkes/parser/stage3.py:450-457. -/
def liftConsumes : List Obj → Except Err Obj
  | [_, .str t, .str n] => .ok (.consumes t n true)
  | [.str t, .str n] => .ok (.consumes t n false)
  | _ => .error .assertion

/-- `_lift_dataport`, camkes/parser/stage3.py:460-467. -/
def liftDataport : List Obj → Except Err Obj
  | [_, .str t, .str n] => .ok (.dataport t n true)
  | [.str t, .str n] => .ok (.dataport t n false)
  | _ => .error .assertion

/-- `_lift_dataport_type`, camkes/parser/stage3.py:470-477. -/
def liftDataportType : List Obj → Except Err Obj
  | [.str t] => .ok (.str t)
  | [.num n] =>
    if n ≤ 0 then .error .parse
    else .ok (.str ((kw "Buf(") ++ (toString n).toList ++ (kw ")")))
  | _ => .error .assertion

/-- `_lift_emits`, camkes/parser/stage3.py:488-489. -/
def liftEmits : List Obj → Except Err Obj
  | [.str t, .str n] => .ok (.emits t n)
  | _ => .error .assertion

/-- `_lift_provides`, camkes/parser/stage3.py:674-675. -/
def liftProvides : List Obj → Except Err Obj
  | [.ref ns _, .str n] => .ok (.provides (.ref ns (some .procedure)) n)
  | _ => .error .assertion

/-- `_lift_uses`, camkes/parser/stage3.py:760-767. -/
def liftUses : List Obj → Except Err Obj
  | [_, .ref ns _, .str n] => .ok (.uses (.ref ns (some .procedure)) n true)
  | [.ref ns _, .str n] => .ok (.uses (.ref ns (some .procedure)) n false)
  | _ => .error .assertion

/-- `_lift_mutex`, camkes/parser/stage3.py:568-569. -/
def liftMutex : List Obj → Except Err Obj
  | [.str n] => .ok (.mutexO n)
  | _ => .error .assertion

/-- `_lift_semaphore`, camkes/parser/stage3.py:708-709. -/
def liftSemaphore : List Obj → Except Err Obj
  | [.str n] => .ok (.semaphore n)
  | _ => .error .assertion

/-- `_lift_binary_semaphore`, camkes/parser/stage3.py:712-713. -/
def liftBinarySemaphore : List Obj → Except Err Obj
  | [.str n] => .ok (.binarySemaphore n)
  | _ => .error .assertion

/-! ### Compositions -/

/-- `_lift_composition_defn`, camkes/parser/stage3.py:291-296. -/
def liftCompositionDefn (args : List Obj) : Except Err Obj :=
  .ok (.composition none (args.filter isInstance) (args.filter isConnection)
    (args.filter isGroup) (args.filter isExport))

/-- `_lift_composition_decl`, camkes/parser/stage3.py:277-288. -/
def liftCompositionDecl : List Obj → Except Err Obj
  | [.str n, .composition _ is cs gs es] => .ok (.composition (some n) is cs gs es)
  | [.composition _ is cs gs es] => .ok (.composition none is cs gs es)
  | _ => .error .assertion

/-- `_lift_composition_sing`, camkes/parser/stage3.py:299-303. -/
def liftCompositionSing : List Obj → Except Err Obj
  | [.composition n is cs gs es] => .ok (.composition n is cs gs es)
  | [.ref ns _] => .ok (.ref ns (some .composition))
  | _ => .error .assertion

/-- `_lift_instance_defn`, camkes/parser/stage3.py:537-538; the type is a reference or a
component (objects.py:357). -/
def liftInstanceDefn : List Obj → Except Err Obj
  | [.ref ns k, .str n] => .ok (.inst (.ref ns k) n)
  | [.component m is c h p u e cs d a mu s b comp conf, .str n] =>
    .ok (.inst (.component m is c h p u e cs d a mu s b comp conf) n)
  | _ => .error .assertion

/-- `_lift_group_defn`, camkes/parser/stage3.py:515-516; objects.py:848-849. -/
def liftGroupDefn (args : List Obj) : Except Err Obj :=
  if args.all isInstance then .ok (.group none args) else .error .assertion

/-- `_lift_group_decl`, camkes/parser/stage3.py:507-512. -/
def liftGroupDecl : List Obj → Except Err Obj
  | [.str n, .group _ is] => .ok (.group (some n) is)
  | [.group _ is] => .ok (.group none is)
  | _ => .error .assertion

/-- `_lift_connection_end`, camkes/parser/stage3.py:355-361. -/
def liftConnectionEnd : List Obj → Except Err Obj
  | [.str e, .ref ns _] =>
    if e = (kw "from") ∨ e = (kw "to") then
      .ok (.connEnd (e == (kw "from"))
        (if ns.length > 1 then some (.ref ns.dropLast (some .instanceK)) else none)
        (.ref ns (some .interface)))
    else .error .assertion
  | _ => .error .assertion

/-- `e.end == 'from'` (stage3.py:351). -/
def isFromEnd : Obj → Bool | .connEnd true _ _ => true | _ => false
/-- `e.end == 'to'` (stage3.py:352). -/
def isToEnd : Obj → Bool | .connEnd false _ _ => true | _ => false

/-- `_lift_connection_defn`, camkes/parser/stage3.py:350-352; the type is a reference or a
connector (objects.py:380). -/
def liftConnectionDefn : List Obj → Except Err Obj
  | .ref ns k :: .str n :: ends =>
    .ok (.connection (.ref ns k) n (ends.filter isFromEnd) (ends.filter isToEnd))
  | .connector c :: .str n :: ends =>
    .ok (.connection (.connector c) n (ends.filter isFromEnd) (ends.filter isToEnd))
  | _ => .error .assertion

/-- `_lift_export`, camkes/parser/stage3.py:492-500. -/
def liftExport : List Obj → Except Err Obj
  | [.ref src _, .ref dst _] =>
    if src.length < 2 then .error .parse
    else .ok (.exportO (.ref src.dropLast (some .instanceK)) (.ref src (some .interface))
      (.ref dst (some .interface)))
  | _ => .error .assertion

/-- The arguments of `_lift_connector_defn` as `Verif.Lift` has them: the bare keyword
`hardware`, an end type, a number or an attribute; anything else is an assertion failure
(stage3.py:428-429). -/
def toArgs : List Obj → Except Err (List (Lift.Arg Obj))
  | [] => .ok []
  | o :: rest =>
    let a : Except Err (Lift.Arg Obj) := match o with
      | .str s => .ok (if s = (kw "hardware") then .hardware else .endType (String.ofList s))
      | .num n => .ok (.num n)
      | .attribute t n ar d => .ok (.attr (.attribute t n ar d))
      | _ => .error .assertion
    match a with
    | .error e => .error e
    | .ok a =>
      match toArgs rest with
      | .error e => .error e
      | .ok as => .ok (a :: as)

/-- The outcomes of `Verif.Lift` among those here. -/
def ofLift : Except Lift.Err (Lift.Connector Obj) → Except Err Obj
  | .ok c => .ok (.connector c)
  | .error .parseError => .error .parse
  | .error .assertion => .error .assertion

/-- `_lift_connector_defn`, camkes/parser/stage3.py:383-436 (`Verif.Lift`). -/
def liftConnectorDefn (args : List Obj) : Except Err Obj :=
  match toArgs args with
  | .error e => .error e
  | .ok as => ofLift (Lift.liftConnectorDefn as)

/-- `_lift_connector_decl`, camkes/parser/stage3.py:364-380 (`Verif.Lift`). -/
def liftConnectorDecl : List Obj → Except Err Obj
  | [.str n, .connector c] => ofLift (Lift.liftConnectorDecl (some (String.ofList n)) c)
  | [o] => .ok o
  | _ => .error .assertion

/-- `_lift_connector_ref`, camkes/parser/stage3.py:439-443. -/
def liftConnectorRef : List Obj → Except Err Obj
  | [.connector c] => .ok (.connector c)
  | [.ref ns _] => .ok (.ref ns (some .connector))
  | _ => .error .assertion

/-! ### Configurations, schedules and assemblies -/

/-- `_lift_configuration_defn`, camkes/parser/stage3.py:314-315. -/
def liftConfigurationDefn (args : List Obj) : Except Err Obj := .ok (.configuration none args)

/-- `_lift_configuration_decl`, camkes/parser/stage3.py:306-311. -/
def liftConfigurationDecl : List Obj → Except Err Obj
  | [.str n, .configuration _ ss] => .ok (.configuration (some n) ss)
  | [o] => .ok o
  | _ => .error .assertion

/-- `_lift_configuration_sing`, camkes/parser/stage3.py:318-322. -/
def liftConfigurationSing : List Obj → Except Err Obj
  | [.configuration n ss] => .ok (.configuration n ss)
  | [.ref ns _] => .ok (.ref ns (some .configuration))
  | _ => .error .assertion

/-- `_lift_schedule_unit`, camkes/parser/stage3.py:330-338. -/
def liftScheduleUnit : List Obj → Except Err Obj
  | [.str s] =>
    if s = (kw "ticks") then .ok (.unit true)
    else if s = (kw "us") then .ok (.unit false)
    else .error .parse
  | _ => .error .assertion

/-- `_lift_schedule_item`, camkes/parser/stage3.py:341-347. -/
def liftScheduleItem : List Obj → Except Err Obj
  | [.num d, .num n, .unit u] => .ok (.slot d n (some u))
  | [.num d, .num n] => .ok (.slot d n none)
  | _ => .error .assertion

/-- `_lift_schedule_decl`, camkes/parser/stage3.py:325-327; objects.py:148-151. -/
def liftSchedule (args : List Obj) : Except Err Obj :=
  if args.all isSlot then .ok (.schedule args) else .error .assertion

/-- `_lift_assembly_defn`, camkes/parser/stage3.py:170-181, and `Assembly.__init__`,
objects.py:172-183: a missing configuration or schedule is an empty one. -/
def liftAssemblyDefn (args : List Obj) : Except Err Obj :=
  match args.filter isComposition with
  | [composition] =>
    if (args.filter isConfiguration).length ≤ 1 ∧ (args.filter isSchedule).length ≤ 1 then
      .ok (.assembly none composition
        ((args.filter isConfiguration).head?.getD (.configuration none []))
        ((args.filter isSchedule).head?.getD (.schedule [])))
    else .error .assertion
  | _ => .error .assertion

/-- `_lift_assembly_decl`, camkes/parser/stage3.py:159-167. -/
def liftAssemblyDecl : List Obj → Except Err Obj
  | [.str n, .assembly _ c f s] => .ok (.assembly (some n) c f s)
  | [.assembly _ c f s] => .ok (.assembly none c f s)
  | _ => .error .assertion

/-- `_collapse`, camkes/parser/stage3.py:788-789. -/
def collapse : List Obj → Except Err Obj
  | [o] => .ok o
  | _ => .error .parse

/-- The dispatch table `LIFT`, camkes/parser/stage3.py:794-884, without numeric expressions;
the keyword lifters are `_lift_char` 211-212, `_lift_control` 446-447, `_lift_from` 503-504,
`_lift_int64_t` 529-530, `_lift_hardware` 533-534, `_lift_signed_char` 721-722,
`_lift_signed_int` 725-726, `_lift_struct_type` 729-730, `_lift_to` 733-734,
`_lift_unsigned_char` 748-749, `_lift_unsigned_int` 752-753, `_lift_uint64_t` 756-757;
`_lift_dict_list` 484-485. -/
def lifter : Head → List Obj → Except Err Obj
  | .angleString => collapse
  | .assemblyDecl => liftAssemblyDecl
  | .assemblyDefn => liftAssemblyDefn
  | .attributeDecl => liftAttribute
  | .attributeArrayParameter => liftAttributeArray
  | .attributeReference => liftAttributeReference
  | .attributeScalarParameter => liftAttributeScalar
  | .char => fun _ => .ok (.str (kw "char"))
  | .componentDecl => liftComponentDecl
  | .componentDefn => liftComponentDefn
  | .componentRef => liftComponentRef
  | .compositionDecl => liftCompositionDecl
  | .compositionDefn => liftCompositionDefn
  | .compositionSing => liftCompositionSing
  | .configurationDecl => liftConfigurationDecl
  | .configurationDefn => liftConfigurationDefn
  | .configurationSing => liftConfigurationSing
  | .scheduleDefn => liftSchedule
  | .scheduleItem => liftScheduleItem
  | .scheduleUnit => liftScheduleUnit
  | .connectionDefn => liftConnectionDefn
  | .connectionEnd => liftConnectionEnd
  | .connectorDecl => liftConnectorDecl
  | .connectorDefn => liftConnectorDefn
  | .connectorEndType => collapse
  | .connectorRef => liftConnectorRef
  | .consumes => liftConsumes
  | .control => fun _ => .ok (.str (kw "control"))
  | .dataport => liftDataport
  | .dataportType => liftDataportType
  | .dict => fun args => match liftPairs [] args with
    | .error e => .error e
    | .ok d => .ok (.dict d)
  | .dictLookup => liftDictLookup
  | .dictList => fun args => .ok (.list args)
  | .direction => collapse
  | .emits => liftEmits
  | .exportStmt => liftExport
  | .fromKw => fun _ => .ok (.str (kw "from"))
  | .groupDecl => liftGroupDecl
  | .groupDefn => liftGroupDefn
  | .hardware => fun _ => .ok (.str (kw "hardware"))
  | .hardwareBare => collapse
  | .id => collapse
  | .includeStmt => liftInclude
  | .instanceDefn => liftInstanceDefn
  | .int64 => fun _ => .ok (.str (kw "int64_t"))
  | .list => fun args => match stripAll args with
    | .error e => .error e
    | .ok xs => .ok (.list xs)
  | .maybe => collapse
  | .methodArrayParameter => liftMethodArray
  | .methodDecl => liftMethodDecl
  | .methodScalarParameter => liftMethodScalar
  | .multiString => liftMultiString
  | .mutexDecl => liftMutex
  | .procedureDecl => liftProcedureDecl
  | .procedureDefn => liftProcedureDefn
  | .provides => liftProvides
  | .quotedString => collapse
  | .reference => liftReference
  | .semaphore => liftSemaphore
  | .binarySemaphore => liftBinarySemaphore
  | .setting => liftSetting
  | .signedChar => fun _ => .ok (.str (kw "signed char"))
  | .signedInt => fun _ => .ok (.str (kw "int"))
  | .structType => fun args => match args with
    | [.str n] => .ok (.str ((kw "struct ") ++ n))
    | _ => .error .assertion
  | .structDefn => liftStructDefn
  | .structDecl => liftStructDecl
  | .structRef => liftStructRef
  | .toKw => fun _ => .ok (.str (kw "to"))
  | .type => liftType
  | .unsignedChar => fun _ => .ok (.str (kw "unsigned char"))
  | .unsignedInt => fun _ => .ok (.str (kw "unsigned int"))
  | .uint64 => fun _ => .ok (.str (kw "uint64_t"))
  | .uses => liftUses
  | .query => liftQuery

/-- `DONT_DESCEND`, camkes/parser/stage3.py:60-79. -/
def dontDescend : Head → Bool
  | .angleString | .char | .connectorEndType | .control | .direction | .fromKw | .hardware
  | .id | .includeStmt | .maybe | .quotedString | .signedChar | .signedInt | .toKw
  | .unsignedChar | .unsignedInt => true
  | _ => false

/-- A child that is not descended into, as the lifter sees it (stage3.py:117-118): a token is
a string. -/
def raw : Tree → Obj
  | .tok s => .str s
  | t => .tree t

mutual
/-- `lift_raw`, camkes/parser/stage3.py:110-138: a token is its text, the children are lifted
first, left to right. Numeric expressions are `Verif.NumExpr.lift`. -/
def lift : Tree → Except Err Obj
  | .tok s => .ok (.str s)
  | .num e =>
    match NumExpr.lift e with
    | .ok n => .ok (.num n)
    | .error .parseError => .error .parse
    | .error .notInteger => .error .float
  | .node h ts =>
    if dontDescend h then lifter h (ts.map raw)
    else
      match liftAll ts with
      | .error e => .error e
      | .ok args => lifter h args
/-- `[lift_raw(t) for t in term.tail]`, camkes/parser/stage3.py:120; also `lift`, 105-107, on
the declarations of a file. -/
def liftAll : List Tree → Except Err (List Obj)
  | [] => .ok []
  | t :: ts =>
    match lift t with
    | .error e => .error e
    | .ok o =>
      match liftAll ts with
      | .error e => .error e
      | .ok os => .ok (o :: os)
end

end Verif.Decls
