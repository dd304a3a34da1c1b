import Verif.Runner.Model

/-!
# Model: the files that are generated for a build (camkes/templates/camkes-gen.cmake)

`camkes-gen.cmake` is a template of a CMake file. The CMake file collects, with the function
`CAmkESGen`, three lists (items, output files and templates) which are then given to one call of the
runner (area `Runner`), and the lists of sources of every component instance. Modelled are the
functions `ParentListAppend` and `CAmkESGen`, the part of the template that calls `CAmkESGen`, and the
contents of `camkes.h`.

Texts are lists of characters. A list of CMake is a text with semicolons; here it is the list of its
elements, and `expand` is what an unquoted reference to it becomes.
-/

namespace Verif.GenFiles

open Verif.Runner (Text)

/-- An end of a connection: the name of its instance, the name of its interface, and the end as the
runner sees it (area `Runner`). -/
structure CEnd where
  inst : Text
  iface : Text
  obj : Runner.End
  deriving DecidableEq, Repr

/-- A connection: its name, the name of its type, its ends. -/
structure Conn where
  name : Text
  type : Text
  fromEnds : List CEnd
  toEnds : List CEnd
  deriving DecidableEq, Repr

/-- An instance: its name, the name of its type, its address space, whether its type is a hardware
component, and the settings `environment`, `single_threaded`, `debug`, `simple` and `rump_config`. -/
structure Inst where
  name : Text
  type : Text
  space : Text
  hardware : Bool
  environment : Option Text
  singleThreaded : Bool
  debug : Bool
  simple : Bool
  rump : Bool
  deriving DecidableEq, Repr

/-- `composition.instances` and `composition.connections`. -/
structure Asm where
  insts : List Inst
  conns : List Conn

/-- The properties of the target `CAmkESConnector_<type>`, camkes.cmake:711-757: `CONNECTOR_FROM`,
`CONNECTOR_TO`, `CONNECTOR_CAKEML_TO`, `CONNECTOR_FROM_HEADER` and `CONNECTOR_TO_HEADER`. A property
that is not set is empty. -/
structure Connector where
  from_ : Text
  to_ : Text
  cakemlTo : Text
  fromHeader : Text
  toHeader : Text
  deriving DecidableEq, Repr

/-- `set_property(TARGET ... APPEND PROPERTY ...)` with an unquoted value. -/
def appendProperty (old new : Text) : Text :=
  if new = [] then old else if old = [] then new else old ++ ";".toList ++ new

/-- `DeclareCAmkESConnector`, camkes.cmake:711-757: what a declaration does to the properties of the target,
which are empty before the first one. `d` are the arguments; one that is not given is empty. -/
def declare (old d : Connector) : Connector :=
  ⟨appendProperty old.from_ d.from_, appendProperty old.to_ d.to_, appendProperty old.cakemlTo d.cakemlTo,
   appendProperty old.fromHeader d.fromHeader, appendProperty old.toHeader d.toHeader⟩

/-- The declarations of a connector, in their order. -/
def declared (ds : List Connector) : Connector := ds.foldl declare ⟨[], [], [], [], []⟩

/-- The targets of connectors and of components (`COMPONENT_TEMPLATE_SOURCES` and
`COMPONENT_TEMPLATE_HEADERS`), by the name of the type, and `CMAKE_CURRENT_BINARY_DIR`. -/
structure Env where
  connector : Text → Connector
  templateSources : Text → List Text
  templateHeaders : Text → List Text
  dir : Text

/-- A CMake text, split at semicolons. -/
def semis : Text → Text → List Text
  | cur, [] => [cur]
  | cur, c :: cs => if c = ';' then cur :: semis [] cs else semis (cur ++ [c]) cs

/-- Unquoted arguments: they are split at semicolons, and empty ones vanish (cmake-language, "Unquoted
Argument"). -/
def expand (args : List Text) : List Text := (args.flatMap (semis [])).filter fun t => !t.isEmpty

/-- `ParentListAppend`, camkes/templates/camkes-gen.cmake:59-63: the macro appends `${ARGN}`, which is
unquoted. `l` is the value of the list in the scope of the caller. -/
def append (l : List Text) (args : List Text) : List Text := l ++ expand args

/-- The variables that `CAmkESGen` changes. -/
structure State where
  items : List Text
  outfiles : List Text
  templates : List Text
  /-- `gen_sources` -/
  sources : List Text
  /-- `cakeml_sources` -/
  cakeml : List Text
  /-- `gen_files` -/
  files : List Text
  deriving DecidableEq, Repr

/-- The options of `CAmkESGen`, camkes/templates/camkes-gen.cmake:67. `SOURCES_VAR` is used with
`cakeml_sources` only. -/
structure Flags where
  source : Bool
  cakemlVar : Bool
  cStyle : Bool
  deriving DecidableEq, Repr

/-- `cmake_parse_arguments`, camkes/templates/camkes-gen.cmake:67-70: `none` stands for the fatal error
about unknown arguments. -/
def parseFlags : List Text → Option Flags
  | [] => some ⟨false, false, false⟩
  | a :: as =>
    if a = "SOURCE".toList then (parseFlags as).map fun f => { f with source := true }
    else if a = "C_STYLE".toList then (parseFlags as).map fun f => { f with cStyle := true }
    else if a = "SOURCES_VAR".toList then
      match as with
      | [] => none
      | v :: rest =>
        if v = "cakeml_sources".toList then (parseFlags rest).map fun f => { f with cakemlVar := true } else none
    else none

/-- A call of `CAmkESGen` in the template: the output file and the item are single arguments, the
template may be an unquoted reference to a variable, which is given with its elements. -/
structure Call where
  out : Text
  item : Text
  template : List Text
  flags : List Text
  /-- what is appended to `CAMKES_INTERFACE_INCLUDES` after the call -/
  include_ : Option Text
  deriving DecidableEq, Repr

/-- `CAmkESGen`, camkes/templates/camkes-gen.cmake:66-99, as far as it changes lists. The first three
arguments are the output, the item and the template; too few arguments and unknown arguments are
fatal errors. -/
def camkesGen (s : State) (c : Call) : Option State :=
  match c.template ++ c.flags with
  | [] => none
  | template :: rest =>
    match parseFlags rest with
    | none => none
    | some f => some
        { items := append s.items [c.item]
          outfiles := append s.outfiles [c.out]
          templates := append s.templates [template]
          sources := if f.source && !f.cakemlVar then append s.sources [c.out] else s.sources
          cakeml := if f.source && f.cakemlVar then append s.cakeml [c.out] else s.cakeml
          files := append s.files [c.out] }

/-- A sequence of calls. -/
def runCalls : State → List Call → Option State
  | s, [] => some s
  | s, c :: cs => match camkesGen s c with
    | none => none
    | some s' => runCalls s' cs

/-- `str.lower()`, on ASCII letters. -/
def lower (t : Text) : Text := t.map Char.toLower

/-- `${generated_dir}/x`, camkes/templates/camkes-gen.cmake:212. -/
def inDir (env : Env) (i : Inst) (x : Text) : Text := env.dir ++ "/".toList ++ i.name ++ "/".toList ++ x

/-- `component/<name>`. -/
def componentItem (i : Inst) : Text := "component/".toList ++ i.name

/-- The flags of a C source. -/
def cSource : List Text := ["SOURCE".toList, "C_STYLE".toList]

/-- The flags of a header of a connector. -/
def cHeader : List Text := ["C_STYLE".toList]

/-- The flags of a CakeML source. -/
def mlSource : List Text := ["SOURCE".toList, "SOURCES_VAR".toList, "cakeml_sources".toList]

/-- Number in decimal. -/
def number (n : Nat) : Text := Nat.toDigits 10 n

/-- `unique_name`, camkes/templates/camkes-gen.cmake:243,259. -/
def uniqueName (e : CEnd) (c : Conn) (id : Nat) : Text :=
  e.iface ++ "_".toList ++ c.type ++ "_".toList ++ number id

/-- The item of an end. -/
def endItem (c : Conn) (dir : Text) (id : Nat) : Text :=
  "connector/".toList ++ c.name ++ "/".toList ++ dir ++ "/".toList ++ number id

/-- A header of a connector, if there is a template for it, camkes/templates/camkes-gen.cmake:248-252,274-278. -/
def headerCall (env : Env) (i : Inst) (c : Conn) (dir : Text) (id : Nat) (e : CEnd) (template : Text) : List Call :=
  if template = [] then []
  else [⟨inDir env i ("include/".toList ++ uniqueName e c id ++ ".h".toList), endItem c dir id, expand [template],
    cHeader, some (uniqueName e c id ++ ".h".toList)⟩]

/-- A source of a connector. -/
def sourceCall (env : Env) (i : Inst) (c : Conn) (dir : Text) (id : Nat) (e : CEnd) (template : Text) : List Call :=
  [⟨inDir env i (uniqueName e c id ++ ".c".toList), endItem c dir id, expand [template], cSource, none⟩]

/-- A `from` end, camkes/templates/camkes-gen.cmake:242-257. -/
def fromCalls (env : Env) (i : Inst) (c : Conn) (id : Nat) (e : CEnd) : List Call :=
  if e.inst = i.name then
    sourceCall env i c "from".toList id e (env.connector c.type).from_ ++
      headerCall env i c "from".toList id e (env.connector c.type).fromHeader
  else []

/-- `configuration[i.name].get('environment', 'c').lower()`. -/
def environmentOf (i : Inst) : Text := lower (i.environment.getD "c".toList)

/-- A `to` end, camkes/templates/camkes-gen.cmake:258-284. -/
def toCalls (env : Env) (i : Inst) (c : Conn) (id : Nat) (e : CEnd) : List Call :=
  if e.inst = i.name then
    if environmentOf i = "cakeml".toList then
      if (env.connector c.type).cakemlTo = [] then
        sourceCall env i c "to".toList id e (env.connector c.type).to_
      else
        [⟨inDir env i "connectorScript.sml".toList, endItem c "to".toList id,
          expand [(env.connector c.type).cakemlTo], mlSource, none⟩]
    else
      sourceCall env i c "to".toList id e (env.connector c.type).to_ ++
        headerCall env i c "to".toList id e (env.connector c.type).toHeader
  else []

/-- `enumerate`. -/
def enumFrom {α : Type} : Nat → List α → List (Nat × α)
  | _, [] => []
  | n, x :: xs => (n, x) :: enumFrom (n + 1) xs

/-- The connections, camkes/templates/camkes-gen.cmake:241-285. -/
def connCalls (env : Env) (i : Inst) (c : Conn) : List Call :=
  (enumFrom 0 c.fromEnds).flatMap (fun x => fromCalls env i c x.1 x.2) ++
    (enumFrom 0 c.toEnds).flatMap (fun x => toCalls env i c x.1 x.2)

/-- The last component of a path, `get_filename_component(... NAME)`. -/
def baseName : Text → Text
  | [] => []
  | c :: cs => if '/' ∈ cs then baseName cs else if c = '/' then cs else c :: cs

/-- A file from a fixed template. -/
def fixed (env : Env) (i : Inst) (file template : String) (flags : List Text) (inc : Option Text) : Call :=
  ⟨inDir env i file.toList, componentItem i, [template.toList], flags, inc⟩

/-- The environment, camkes/templates/camkes-gen.cmake:225-234: `none` is the exception `Unknown
environment`. The condition of the `elif` asks again, without the default. -/
def environmentCalls (env : Env) (i : Inst) : Option (List Call) :=
  if environmentOf i = "c".toList then
    some [fixed env i "camkes.environment.c" "component.environment.c" cSource none]
  else if lower (i.environment.getD []) = "cakeml".toList then
    some [fixed env i "camkesStartScript.sml" "component.environment.start.cakeml" mlSource none,
      fixed env i "camkesConstants.sml" "camkesConstants.sml" mlSource none,
      fixed env i "camkesEndScript.sml" "component.environment.end.cakeml" mlSource none]
  else none

/-- The optional files, camkes/templates/camkes-gen.cmake:301-315. -/
def optionalCalls (env : Env) (i : Inst) : List Call :=
  (if i.singleThreaded then
    [fixed env i "seL4SingleThreadedComponent.template.c" "seL4SingleThreadedComponent.template.c" cSource none,
     fixed env i "include/seL4SingleThreadedComponent.template.h" "seL4SingleThreadedComponent.template.h" cSource
       (some "seL4SingleThreadedComponent.template.h".toList)]
    else []) ++
  (if i.debug then [fixed env i "camkes.debug.c" "component.debug.c" cSource none] else []) ++
  (if i.simple then [fixed env i "camkes.simple.c" "component.simple.c" cSource none] else []) ++
  (if i.rump then [fixed env i "camkes.rumprun.c" "component.rumprun.c" cSource none] else [])

/-- The templates of the user, camkes/templates/camkes-gen.cmake:286-300. -/
def templateCalls (env : Env) (i : Inst) : List Call :=
  (env.templateSources i.type).map (fun t => ⟨inDir env i (baseName t), componentItem i, expand [t], cSource, none⟩) ++
  (env.templateHeaders i.type).map (fun t =>
    ⟨inDir env i ("include/".toList ++ baseName t), componentItem i, expand [t], cHeader, some (baseName t)⟩)

/-- All calls for an instance, camkes/templates/camkes-gen.cmake:212-315. -/
def instCalls (env : Env) (a : Asm) (i : Inst) : Option (List Call) :=
  match environmentCalls env i with
  | none => none
  | some es => some
      ([fixed env i "camkes.c" "component.common.c" cSource none,
        ⟨inDir env i ("include/".toList ++ "camkes-component-".toList ++ i.name ++ ".h".toList), componentItem i,
          ["component.template.h".toList], [], none⟩] ++
      es ++ [fixed env i "linker.lds" "linker.lds" [] none] ++
      a.conns.flatMap (connCalls env i) ++ templateCalls env i ++ optionalCalls env i)

/-- The contents of `camkes.h`, camkes/templates/camkes-gen.cmake:317-322. -/
def camkesH (i : Inst) (calls : List Call) : Text :=
  "#pragma once\n\n#include \"".toList ++ ("camkes-component-".toList ++ i.name ++ ".h".toList) ++ "\"\n".toList ++
    (calls.filterMap (·.include_)).flatMap fun x => "#include \"".toList ++ x ++ "\"\n".toList

/-- What is built for an instance: its sources (`add_executable`,
camkes/templates/camkes-gen.cmake:329-333), its CakeML sources, all its generated files (lines 325-326)
and its `camkes.h`. `static_sources` and the sources of the component in CakeML are left out. -/
structure Build where
  inst : Text
  sources : List Text
  cakeml : List Text
  files : List Text
  header : Text
  deriving DecidableEq, Repr

/-- The loop over the instances, camkes/templates/camkes-gen.cmake:184-391. -/
def instLoop (env : Env) (a : Asm) : State → List Inst → Option (State × List Build)
  | s, [] => some (s, [])
  | s, i :: is =>
    if i.hardware then instLoop env a s is
    else
      match instCalls env a i with
      | none => none
      | some cs =>
        match runCalls { s with sources := [], cakeml := [], files := [] } cs with
        | none => none
        | some s' =>
          match instLoop env a s' is with
          | none => none
          | some (s'', bs) => some (s'', ⟨i.name, s'.sources, s'.cakeml, s'.files, camkesH i cs⟩ :: bs)

/-- The call for the graph of the assembly, camkes/templates/camkes-gen.cmake:179. -/
def graphCall (env : Env) : Call :=
  ⟨env.dir ++ "/graph.dot".toList, "assembly/".toList, ["graph.dot".toList], [], none⟩

/-- The lists that are given to the runner by `CAmkESOutputGenCommand`,
camkes/templates/camkes-gen.cmake:104-163,521, and what is built for the instances. -/
def generate (env : Env) (a : Asm) : Option (State × List Build) :=
  match camkesGen ⟨[], [], [], [], [], []⟩ (graphCall env) with
  | none => none
  | some s => instLoop env a s a.insts

/-- The assembly as the runner sees it. -/
def forRunner (a : Asm) : Runner.Assembly :=
  ⟨a.insts.map fun i => ⟨i.name, i.space⟩,
   a.conns.map fun c => ⟨c.name, c.fromEnds.map (·.obj), c.toEnds.map (·.obj)⟩⟩

end Verif.GenFiles
