/-!
# Model: how an application describes its build (camkes.cmake)

The build scripts of an application call functions of `camkes.cmake` in some order: they declare the root of
the system, components, extensions of instances, and paths. At some point `GenerateCAmkESRootserver` is called,
which runs the parser and then the runner for `camkes-gen.cmake`, and includes that file. The model is a machine
over these calls. Its state is the global properties and the properties of the targets.

A list of CMake is the list of its elements, none of which is empty or has a semicolon. CMake reads properties in
two ways: `get_property` in `camkes-gen.cmake` gives the value at the time of the inclusion, and
`$<TARGET_PROPERTY:...>` the value after all scripts have run.
-/

namespace Verif.BuildApi

/-- The configuration, camkes.cmake:44-236, 238-247. -/
structure Config where
  /-- `CAmkESVerbose` -/
  verbose : Bool
  /-- `CAmkESCPP` -/
  cpp : Bool
  /-- `CAmkESAllowForwardReferences` -/
  forward : Bool
  /-- `CAmkESDTS` -/
  dts : Bool
  /-- `CAmkESDefaultStackSize` -/
  stackSize : String
  /-- `CAmkESDefaultPriority` -/
  priority : Int
  /-- `CAmkESDefaultAffinity` -/
  affinity : Int
  /-- `KernelMaxNumNodes` -/
  nodes : Int
  /-- `KernelSel4Arch` -/
  arch : String
  /-- `KernelIsMCS` -/
  mcs : Bool
  /-- `CAmkESRPCLockElision` -/
  lockElision : Bool
  /-- `CAmkESProvideTCBCaps` -/
  tcbCaps : Bool
  /-- `CAmkESLargeFramePromotion` -/
  largeFrames : Bool
  /-- `CAmkESDMALargeFramePromotion` -/
  largeDma : Bool
  /-- `CAmkESFaultHandlers` -/
  faultHandlers : Bool
  /-- `C_PREPROCESSOR`, if it was found -/
  cppBin : Option String
  /-- `KernelDTBPath` -/
  kernelDtb : String
  /-- the list of GPIO pins of the platform, if it has one (camkes.cmake:456-465) -/
  gpioList : Option String

/-- The world outside. -/
structure Env extends Config where
  /-- `get_absolute_list_source_or_binary`: a path that is given in a script in this directory -/
  abs : String → String → String
  /-- `EXISTS`; files neither come nor go while the scripts run -/
  present : String → Bool
  /-- the file that `GenDTB` makes from a file -/
  genDtb : String → String
  /-- a number as text -/
  num : Int → String
  /-- `CAMKES_TOOL_BUILTIN_DIR` -/
  builtin : String
  /-- `CMAKE_CURRENT_BINARY_DIR` of the script that generates, and its source directory -/
  bin : String
  src : String
  /-- whether the parser and the runner succeed with these arguments -/
  parserOk : List String → Bool
  runnerOk : List String → Bool

/-- The calls; the first argument is the directory of the script. -/
inductive Call
  | rootserver (dir adl : String) (args : List String)
  | component (dir name : String) (args : List String)
  | extend (dir comp inst : String) (args : List String)
  | addImport (dir : String) (paths : List String)
  | maybeImport (dir : String) (paths : List String)
  | addTemplates (dir : String) (paths : List String)
  | addCpp (dir : String) (paths : List String)
  | generate
  deriving DecidableEq, Repr

/-- The fatal errors. -/
inductive Err
  | alreadyDeclared | notDeclared | bothTrees | noDts | noDtb | noCpp | badPriority | badAffinity | cppDisabled
  | lateImport | lateTemplates | parserFailed | runnerFailed | twice
  deriving DecidableEq, Repr

/-- The properties of all targets. -/
abbrev Props := String → String → List String

/-- The global properties, the properties of targets, and what the last generation ran and saw. -/
structure State where
  /-- `CAMKES_ROOT_DECLARED` -/
  declared : Bool
  /-- `CAMKES_ROOT_ADL` -/
  adl : String
  /-- `CAMKES_ROOT_CPP_FLAGS` -/
  cppFlags : List String
  /-- `CAMKES_ROOT_DTS_FILE_PATH` -/
  dts : String
  /-- `CAMKES_ROOT_DTB_FILE_PATH` -/
  dtb : String
  /-- `CAmkESExtraImportPaths` -/
  imports : List String
  /-- `CAmkESTemplatePaths` -/
  templates : List String
  /-- `CAMKES_GEN_DONE` -/
  done : Bool
  props : Props
  /-- the arguments of the parser -/
  parserArgs : List String
  /-- the arguments of the runner -/
  runnerArgs : List String
  /-- the properties at the time of the inclusion -/
  seen : Props

/-- Before the first call. -/
def init : State := ⟨false, "", [], "", "", [], [], false, fun _ _ => [], [], [], fun _ _ => []⟩

/-- `if(variable)` is false: the value is a false constant (CMake, `if`). -/
def falsy (s : String) : Bool :=
  let u := s.toList.map Char.toUpper
  ["", "0", "OFF", "NO", "FALSE", "N", "IGNORE", "NOTFOUND"].any (fun c => c.toList == u) ||
    "-NOTFOUND".toList.isSuffixOf u

/-- Where `cmake_parse_arguments` is. -/
inductive Inside
  | nothing
  | one (k : String)
  | many (k : String)
  deriving DecidableEq, Repr

/-- What it has found. -/
structure Parsed where
  one : String → String
  many : String → List String
  inside : Inside

/-- An argument. -/
def parseStep (singles multis : List String) (p : Parsed) (tok : String) : Parsed :=
  if tok ∈ singles then { p with inside := .one tok }
  else if tok ∈ multis then { p with inside := .many tok }
  else match p.inside with
    | .one k => { p with one := fun x => if x = k then tok else p.one x, inside := .nothing }
    | .many k => { p with many := fun x => if x = k then p.many x ++ [tok] else p.many x }
    | .nothing => p

/-- `cmake_parse_arguments(PARSE_ARGV ...)`, camkes.cmake:367-371, 600-607. Arguments that belong to no keyword
are not looked at. -/
def parse (singles multis args : List String) : Parsed :=
  args.foldl (parseStep singles multis) ⟨fun _ => "", fun _ => [], .nothing⟩

/-- The keywords of `DeclareCAmkESRootserver`, camkes.cmake:369-370. -/
def rootSingles : List String := ["DTS_FILE_PATH", "DTB_FILE_PATH"]
def rootMultis : List String := ["CPP_FLAGS", "CPP_INCLUDES"]

/-- `DeclareCAmkESRootserver`, camkes.cmake:366-409. -/
def rootserver (env : Env) (s : State) (dir adl : String) (args : List String) : Except Err State :=
  let p := parse rootSingles rootMultis args
  if s.declared then .error .alreadyDeclared
  else
    let flags := p.many "CPP_FLAGS" ++ (p.many "CPP_INCLUDES").map (fun i => "-I" ++ env.abs dir i) ++ ["-DCAMKES_TOOL_PROCESSING"]
    let s := { s with adl := env.abs dir adl, cppFlags := s.cppFlags ++ flags, declared := true }
    let dtb := p.one "DTB_FILE_PATH"
    let dts := p.one "DTS_FILE_PATH"
    let dtb' := if falsy dtb then dtb else env.abs dir dtb
    let s := if falsy dtb then s else { s with dtb := dtb' }
    if falsy dts then .ok s
    else if !falsy dtb' then .error .bothTrees
    else .ok { s with dts := env.abs dir dts }

/-- The keywords of `AppendCAmkESComponentTarget`, camkes.cmake:605-606. -/
def compSingles : List String := ["CAKEML_HEAP_SIZE", "CAKEML_STACK_SIZE", "LINKER_LANGUAGE"]
def compMultis : List String :=
  ["SOURCES", "CAKEML_SOURCES", "CAKEML_DEPENDS", "CAKEML_INCLUDES", "INCLUDES", "C_FLAGS", "CXX_FLAGS", "LD_FLAGS", "LIBS",
   "TEMPLATE_SOURCES", "TEMPLATE_HEADERS"]

/-- `set_property(TARGET t APPEND PROPERTY p ...)`. -/
def appendProp (ps : Props) (t p : String) (vs : List String) : Props :=
  fun t' p' => if t' = t ∧ p' = p then ps t' p' ++ vs else ps t' p'

/-- `set_property(TARGET t PROPERTY p ...)`. -/
def setProp (ps : Props) (t p v : String) : Props :=
  fun t' p' => if t' = t ∧ p' = p then [v] else ps t' p'

/-- `AppendCAmkESComponentTarget`, camkes.cmake:599-708. -/
def appendTarget (env : Env) (ps : Props) (dir t : String) (args : List String) : Props :=
  let p := parse compSingles compMultis args
  let ps := appendProp ps t "COMPONENT_INCLUDES" ((p.many "INCLUDES").map (env.abs dir))
  let ps := appendProp ps t "COMPONENT_SOURCES" ((p.many "SOURCES").map (env.abs dir))
  let ps := appendProp ps t "COMPONENT_TEMPLATE_SOURCES" (p.many "TEMPLATE_SOURCES")
  let ps := appendProp ps t "COMPONENT_TEMPLATE_HEADERS" (p.many "TEMPLATE_HEADERS")
  let ps := appendProp ps t "COMPONENT_CAKEML_SOURCES" ((p.many "CAKEML_SOURCES").map (env.abs dir))
  let ps := appendProp ps t "COMPONENT_CAKEML_INCLUDES" ((p.many "CAKEML_INCLUDES").map (env.abs dir))
  let ps := appendProp ps t "COMPONENT_CAKEML_DEPENDS" (p.many "CAKEML_DEPENDS")
  let ps := appendProp ps t "COMPONENT_C_FLAGS" (p.many "C_FLAGS")
  let ps := appendProp ps t "COMPONENT_CXX_FLAGS" (p.many "CXX_FLAGS")
  let ps := appendProp ps t "COMPONENT_LD_FLAGS" (p.many "LD_FLAGS")
  let ps := appendProp ps t "COMPONENT_LIBS" (p.many "LIBS")
  let ps := if falsy (p.one "CAKEML_HEAP_SIZE") then ps else setProp ps t "COMPONENT_CAKEML_HEAP_SIZE" (p.one "CAKEML_HEAP_SIZE")
  let ps := if falsy (p.one "CAKEML_STACK_SIZE") then ps else setProp ps t "COMPONENT_CAKEML_STACK_SIZE" (p.one "CAKEML_STACK_SIZE")
  if falsy (p.one "LINKER_LANGUAGE") then ps else appendProp ps t "COMPONENT_LINKER_LANGUAGE" [p.one "LINKER_LANGUAGE"]

/-- The target of a component, camkes.cmake:763. -/
def compTarget (name : String) : String := "CAmkESComponent_" ++ name

/-- The target of an instance, camkes.cmake:779 and camkes/templates/camkes-gen.cmake:190. -/
def instTarget (comp inst : String) : String := "CAmkESComponent_" ++ comp ++ "_instance_" ++ inst

/-- `append_flags`, camkes.cmake:13-35, for one option. -/
def flag (b : Bool) (yes : String) (no : Option String := none) : List String :=
  if b then [yes] else no.toList

/-- `set_camkes_flags_from_config`, camkes.cmake:44-58. -/
def toolFlags (c : Config) : List String := flag c.verbose "--debug"

/-- `set_camkes_parser_flags_from_config`, camkes.cmake:60-104: what is appended. -/
def parserFlags (c : Config) : Except Err (List String) :=
  let fs := flag c.forward "--allow-forward-references" ++ flag c.cpp "--cpp" (some "--nocpp")
  if c.cpp then
    match c.cppBin with
    | none => .error .noCpp
    | some b => .ok (fs ++ ["--cpp-bin", b])
  else .ok fs

/-- `set_camkes_render_flags_from_config`, camkes.cmake:106-236. The test for a negative affinity
(camkes.cmake:153) is left out: it is written with `<`, which is no operator of `if`. -/
def renderFlags (env : Env) : Except Err (List String) :=
  if env.priority < 0 ∨ env.priority > 255 then .error .badPriority
  else if env.affinity > env.nodes - 1 then .error .badAffinity
  else .ok (["--architecture", env.arch, "--default-priority", env.num env.priority, "--default-affinity", env.num env.affinity,
      "--default-stack-size", env.stackSize] ++
    flag env.mcs "--realtime" ++ flag env.lockElision "--frpc-lock-elision" (some "--fno-rpc-lock-elision") ++
    flag env.tcbCaps "--fprovide-tcb-caps" (some "--fno-provide-tcb-caps") ++ flag env.largeFrames "--largeframe" ++
    flag env.largeDma "--largeframe-dma" ++ flag env.faultHandlers "--debug-fault-handlers")

/-- The device tree, camkes.cmake:433-453. -/
def treeFlags (env : Env) (dtb dts : String) : Except Err (List String) :=
  if env.dts then
    match (if falsy dtb then
        if falsy dts then .ok env.kernelDtb
        else if !env.present dts then .error .noDts
        else .ok (env.genDtb dts)
      else .ok dtb : Except Err String) with
    | .error e => .error e
    | .ok d => if falsy d then .ok [] else if !env.present d then .error .noDtb else .ok ["--dtb=" ++ d]
  else .ok []

/-- The GPIO pins, camkes.cmake:456-465. -/
def gpioFlags (env : Env) : List String :=
  match env.gpioList with
  | some g => if env.present g then ["--gpio-list=" ++ g] else []
  | none => []

/-- The loop over the flags of the preprocessor, camkes.cmake:471-478. -/
def cppLoop (fs : List String) : List String → Except Err (List String)
  | [] => .ok fs
  | f :: rest => if "--cpp" ∉ fs then .error .cppDisabled else cppLoop (fs ++ ["--cpp-flag=" ++ f]) rest

/-- `GenerateCAmkESRootserver`, camkes.cmake:414-569. The two tools are always run here
(`execute_process_with_stale_check`); camkes-gen.cmake is included at the end, which CMake refuses the second time,
because it declares targets that exist already. -/
def generate (env : Env) (s : State) : Except Err State :=
  if !s.declared then .error .notDeclared
  else do
    let tree ← treeFlags env s.dtb s.dts
    let pf ← parserFlags env.toConfig
    let rf ← renderFlags env
    let pf ← cppLoop (["--import-path=" ++ env.builtin] ++ tree ++ gpioFlags env ++ pf) s.cppFlags
    let pf := pf ++ s.imports.map ("--import-path=" ++ ·)
    let rf := rf ++ s.templates.flatMap (fun t => ["--templates", t])
    let pickle := env.bin ++ "/ast.pickle"
    let file := env.bin ++ "/camkes-gen.cmake"
    let pargs := toolFlags env.toConfig ++ pf ++
      ["--makefile-dependencies", pickle ++ ".d", "--file", env.abs env.src s.adl, "--save-ast", pickle]
    if !env.parserOk pargs then .error .parserFailed
    else
      let rargs := toolFlags env.toConfig ++ rf ++
        ["--makefile-dependencies", file ++ ".d", "--load-ast", pickle, "--item", "assembly/", "--template", "camkes-gen.cmake",
         "--outfile", file]
      if !env.runnerOk rargs then .error .runnerFailed
      else if s.done then .error .twice
      else .ok { s with done := true, parserArgs := pargs, runnerArgs := rargs, seen := s.props }

/-- `CAmkESAddImportPath`, camkes.cmake:787-797. -/
def addImport (env : Env) (s : State) (dir : String) (paths : List String) : Except Err State :=
  if s.done then .error .lateImport else .ok { s with imports := s.imports ++ paths.map (env.abs dir) }

/-- `CAmkESMaybeAddImportPath`, camkes.cmake:800-806: the path is looked for as it is written. -/
def maybeImport (env : Env) (dir : String) : State → List String → Except Err State
  | s, [] => .ok s
  | s, p :: ps =>
    if env.present p then
      match addImport env s dir [p] with
      | .ok s' => maybeImport env dir s' ps
      | .error e => .error e
    else maybeImport env dir s ps

/-- `CAmkESAddTemplatesPath`, camkes.cmake:808-818. -/
def addTemplates (env : Env) (s : State) (dir : String) (paths : List String) : Except Err State :=
  if s.done then .error .lateTemplates else .ok { s with templates := s.templates ++ paths.map (env.abs dir) }

/-- `CAmkESAddCPPInclude`, camkes.cmake:824-829. -/
def addCpp (env : Env) (s : State) (dir : String) (paths : List String) : State :=
  { s with cppFlags := s.cppFlags ++ paths.map (fun p => "-I" ++ env.abs dir p) }

/-- A call. `DeclareCAmkESComponent` and `ExtendCAmkESComponentInstance` are camkes.cmake:762-764, 778-780. -/
def step (env : Env) (s : State) : Call → Except Err State
  | .rootserver dir adl args => rootserver env s dir adl args
  | .component dir name args => .ok { s with props := appendTarget env s.props dir (compTarget name) args }
  | .extend dir comp inst args => .ok { s with props := appendTarget env s.props dir (instTarget comp inst) args }
  | .addImport dir paths => addImport env s dir paths
  | .maybeImport dir paths => maybeImport env dir s paths
  | .addTemplates dir paths => addTemplates env s dir paths
  | .addCpp dir paths => .ok (addCpp env s dir paths)
  | .generate => generate env s

/-- The calls, in their order; a fatal error ends the run. -/
def run (env : Env) : State → List Call → Except Err State
  | s, [] => .ok s
  | s, c :: cs => match step env s c with
    | .ok s' => run env s' cs
    | .error e => .error e

/-- What is built for an instance, apart from what is generated for it. -/
structure Build where
  sources : List String
  includes : List String
  cFlags : List String
  cxxFlags : List String
  libs : List String
  /-- the text of `LINK_FLAGS` -/
  linkFlags : String
  /-- `LINKER_LANGUAGE`; empty if it is not set -/
  language : String
  heap : String
  stack : String
  /-- the sources that are not generated -/
  cakemlSources : List String
  cakemlIncludes : List String
  cakemlDepends : List String
  templateSources : List String
  templateHeaders : List String
  deriving DecidableEq, Repr

/-- `GeneratorValueOrDefault`, camkes/templates/camkes-gen.cmake:174-177. -/
def valueOr (dflt : String) : List String → String
  | [] => dflt
  | v :: vs => ";".intercalate (v :: vs)

/-- The executable of an instance, camkes/templates/camkes-gen.cmake:189-211, 228, 286-301, 329-390. `grouped` and
`script` are what the template knows: whether the instance shares its address space, and its linker script. -/
def build (s : State) (type name : String) (grouped : Bool) (script : String) : Build :=
  let t := compTarget type
  let i := instTarget type name
  { sources := s.props t "COMPONENT_SOURCES" ++ s.props i "COMPONENT_SOURCES"
    includes := s.props i "COMPONENT_INCLUDES" ++ s.props t "COMPONENT_INCLUDES"
    cFlags := s.props t "COMPONENT_C_FLAGS" ++ s.props i "COMPONENT_C_FLAGS"
    cxxFlags := s.props t "COMPONENT_CXX_FLAGS" ++ s.props i "COMPONENT_CXX_FLAGS"
    libs := s.props t "COMPONENT_LIBS" ++ s.props i "COMPONENT_LIBS"
    linkFlags := (s.seen t "COMPONENT_LD_FLAGS" ++ s.seen i "COMPONENT_LD_FLAGS").foldl (· ++ ·)
        " -static -nostdlib -u _camkes_start -e _camkes_start " ++
      (if grouped then " -Wl,--relocatable " else "") ++ " -Wl,--script=" ++ script ++ " "
    language := ";".intercalate (s.seen t "COMPONENT_LINKER_LANGUAGE")
    heap := valueOr (valueOr "50" (s.props t "COMPONENT_CAKEML_HEAP_SIZE")) (s.props i "COMPONENT_CAKEML_HEAP_SIZE")
    stack := valueOr (valueOr "50" (s.props t "COMPONENT_CAKEML_STACK_SIZE")) (s.props i "COMPONENT_CAKEML_STACK_SIZE")
    cakemlSources := s.props t "COMPONENT_CAKEML_SOURCES"
    cakemlIncludes := s.seen t "COMPONENT_CAKEML_INCLUDES"
    cakemlDepends := s.seen t "COMPONENT_CAKEML_DEPENDS"
    templateSources := s.seen t "COMPONENT_TEMPLATE_SOURCES"
    templateHeaders := s.seen t "COMPONENT_TEMPLATE_HEADERS" }

end Verif.BuildApi
