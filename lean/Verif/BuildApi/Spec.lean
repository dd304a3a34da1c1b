import Verif.BuildApi.Model

/-!
# Specification: what the calls of the build scripts ask for
-/

namespace Verif.BuildApi.Spec

/-- The value counts as not given. -/
def IsFalse (s : String) : Prop :=
  ∃ u, u = s.toList.map Char.toUpper ∧
    (u ∈ ["".toList, "0".toList, "OFF".toList, "NO".toList, "FALSE".toList, "N".toList, "IGNORE".toList, "NOTFOUND".toList] ∨
      ∃ x, u = x ++ "-NOTFOUND".toList)

/-- Arguments, in groups: each keyword with what follows it up to the next keyword. -/
def groups (kws : List String) : List String → List (String × List String)
  | [] => []
  | a :: as => if a ∈ kws then (a, as.takeWhile fun x => x ∉ kws) :: groups kws as else groups kws as

/-- All that follows the keyword. -/
def values (kws : List String) (k : String) (args : List String) : List String :=
  ((groups kws args).filter fun g => g.1 = k).flatMap fun g => g.2

/-- The last value of a keyword with one value. -/
def value (kws : List String) (k : String) (args : List String) : Option String :=
  (((groups kws args).filter fun g => g.1 = k).filterMap fun g => g.2.head?).getLast?

/-- The keywords. -/
def rootKws : List String := ["DTS_FILE_PATH", "DTB_FILE_PATH", "CPP_FLAGS", "CPP_INCLUDES"]
def compKws : List String :=
  ["CAKEML_HEAP_SIZE", "CAKEML_STACK_SIZE", "LINKER_LANGUAGE", "SOURCES", "CAKEML_SOURCES", "CAKEML_DEPENDS", "CAKEML_INCLUDES",
   "INCLUDES", "C_FLAGS", "CXX_FLAGS", "LD_FLAGS", "LIBS", "TEMPLATE_SOURCES", "TEMPLATE_HEADERS"]

/-- The path of the device tree that a declaration of the root gives. -/
def Tree1 (env : Env) (kw : String) (d : String) (args : List String) (path : String) : Prop :=
  ∃ v, value rootKws kw args = some v ∧ ¬ IsFalse v ∧ path = env.abs d v ∧ ¬ IsFalse path

/-- A path of a device tree is given by the calls. -/
def Given (env : Env) (kw : String) (h : List Call) (path : String) : Prop :=
  ∃ d adl args, Call.rootserver d adl args ∈ h ∧ Tree1 env kw d args path

/-- The root has been declared. -/
def Declared (h : List Call) : Prop := ∃ d adl args, Call.rootserver d adl args ∈ h

/-- Which device tree the parser is to use: a given one, else one from given sources, else that of the kernel. -/
inductive Tree (env : Env) (h : List Call) : List String → Prop
  | off : env.dts = false → Tree env h []
  | dtb {p} : env.dts = true → Given env "DTB_FILE_PATH" h p → env.present p = true → Tree env h ["--dtb=" ++ p]
  | dts {p} : env.dts = true → (∀ q, ¬ Given env "DTB_FILE_PATH" h q) → Given env "DTS_FILE_PATH" h p → env.present p = true →
      ¬ IsFalse (env.genDtb p) → env.present (env.genDtb p) = true → Tree env h ["--dtb=" ++ env.genDtb p]
  | dtsNothing {p} : env.dts = true → (∀ q, ¬ Given env "DTB_FILE_PATH" h q) → Given env "DTS_FILE_PATH" h p → env.present p = true →
      IsFalse (env.genDtb p) → Tree env h []
  | kernel : env.dts = true → (∀ q, ¬ Given env "DTB_FILE_PATH" h q) → (∀ q, ¬ Given env "DTS_FILE_PATH" h q) →
      ¬ IsFalse env.kernelDtb → env.present env.kernelDtb = true → Tree env h ["--dtb=" ++ env.kernelDtb]
  | noTree : env.dts = true → (∀ q, ¬ Given env "DTB_FILE_PATH" h q) → (∀ q, ¬ Given env "DTS_FILE_PATH" h q) →
      IsFalse env.kernelDtb → Tree env h []

/-- The flags of the preprocessor that are asked for. -/
def cppFlags (env : Env) (h : List Call) : List String :=
  h.flatMap fun c => match c with
    | .rootserver d _ args => values rootKws "CPP_FLAGS" args ++ (values rootKws "CPP_INCLUDES" args).map (fun i => "-I" ++ env.abs d i) ++
        ["-DCAMKES_TOOL_PROCESSING"]
    | .addCpp d ps => ps.map fun p => "-I" ++ env.abs d p
    | _ => []

/-- The paths for imports that are asked for. -/
def imports (env : Env) (h : List Call) : List String :=
  h.flatMap fun c => match c with
    | .addImport d ps => ps.map (env.abs d)
    | .maybeImport d ps => (ps.filter env.present).map (env.abs d)
    | _ => []

/-- The paths for templates that are asked for. -/
def templates (env : Env) (h : List Call) : List String :=
  h.flatMap fun c => match c with
    | .addTemplates d ps => ps.map (env.abs d)
    | _ => []

/-- The file of the system. -/
def adl (env : Env) (h : List Call) : List String :=
  h.flatMap fun c => match c with
    | .rootserver d a _ => [env.abs d a]
    | _ => []

/-- The text, if the condition is true. -/
def opt (b : Bool) (s : String) : List String := if b = true then [s] else []

/-- The arguments of the parser, with those for the device tree. -/
def parserCmd (env : Env) (h : List Call) (tree : List String) : List String :=
  opt env.verbose "--debug" ++ ["--import-path=" ++ env.builtin] ++ tree ++
    ((env.gpioList.toList.filter env.present).map fun g => "--gpio-list=" ++ g) ++
    opt env.forward "--allow-forward-references" ++ ["--cpp", "--cpp-bin"] ++ env.cppBin.toList ++
    ((cppFlags env h).map fun f => "--cpp-flag=" ++ f) ++ ((imports env h).map fun i => "--import-path=" ++ i) ++
    ["--makefile-dependencies", env.bin ++ "/ast.pickle" ++ ".d", "--file"] ++ adl env h ++
    ["--save-ast", env.bin ++ "/ast.pickle"]

/-- The arguments of the runner. -/
def runnerCmd (env : Env) (h : List Call) : List String :=
  opt env.verbose "--debug" ++ ["--architecture", env.arch, "--default-priority", env.num env.priority] ++
    ["--default-affinity", env.num env.affinity, "--default-stack-size", env.stackSize] ++ opt env.mcs "--realtime" ++
    [if env.lockElision then "--frpc-lock-elision" else "--fno-rpc-lock-elision"] ++
    [if env.tcbCaps then "--fprovide-tcb-caps" else "--fno-provide-tcb-caps"] ++ opt env.largeFrames "--largeframe" ++
    opt env.largeDma "--largeframe-dma" ++ opt env.faultHandlers "--debug-fault-handlers" ++
    ((templates env h).flatMap fun t => ["--templates", t]) ++
    ["--makefile-dependencies", env.bin ++ "/camkes-gen.cmake" ++ ".d", "--load-ast", env.bin ++ "/ast.pickle", "--item", "assembly/",
     "--template", "camkes-gen.cmake", "--outfile", env.bin ++ "/camkes-gen.cmake"]

/-- Paths that are absolute stay as they are. -/
def Settled (env : Env) : Prop := ∀ d d' p, env.abs d (env.abs d' p) = env.abs d' p

/-- The call is allowed after these calls. -/
def Legal (env : Env) (before : List Call) : Call → Prop
  | .rootserver d _ args => ¬ Declared before ∧
      ¬ ((∃ p, Tree1 env "DTB_FILE_PATH" d args p) ∧ ∃ v, value rootKws "DTS_FILE_PATH" args = some v ∧ ¬ IsFalse v)
  | .component .. => True
  | .extend .. => True
  | .addImport .. => Call.generate ∉ before
  | .maybeImport _ ps => Call.generate ∈ before → ∀ p ∈ ps, env.present p = false
  | .addTemplates .. => Call.generate ∉ before
  | .addCpp .. => True
  | .generate => Declared before ∧ Call.generate ∉ before ∧ env.cpp = true ∧ env.cppBin ≠ none ∧ 0 ≤ env.priority ∧ env.priority ≤ 255 ∧
      env.affinity < env.nodes ∧ env.runnerOk (runnerCmd env before) = true ∧
      ∃ tree, Tree env before tree ∧ env.parserOk (parserCmd env before tree) = true

/-- The declarations of a component: their directories and arguments. -/
def declarations (name : String) (h : List Call) : List (String × List String) :=
  h.filterMap fun c => match c with
    | .component d n args => if n = name then some (d, args) else none
    | _ => none

/-- The extensions of an instance. -/
def extensions (type name : String) (h : List Call) : List (String × List String) :=
  h.filterMap fun c => match c with
    | .extend d t n args => if t = type ∧ n = name then some (d, args) else none
    | _ => none

/-- What is given with a keyword. -/
def words (k : String) (ds : List (String × List String)) : List String := ds.flatMap fun x => values compKws k x.2

/-- The files that are given with a keyword. -/
def files (env : Env) (k : String) (ds : List (String × List String)) : List String :=
  ds.flatMap fun x => (values compKws k x.2).map (env.abs x.1)

/-- The values of a keyword with one value, one for each call that gives one. -/
def settings (k : String) (ds : List (String × List String)) : List String := ds.filterMap fun x => value compKws k x.2

/-- The value that counts: the last one. -/
def Setting (k : String) (ds : List (String × List String)) (v : String) : Prop :=
  ∃ xs ys, settings k ds = xs ++ v :: ys ∧ ¬ IsFalse v ∧ ∀ y ∈ ys, IsFalse y

/-- No call gives a value. -/
def Unset (k : String) (ds : List (String × List String)) : Prop := ∀ v ∈ settings k ds, IsFalse v

/-- The value of the instance, else that of the component, else 50. -/
def Size (k type name : String) (h : List Call) (v : String) : Prop :=
  Setting k (extensions type name h) v ∨
    (Unset k (extensions type name h) ∧
      (Setting k (declarations type h) v ∨ (Unset k (declarations type h) ∧ v = "50")))

/-- No name of another component or instance in the calls is confused with this one. -/
def Clear (type name : String) (h : List Call) : Prop :=
  (∀ d n args, Call.component d n args ∈ h → n ≠ type ++ "_instance_" ++ name) ∧
  (∀ d t n args, Call.extend d t n args ∈ h → t ++ "_instance_" ++ n ≠ type) ∧
  ∀ d t n args, Call.extend d t n args ∈ h → t ++ "_instance_" ++ n = type ++ "_instance_" ++ name → t = type ∧ n = name

/-- The flag is an argument of its own in the text of a command. -/
def Word (f s : String) : Prop := (" ".toList ++ f.toList ++ " ".toList) <:+: s.toList

end Verif.BuildApi.Spec
