import Verif.Diag.Model

/-!
# Model: the theories that are generated for verification (end of camkes/templates/camkes-gen.cmake)

The build first makes the files of the instances and saves the kernel objects; if verification is asked for, it then makes
theories from the final objects. The theories refer to each other by names which are made from the name of the assembly's file.
Lists of CMake are lists here: names with semicolons are in the area `GenFiles`.
-/

namespace Verif.VerNames

open Verif.Diag (Text baseName baseNameOk outfileOk word)

/-- `get_filename_component(... NAME_WE)`, camkes-gen.cmake:634: without the directory and without the longest extension. -/
def nameWE (p : Text) : Text := (baseName p).takeWhile (· ≠ '.')

/-- `string(MAKE_C_IDENTIFIER ...)`, camkes-gen.cmake:635. CMake works on bytes; here a character becomes one underscore. -/
def makeC (s : Text) : Text :=
  (match s with
   | [] => []
   | c :: r => if '0' ≤ c ∧ c ≤ '9' then '_' :: c :: r else c :: r).map fun c => if word c then c else '_'

/-- `VER_BASE_NAME`, camkes-gen.cmake:634-635. -/
def verBase (adl : Text) : Text := makeC (nameWE adl)

/-- The templates, with what they check or not. -/
inductive Template
  | root | arch | refine
  /-- any other one -/
  | other (name : Text)
  deriving DecidableEq

/-- A call of `CAmkESGen`, camkes-gen.cmake:66-99: the output, the template, and `VER_BASE_NAME`, empty if
it is not given. -/
structure Gen where
  out : Text
  template : Template
  ver : Text
  deriving DecidableEq

/-- A run of the tool that `CAmkESOutputGenCommand` declares, camkes-gen.cmake:104-156: whether it loads the objects, the files,
and the options `--verification-base-name`. -/
structure Run where
  loads : Bool
  gens : List Gen
  opts : List Text
  deriving DecidableEq

/-- The variables of the CMake file: the files that are still to be made, with the options, and the runs. -/
structure State where
  pending : List Gen
  opts : List Text
  runs : List Run

/-- The option for a call, camkes-gen.cmake:85-87: none if the name is empty. -/
def option (g : Gen) : List Text := if g.ver = [] then [] else [g.ver]

/-- `CAmkESGen`, camkes-gen.cmake:79-87: the lists. -/
def gen (s : State) (g : Gen) : State :=
  { s with pending := s.pending ++ [g], opts := s.opts ++ option g }

/-- `CAmkESOutputGenCommand`, camkes-gen.cmake:104-163. -/
def output (s : State) (loads : Bool) : State :=
  if s.pending = [] then s else ⟨[], [], s.runs ++ [⟨loads, s.pending, s.opts⟩]⟩

/-- The directory of the theories, camkes-gen.cmake:638-641. -/
def thyDir (dir : Text) : Text := dir ++ "/cdl-refine/".toList

/-- `CAMKES_CDL_THY`, camkes-gen.cmake:638: made by the capDL tool (652-665). -/
def cdlThy (dir base : Text) : Text := thyDir dir ++ base ++ "_CDL.thy".toList

/-- `CAMKES_ADL_THY`, camkes-gen.cmake:639. -/
def adlThy (dir base : Text) : Text := thyDir dir ++ base ++ "_Arch_Spec.thy".toList

/-- `CAMKES_CDL_REFINE_THY`, camkes-gen.cmake:640. -/
def refineThy (dir base : Text) : Text := thyDir dir ++ base ++ "_CDL_Refine.thy".toList

/-- The calls for verification, camkes-gen.cmake:644, 670, 675. -/
def verGens (dir base : Text) : List Gen :=
  [⟨thyDir dir ++ "ROOT".toList, .root, base⟩, ⟨adlThy dir base, .arch, base⟩, ⟨refineThy dir base, .refine, base⟩]

/-- The end of the CMake file, camkes-gen.cmake:521, 631-681; `first` are the calls before. -/
def script (first : List Gen) (verification : Bool) (dir adl : Text) : State :=
  let s := output (first.foldl gen ⟨[], [], []⟩) false
  if verification then output ((verGens dir (verBase adl)).foldl gen s) true else s

/-- The last check, camkes-gen.cmake:684-686. -/
def checked (s : State) : Bool := s.pending = []

/-- The value of the option in the runner: the last one counts, runner/__main__.py:78-79. -/
def baseOf (r : Run) : Option Text := r.opts.getLast?

/-- Whether the runner goes on after it looked at the option, runner/__main__.py:159-162. -/
def accepted (r : Run) : Bool :=
  match baseOf r with
  | none => true
  | some b => baseNameOk b

/-- Whether the checks of the templates hold, arch-definitions.thy:9-10 and cdl-refine.thy:9-10; without the option its value is
`None`, which is printed so. -/
def rendered (base : Option Text) (g : Gen) : Bool :=
  match g.template with
  | .arch => outfileOk (base.getD "None".toList ++ "_Arch_Spec".toList) g.out
  | .refine => outfileOk (base.getD "None".toList ++ "_CDL_Refine".toList) g.out
  | _ => true

/-- Whether a run of the tool gets through these checks. -/
def passes (r : Run) : Bool := accepted r && r.gens.all (rendered (baseOf r))

/-- The theories in the session, root.thy:10-13. -/
def sessionTheories (base : Text) : List Text :=
  [base ++ "_CDL".toList, base ++ "_Arch_Spec".toList, base ++ "_CDL_Refine".toList]

/-- The generated theories that the proof imports, cdl-refine.thy:11-12, 17-19. -/
def proofImports (base : Text) : List Text := [base ++ "_Arch_Spec".toList, base ++ "_CDL".toList]

end Verif.VerNames
