import Verif.GdbRun.Model
import Verif.GdbMem.Spec

/-!
# Specification: stopping and resuming in the debugger (C77)
-/

namespace Verif.GdbRun

/-- What the debugger is told about a stop. -/
def stopMessage : Fault → List Nat
  | .debug .data _ addr =>
    chars "T05thread:01;watch:" ++
      GdbMem.hexBytes [addr / 2 ^ 24 % 256, addr / 2 ^ 16 % 256, addr / 2 ^ 8 % 256, addr % 256] ++ chars ";"
  | .debug .instruction _ _ => chars "T05thread:01;hwbreak:;"
  | .debug .software _ _ => chars "T05thread:01;swbreak:;"
  | .debug .singleStep _ _ => chars "T05thread:01;"
  | .other _ _ => chars "T05thread:01;"

/-- Commands that resume the stopped thread: `c`, `s`, and those that begin with `vCont` and have `c` or `s` at place 7. -/
def resumes : Step → Bool
  | .command _ c =>
    c.head? = some 99 || c.head? = some 115 ||
      (chars "vCont" <+: c && !(chars "vCont?" <+: c) && (c[7]? = some 99 || c[7]? = some 115))
  | _ => false

/-- A debugger that resumes a thread only if it was told that one stopped, and has not resumed it yet. -/
def Patient (xs : List Step) : Prop :=
  ∀ pre x post, xs = pre ++ x :: post → resumes x = true → (run initial pre).told.length = pre.countP resumes + 1

/-- The debugger was told that the thread stopped because of the fault, and did not resume it. -/
structure Stopped (xs : List Step) (t : Nat) (f : Fault) : Prop where
  patient : Patient xs
  sound : (run initial xs).broken = false
  held : (run initial xs).status t = .held f
  pending : (run initial xs).told.length = xs.countP resumes + 1

/-- One step, from the command of the debugger to the message. -/
def round (t ip : Nat) : List Step := [.command true [115], .wake, .exec t ip none, .receive t]

/-- Commands that step: `s`, and those that begin with `vCont` and have `s` at place 7. -/
def steps : Step → Bool
  | .command _ c => c.head? = some 115 || (chars "vCont" <+: c && c[7]? = some 115)
  | _ => false

/-- The debugger never steps. -/
def NoSteps (xs : List Step) : Prop := ∀ x ∈ xs, steps x = false

/-- The thread runs for as many instructions as it likes, until it hits a breakpoint, and nothing is told. -/
def RunsOn (s : State) (t : Nat) : Prop :=
  ∀ ips : List Nat, let s' := run s (ips.map fun ip => .exec t ip none)
    s'.status t = .running ∧ s'.ran t = ips.length ∧ s'.told = s.told

/-- The fault is not the end of a step. -/
def Fault.NotStep : Fault → Prop
  | .debug .singleStep _ _ => False
  | _ => True

/-- The command resumes with `vCont`, as in the manual of the debugger: `vCont;c` or `vCont;s`, possibly with a thread or
other actions. -/
def vContCommand (action : Nat) (rest : List Nat) : List Nat := chars "vCont;" ++ action :: rest

/-- Letters of commands that are not supported. -/
def unsupported : List Nat := chars "!AbCdDFiIkQrRStT"

/-- The queries that are answered, with the answers. -/
def knownQueries : List (String × String) :=
  [("Supported", "swbreak+;hwbreak+;PacketSize=100"), ("TStatus", ""), ("TfV", ""), ("C", "QC1"), ("Attached", ""),
   ("fThreadInfo", "m01"), ("sThreadInfo", "l"), ("Symbol", ""), ("Offsets", "")]

/-- `q<name>`, possibly with `:` and more. -/
structure Query (name rest : List Nat) : Prop where
  some_char : name ≠ []
  plain : ∀ c ∈ name, c ≠ 113 ∧ c ≠ 58 ∧ c ≠ 0
  sep : rest = [] ∨ rest.head? = some 58

end Verif.GdbRun
