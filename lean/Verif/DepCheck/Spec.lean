import Verif.DepCheck.Model
import Mathlib.Data.List.Forall2

/-!
# Specification of C128: what it means that a dependency is there, and what the checker should say
-/

namespace Verif.DepCheck

def Digit (c : Char) : Prop := c ∈ ['0', '1', '2', '3', '4', '5', '6', '7', '8', '9']
def Space (c : Char) : Prop := c ∈ [' ', '\t', '\n', '\r', '\x0b', '\x0c']
instance (c : Char) : Decidable (Digit c) := by unfold Digit; infer_instance

/-- The number that digits stand for. -/
def value : Text → Nat
  | [] => 0
  | c :: r => ['0', '1', '2', '3', '4', '5', '6', '7', '8', '9'].idxOf c * 10 ^ r.length + value r

/-- `out` has a line that begins with `pylint`, spaces, and the number `v.1` `.` `v.2`; `pre` is what stands before. -/
def VersionLine (out : Text) (v : Text × Text) (pre : Text) : Prop :=
  ∃ spaces post,
    out = pre ++ "pylint".toList ++ spaces ++ v.1 ++ ['.'] ++ v.2 ++ post ∧
    (pre = [] ∨ pre.getLast? = some '\n') ∧
    (spaces ≠ [] ∧ ∀ c ∈ spaces, Space c) ∧
    (v.1 ≠ [] ∧ ∀ c ∈ v.1, Digit c) ∧
    (v.2 ≠ [] ∧ ∀ c ∈ v.2, Digit c) ∧
    (∀ c, post.head? = some c → ¬ Digit c)

/-- The version that the first such line tells. -/
def Tells (out : Text) (v : Text × Text) : Prop :=
  ∃ pre, VersionLine out v pre ∧ ∀ w pre', VersionLine out w pre' → pre.length ≤ pre'.length

/-- Versions are compared part by part: 1.10 comes after 1.4. -/
def AtLeast (v w : Text × Text) : Prop :=
  value w.1 < value v.1 ∨ value w.1 = value v.1 ∧ value w.2 ≤ value v.2

/-- A dependency is there. -/
def Simple.Present (env : Env) : Simple → Prop
  | .binary n _ => env.which n = some 0
  | .pylint n _ a b => env.which n = some 0 ∧ ∃ out v, env.pylint = some out ∧ Tells out v ∧ AtLeast v (a, b)
  | .module n _ => ∃ has, env.imp n = .module has
  | .moduleWith n _ attr => ∃ has, env.imp n = .module has ∧ has attr = true
  | .library n _ => env.pkgConfig n = some 0
  | .cunit _ _ => env.cunit = some true

def Package.Present (env : Env) : Package → Prop
  | .one p => p.Present env
  | .or ps => ∃ p ∈ ps, p.Present env

/-- The programs that are asked about a dependency can be run, and an import fails with `ImportError` if at all. -/
def Simple.Works (env : Env) : Simple → Prop
  | .binary n _ => env.which n ≠ none
  | .pylint n _ _ _ => env.which n ≠ none ∧ (env.which n = some 0 → env.pylint ≠ none)
  | .module n _ | .moduleWith n _ _ => env.imp n ≠ .otherError
  | .library n _ => env.pkgConfig n ≠ none
  | .cunit _ _ => env.cunit ≠ none

/-- Whether a version of pylint is old enough can be seen from the decimal number: the part after the point has as many
digits as that of the version which is needed. -/
def Simple.Comparable (env : Env) : Simple → Prop
  | .pylint _ _ a b => (∀ c ∈ a, Digit c) ∧ (∀ c ∈ b, Digit c) ∧
      ∀ out v, env.pylint = some out → Tells out v → v.2.length = b.length
  | _ => True

/-- The explanation fits to what is missing. -/
def Simple.Explains (env : Env) : Simple → Msg → Prop
  | .pylint n _ _ _, .notFound => env.which n ≠ some 0
  | .pylint n _ _ _, .noVersion => env.which n = some 0 ∧ ∃ out, env.pylint = some out ∧ ∀ v, ¬ Tells out v
  | .pylint n _ a b, .tooOld x y => env.which n = some 0 ∧ ∃ out, env.pylint = some out ∧ Tells out (x, y) ∧ ¬ AtLeast (x, y) (a, b)
  | .moduleWith n _ _, .notFound => env.imp n = .importError
  | .moduleWith n _ a, .noAttr n' a' => n' = n ∧ a' = a ∧ ∃ has, env.imp n = .module has
  | p, .notFound => ¬ p.Present env
  | _, _ => False

def Package.Explains (env : Env) : Package → Msg → Prop
  | .one p, m => p.Explains env m
  | .or ps, m => m = .notFound ∧ ∀ p ∈ ps, ¬ p.Present env

def Package.All (P : Simple → Prop) : Package → Prop
  | .one p => P p
  | .or ps => ∀ p ∈ ps, P p

/-- No member of an `Or` is of a class whose `exists` raises `CheckDepException`; nor is an extra. -/
def Simple.Quiet : Simple → Prop
  | .pylint _ _ _ _ | .moduleWith _ _ _ => False
  | _ => True

def Package.Ordinary : Package → Prop
  | .one _ => True
  | .or ps => ∀ p ∈ ps, p.Quiet

/-- Everything that is needed to examine this package works. -/
def Package.Fit (env : Env) (p : Package) : Prop := p.All (Simple.Works env) ∧ p.All (Simple.Comparable env) ∧ p.Ordinary

/-- An extra is of a class that has no other exceptions. -/
def Package.Plain (env : Env) : Package → Prop
  | .one p => p.Works env ∧ p.Quiet
  | .or ps => ∀ p ∈ ps, p.Works env ∧ p.Quiet

/-- The components that were asked for are known. -/
def Valid (deps : List (Text × List Package)) (chosen : Option (List Text)) : Prop :=
  ∀ l, chosen = some l → ∀ k ∈ l, ∃ c ∈ deps, c.1 = k

/-- What a dependency is called in the report, and how it is described. -/
def Simple.title : Simple → Text
  | .binary n _ | .pylint n _ _ _ | .module n _ | .moduleWith n _ _ | .library n _ | .cunit n _ => n
def Simple.about : Simple → Text
  | .binary _ d | .pylint _ d _ _ | .module _ d | .moduleWith _ d _ | .library _ d | .cunit _ d => d
/-- Alternatives are called `a or b or c`, without a description. -/
def Package.title : Package → Text
  | .one p => p.title
  | .or ps => " or ".toList.intercalate (ps.map Simple.title)
def Package.about : Package → Text
  | .one p => p.about
  | .or _ => "...".toList

/-- The right verdict about a dependency. -/
inductive Verdict (env : Env) (p : Package) : Event → Prop
  | found : p.Present env → Verdict env p .found
  | missing (m : Msg) : ¬ p.Present env → p.Explains env m → Verdict env p (.message m)

/-- The right report about a component. -/
inductive ComponentReport (env : Env) : Text × List Package → List Event → Prop
  | usable (k : Text) (ps : List Package) (vs : List Event) : List.Forall₂ (Verdict env) ps vs → (∀ p ∈ ps, p.Present env) →
      ComponentReport env (k, ps) (.header k :: (List.zipWith (fun p v => [.checking p.title p.about, v]) ps vs).flatten ++ [.blank])
  | unusable (k : Text) (ps : List Package) (vs : List Event) : List.Forall₂ (Verdict env) ps vs → (∃ p ∈ ps, ¬ p.Present env) →
      ComponentReport env (k, ps)
        (.header k :: (List.zipWith (fun p v => [.checking p.title p.about, v]) ps vs).flatten ++ [.cannot, .blank])

/-- The right suggestions: the extras that are missing, each with its note. -/
inductive Suggestions (env : Env) : List (Package × Text) → List Event → Prop
  | nil : Suggestions env [] []
  | there (p : Package) (n : Text) (r : List (Package × Text)) (out : List Event) : p.Present env → Suggestions env r out →
      Suggestions env ((p, n) :: r) out
  | missing (p : Package) (n : Text) (r : List (Package × Text)) (out : List Event) : ¬ p.Present env → Suggestions env r out →
      Suggestions env ((p, n) :: r) (.suggest p.title p.about n :: out)

/-- A component is to be checked. -/
def Chosen (chosen : Option (List Text)) (k : Text) : Prop := ∀ l, chosen = some l → k ∈ l

end Verif.DepCheck
