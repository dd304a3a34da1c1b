import Verif.Lift.Model

namespace Verif.Lift.Spec
open Verif.Lift

/-- The source text of a string literal. -/
def quoted (s : Str) : Str := '"' :: (s ++ ['"'])

/-- The source form of a literal whose value is `l`. -/
def source {α : Type} : Lit α → Lit α
  | .str s => .str (quoted s)
  | .other a => .other a

/-- The argument list of a dict literal written with the given pairs. -/
def dictArgs {α : Type} : List (Lit α × Lit α) → List (Lit α)
  | [] => []
  | (k, v) :: rest => source k :: source v :: dictArgs rest

/-- Interface kinds in a connector declaration. -/
inductive Kind
  | event | procedure | dataport
  deriving DecidableEq

def Kind.singular : Kind → String
  | .event => "Event" | .procedure => "Procedure" | .dataport => "Dataport"
def Kind.plural : Kind → String
  | .event => "Events" | .procedure => "Procedures" | .dataport => "Dataports"

/-- One end of a connector declaration as the user writes it:
`[hardware] Kind[s] [with n threads]`. -/
structure EndSrc where
  hardware : Bool
  kind : Kind
  multiple : Bool
  threads : Option Int

/-- The children the grammar (camkes.g:141-150) produces for one end. -/
def EndSrc.args {A : Type} (e : EndSrc) : List (Arg A) :=
  (if e.hardware then [.hardware] else []) ++
  [.endType (if e.multiple then e.kind.plural else e.kind.singular)] ++
  (match e.threads with | none => [] | some n => [.num n])

/-- The children of a connector definition. -/
def connectorArgs {A : Type} (f t : EndSrc) (attrs : List A) : List (Arg A) :=
  f.args ++ t.args ++ attrs.map .attr

/-- Thread counts must not be negative. -/
def EndSrc.legal (e : EndSrc) : Prop := ∀ n, e.threads = some n → 0 ≤ n

def EndSrc.threadCount (e : EndSrc) : Nat := match e.threads with | none => 1 | some n => n.toNat

/-- The connector a user expects from the declaration. -/
def expected {A : Type} (name : Option String) (f t : EndSrc) (attrs : List A) : Connector A where
  name := name
  fromType := f.kind.singular
  toType := t.kind.singular
  fromMultiple := f.multiple
  toMultiple := t.multiple
  fromThreads := f.threadCount
  toThreads := t.threadCount
  fromHardware := f.hardware
  toHardware := t.hardware
  attributes := attrs

end Verif.Lift.Spec
