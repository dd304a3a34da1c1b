import Verif.StdConn.Model

/-!
# Specification (C139)
-/

namespace Verif.StdConn

open Verif.Runner (Text)
open Verif.GenFiles

/-- The two sides of a connection. -/
inductive Side
  | from_ | to_
  deriving DecidableEq

def Side.text : Side → Text
  | .from_ => "from".toList
  | .to_ => "to".toList

/-- Two connectors are other names of connectors with the same code. -/
def family (type : Text) : Text :=
  if type = "seL4RPCCallNoType".toList then "seL4RPCCall".toList
  else if type = "seL4DTBHW".toList then "seL4DTBHardware".toList else type

/-- `t` is the template in C for a side of a connector: one for the side, or one for both. -/
def IsC (type : Text) (s : Side) (t : Text) : Prop :=
  t ∈ files ∧ (t = family type ++ "-".toList ++ s.text ++ ".template.c".toList ∨ t = family type ++ ".template.c".toList)

/-- `t` is the template in CakeML for the `to` side. -/
def IsCakeML (type t : Text) : Prop := t ∈ files ∧ t = family type ++ "-to.template.cakeml".toList

/-- A connection of an assembly, seen from an instance that is not hardware: its type is standard, and the sides that are
hardware are not of this instance (camkes/ast/objects.py:436-482 refuses other assemblies). -/
def Fits (i : Inst) (c : Conn) : Prop :=
  ∃ s ∈ stds, s.name = c.type ∧ (s.fromHw = true → ∀ e ∈ c.fromEnds, e.inst ≠ i.name) ∧
    (s.toHw = true → ∀ e ∈ c.toEnds, e.inst ≠ i.name)

/-- The connector that has no code. -/
def Codeless (c : Conn) : Prop := c.type = "seL4RPCEvent".toList

/-- Declarations of a user that leave the standard connectors alone. -/
def Foreign (ds : List Decl) : Prop := ∀ d ∈ ds, ∀ s ∈ stds, s.name ≠ d.1

end Verif.StdConn
