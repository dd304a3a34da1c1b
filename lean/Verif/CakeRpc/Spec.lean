import Verif.CakeRpc.Model
import Verif.Marshal.Spec

/-!
# Specification: remote procedure calls served by a component in CakeML

A value of CakeML stands for a value of C; only integers that fit into the type and strings without a zero can be represented.
-/

namespace Verif.CakeRpc

/-- Types of C. -/
def Ty.c : Ty → Marshal.Ty
  | .int sz => .scalar sz
  | .string => .string

/-- The value has the type, and C can represent it. -/
def Fits : Ty → Val → Prop
  | .int sz, .int n => 0 ≤ n ∧ n < 2 ^ (8 * sz)
  | .string, .string s => 0 ∉ s
  | _, _ => False

/-- The value in C: the bytes of a number, the lowest first, or the characters. -/
def Val.c : Ty → Val → Marshal.Val
  | .int sz, .int n => .scalar (Marshal.enc sz n.toNat)
  | _, .string s => .string s
  | .string, .int _ => .string []

/-- The parameters in C. -/
def inC (ps : List (Ty × Val)) : List (Marshal.Ty × Marshal.Val) := ps.map (fun p => (p.1.c, p.2.c p.1))

/-- A value has a type. -/
def HasType : Ty → Val → Prop
  | .int _, .int _ => True
  | .string, .string _ => True
  | _, _ => False

/-- The machine of the client. -/
def client (ws : Nat) : Marshal.Env := ⟨ws, 4⟩

/-- The words of the two kinds of machines. -/
def WordSize (ws : Nat) : Prop := ws = 4 ∨ ws = 8

end Verif.CakeRpc
