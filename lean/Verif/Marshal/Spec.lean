import Verif.Marshal.Model

/-!
# Specification: messages (C47, C48)
-/

namespace Verif.Marshal

/-- What is assumed of the machine: `size_t` is at least as large as `unsigned`. -/
def EnvOk (e : Env) : Prop := 0 < e.ub ∧ e.ub ≤ e.wb

/-- The wire format. -/
def wire (e : Env) : Val → List Byte
  | .scalar bytes => bytes
  | .string s => s ++ [0]
  | .array count bytes => enc e.wb count ++ bytes
  | .strings ss => enc e.wb ss.length ++ ss.flatMap (· ++ [0])

/-- The method index comes first, if there is more than one method. -/
def wireIndex (methods index : Nat) : List Byte := if methods > 1 then enc (indexBytes methods) index else []

/-- Values as they exist in a C program: the right number of bytes, strings without a zero inside, and
arrays that fit into memory. -/
def Proper (e : Env) : Ty → Val → Prop
  | .scalar k, .scalar bytes => bytes.length = k
  | .string, .string s => 0 ∉ s
  | .array k, .array count bytes => bytes.length = k * count ∧ k * count < e.W ∧ count < e.W
  | .strings, .strings ss => (∀ s ∈ ss, 0 ∉ s) ∧ e.wb * ss.length < e.W
  | _, _ => False

/-- The bytes of a buffer. -/
def bytesOf (o : Out) (n : Nat) : List Byte := (List.range n).map o.mem

/-- How many bytes of a buffer are sent when it contains a message of `len` bytes: with the kernel's IPC
buffer, as many words as are needed; with a shared buffer, all of it. -/
def sentLength (e : Env) (trailing : Bool) (size len : Nat) : Nat :=
  if trailing then size else (len + e.wb - 1) / e.wb * e.wb

end Verif.Marshal
