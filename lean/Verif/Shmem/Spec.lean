import Verif.Shmem.Model

/-!
# Specification for C85

What a user may rely on: how large a dataport is, and what the access setting says (docs/index.md,
"Port Privileges").
-/

namespace Verif.Shmem.Spec

open Verif.Context (Text)

/-- The bytes of a value of the dataport's type. -/
def typeBytes : DType → Nat
  | .buf n => n
  | .named b => b

/-- The size that is asked for: that of a `Buf(n)`, or else that of the connection, or else a page. -/
def requested (st : Settings) (e : PortEnd) : Nat :=
  match e.connector, e.type with
  | .sharedData, .buf n => n
  | _, _ => (st.size e.conn).getD 4096

/-- The bytes of a dataport: those of its type, or of the connection for DMA. -/
def bytes (st : Settings) (e : PortEnd) : Nat :=
  match e.connector with
  | .sharedData => typeBytes e.type
  | .dmaSharedData => (st.size e.conn).getD 4096

/-- The rights that the setting gives: all if it is left unspecified, or else those whose letters it has. -/
def allowed : Option Text → Rights
  | none => ⟨true, true, true⟩
  | some l => ⟨decide ('R' ∈ l), decide ('W' ∈ l), decide ('X' ∈ l)⟩

/-- A proper access setting: some of the letters R, W, X and P, in this order. -/
def Proper (l : Text) : Prop :=
  ∃ r w x p : Bool, l = (if r then ['R'] else []) ++ (if w then ['W'] else []) ++ (if x then ['X'] else []) ++
    (if p then ['P'] else [])

/-- Ends of one connection have the same connector and type (checked when the connection is frozen). -/
def Sound (steps : List Step) : Prop :=
  ∀ e e', .port e ∈ steps → .port e' ∈ steps → e.conn = e'.conn → e.connector = e'.connector ∧ e.type = e'.type

end Verif.Shmem.Spec
