/-!
# Model: interrupts of a device tree node (camkes/templates/macros.py:690-834)

A value of an interrupts property is a number or something else (`isinstance(val,
numbers.Integral)` fails, and arithmetic on it raises `TypeError`).
-/

namespace Verif.Interrupts

/-- A value of a property. -/
inductive Val
  | num (n : Int)
  | other (s : String)
  deriving DecidableEq, Repr

/-- The entries used: `node.get('interrupts')` and `node.get('interrupts_extended')`. -/
structure Node where
  interrupts : Option (List Val)
  extended : Option (List Val)

/-- An interrupt descriptor `{'irq': ..., 'trigger': ...}`. -/
structure Irq where
  irq : Val
  trigger : Nat
  deriving DecidableEq, Repr

/-- One interrupt of the ARM branch, camkes/templates/macros.py:738-750. -/
def armIrq (ty irq trigger : Option Val) : Except String Irq :=
  match trigger, irq, ty with
  | some t, some q, some y =>
    let q' : Except String Val :=
      if y = .num 0 then match q with
        | .num n => .ok (.num (n + 32))
        | .other _ => .error "TypeError"
      else .ok q
    match q' with
    | .error e => .error e
    | .ok q' => match t with
      | .num t => .ok ⟨q', if t < 4 then 1 else 0⟩
      | .other _ => .error "TypeError"
  | _, _, _ => .error "IndexError"

/-- `for i in range(0, num_interrupts)` of the ARM branch, camkes/templates/macros.py:737-750.
`skip` is 1 for extended interrupts. -/
def armLoop (vals : List Val) (skip : Nat) : List Nat → Except String (List Irq)
  | [] => .ok []
  | i :: is =>
    match armIrq vals[i * 3 + skip]? vals[i * 3 + skip + 1]? vals[i * 3 + skip + 2]? with
    | .error e => .error e
    | .ok q =>
      match armLoop vals skip is with
      | .error e => .error e
      | .ok r => .ok (q :: r)

/-- The ARM branch, camkes/templates/macros.py:723-751. (With too many interrupts, `raise
TemplateError(...) % (...)` raises a `TypeError`.) -/
def armParse (vals : List Val) (ext : Bool) (max : Int) : Except String (List Irq) :=
  let n := if ext then vals.length / 4 else vals.length / 3
  if max ≠ -1 ∧ (n : Int) > max then .error "TypeError"
  else armLoop vals (if ext then 1 else 0) (List.range n)

/-- `parse_int`, camkes/templates/macros.py:782-790. -/
def parseInt (vals : List Val) (idx : Nat) : Except String Int :=
  match vals[idx]? with
  | some (.num n) => .ok n
  | some (.other _) => .error "TemplateError: is not a number"
  | none => .error "IndexError"

/-- One interrupt of the generic branch, camkes/templates/macros.py:782-832. -/
def genIrq (vals : List Val) (cells i : Nat) : Except String Irq :=
  if cells = 3 then
    match parseInt vals (i * 3 + 1) with
    | .error e => .error e
    | .ok irq =>
      match parseInt vals (i * 3 + 2) with
      | .error e => .error e
      | .ok flags =>
        match parseInt vals (i * 3) with
        | .error e => .error e
        | .ok _ => .ok ⟨.num irq, if flags % 4 ≠ 0 then 1 else 0⟩
  else
    match parseInt vals i with
    | .error e => .error e
    | .ok irq => .ok ⟨.num irq, 1⟩

/-- The loop of the generic branch, camkes/templates/macros.py:780-832. -/
def genLoop (vals : List Val) (cells : Nat) : List Nat → Except String (List Irq)
  | [] => .ok []
  | i :: is =>
    match genIrq vals cells i with
    | .error e => .error e
    | .ok q =>
      match genLoop vals cells is with
      | .error e => .error e
      | .ok r => .ok (q :: r)

/-- The generic branch after the controller reference has been dropped,
camkes/templates/macros.py:769-834. -/
def genParse (vals : List Val) (max : Int) : Except String (List Irq) :=
  let cells := if vals.length < 3 then 1 else 3
  if vals.length % cells ≠ 0 then .error "TemplateError: number of values"
  else
    let n := vals.length / cells
    if max ≠ -1 ∧ (n : Int) > max then .error "TemplateError: too many interrupts"
    else genLoop vals cells (List.range n)

/-- `parse_dtb_node_interrupts`, camkes/templates/macros.py:690-834. -/
def parse (node : Node) (max : Int) (arm : Bool) : Except String (List Irq) :=
  match node.interrupts with
  | some vals => if arm then armParse vals false max else genParse vals max
  | none =>
    match node.extended with
    | none => .ok []
    | some vals =>
      if arm then armParse vals true max
      else if vals.length > 1 then genParse (vals.drop 1) max else .ok []

end Verif.Interrupts
