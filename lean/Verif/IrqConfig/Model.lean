import Verif.Irq.Model

/-!
# Model: the settings of a hardware interrupt (C80)

camkes/templates/seL4HardwareInterrupt.template.c:17-183: from the settings of the device's instance to the interrupt handler
that is allocated (by python-capdl, outside) and the entry in the table of interrupts (C52).
-/

namespace Verif.IrqConfig

/-- A setting. -/
inductive Val
  | int (n : Int)
  | str (s : String)
  /-- a floating point number, a list or a dictionary -/
  | other
  deriving DecidableEq

/-- `TemplateError` -/
inductive Err
  /-- “that should specify … is not defined” -/
  | missing (setting : String)
  /-- “… is not an integer” -/
  | notInteger (setting : String)
  /-- “can only be "edge" or "level"” -/
  | trigger
  /-- “Unknown irq type” -/
  | type
  deriving DecidableEq

/-- The arguments of `alloc('irq', seL4_IRQHandler, …)`. -/
inductive Handler
  /-- template:37 -/
  | simple (number : Int)
  /-- template:64; `trigger` is `seL4_ARM_IRQ_EDGE` (1) or `seL4_ARM_IRQ_LEVEL` (0) -/
  | arm (number trigger target : Int)
  /-- template:112 -/
  | ioapic (vector ioapic pin level polarity : Int)
  /-- template:155 -/
  | msi (vector handle bus dev fn : Int)
  deriving DecidableEq

/-- `.irq` in the entry, template:165-178, with the names of the fields; `PS_TRIGGER` is initialised with the fields of
`PS_PER_CPU` but nobody reads `cpu_idx` of it (irq.c:36-38). -/
inductive Entry
  | interrupt (number : Int)
  | ioapic (ioapic pin level polarity vector : Int)
  | msi (bus dev func handle vector : Int)
  | trigger (trigger cpu number : Int)
  deriving DecidableEq

/-- A required integer, as in template:25-32. -/
def required (conf : String → Option Val) (setting : String) : Except Err Int :=
  match conf setting with
  | none => .error (.missing setting)
  | some (.int n) => .ok n
  | some _ => .error (.notInteger setting)

/-- template:23-37, 165-166. -/
def simple (conf : String → Option Val) (i : String) : Except Err (Handler × Entry) :=
  match required conf (i ++ "_irq_number") with
  | .error e => .error e
  | .ok n =>
    let n := if conf (i ++ "_spi_number") = some (.int 0) then n + 32 else n
    .ok (.simple n, .interrupt n)

/-- template:39-50. -/
def triggerOf (conf : String → Option Val) (i : String) : Except Err Int :=
  match conf (i ++ "_irq_trigger") with
  | none => .ok 0
  | some v => if v = .str "level" then .ok 0 else if v = .str "edge" then .ok 1 else .error .trigger

/-- template:59-63. -/
def targetOf (conf : String → Option Val) (i : String) : Except Err Int :=
  match conf (i ++ "_irq_target") with
  | none => .ok 0
  | some (.int n) => .ok n
  | some _ => .error (.notInteger (i ++ "_irq_target"))

/-- template:38-64, 176-177. -/
def arm (conf : String → Option Val) (i : String) : Except Err (Handler × Entry) :=
  match triggerOf conf i with
  | .error e => .error e
  | .ok t => match required conf (i ++ "_irq_number") with
    | .error e => .error e
    | .ok n => match targetOf conf i with
      | .error e => .error e
      | .ok c => .ok (.arm n t c, .trigger t c n)

/-- template:66-90: level and polarity. -/
def levels (conf : String → Option Val) (i type : String) : Except Err (Int × Int) :=
  if type = "isa" then .ok (0, 0)
  else if type = "pci" then .ok (1, 1)
  else match required conf (i ++ "_irq_level") with
    | .error e => .error e
    | .ok l => match required conf (i ++ "_irq_polarity") with
      | .error e => .error e
      | .ok p => .ok (l, p)

/-- template:65-112, 167-170. -/
def ioapic (conf : String → Option Val) (i type : String) : Except Err (Handler × Entry) :=
  match levels conf i type with
  | .error e => .error e
  | .ok (l, p) => match required conf (i ++ "_irq_ioapic") with
    | .error e => .error e
    | .ok a => match required conf (i ++ "_irq_ioapic_pin") with
      | .error e => .error e
      | .ok n => match required conf (i ++ "_irq_vector") with
        | .error e => .error e
        | .ok v => .ok (.ioapic v a n l p, .ioapic a n l p v)

/-- template:113-155, 171-175. -/
def msi (conf : String → Option Val) (i : String) : Except Err (Handler × Entry) :=
  match required conf (i ++ "_irq_handle") with
  | .error e => .error e
  | .ok h => match required conf (i ++ "_irq_pci_bus") with
    | .error e => .error e
    | .ok b => match required conf (i ++ "_irq_pci_dev") with
      | .error e => .error e
      | .ok d => match required conf (i ++ "_irq_pci_fun") with
        | .error e => .error e
        | .ok f => match required conf (i ++ "_irq_vector") with
          | .error e => .error e
          | .ok v => .ok (.msi v h b d f, .msi b d f h v)

/-- The whole, template:20-178. `i` is the name of the interface of the device. -/
def configure (conf : String → Option Val) (i : String) : Except Err (Handler × Entry) :=
  match (conf (i ++ "_irq_type")).getD (.str "simple") with
  | .str type =>
    if type = "simple" then simple conf i
    else if type = "arm" then arm conf i
    else if type = "ioapic" ∨ type = "isa" ∨ type = "pci" then ioapic conf i type
    else if type = "msi" then msi conf i
    else .error .type
  | _ => .error .type

/-- The entry as the C code sees it (C52). Simplification: numbers are not negative. -/
def Entry.irq : Entry → Irq.Irq
  | .interrupt n => .interrupt n.toNat
  | .ioapic a n l p v => .ioapic a.toNat n.toNat l.toNat p.toNat v.toNat
  | .msi b d f h v => .msi b.toNat d.toNat f.toNat h.toNat v.toNat
  | .trigger t _ n => .trigger n.toNat t.toNat

/-- The entry in the table, template:163-183. -/
def tableEntry (slot : Nat) (e : Entry) : Irq.Entry := ⟨e.irq, slot, false, none⟩

end Verif.IrqConfig
