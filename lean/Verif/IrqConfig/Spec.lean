import Verif.IrqConfig.Model

/-!
# Specification: the settings of a hardware interrupt (C80)
-/

namespace Verif.IrqConfig

/-- The type of the interrupt: `simple` if nothing else is said. -/
def HasType (conf : String → Option Val) (i type : String) : Prop :=
  conf (i ++ "_irq_type") = some (.str type) ∨ (conf (i ++ "_irq_type") = none ∧ type = "simple")

/-- An integer setting. -/
def Setting (conf : String → Option Val) (i name : String) (n : Int) : Prop := conf (i ++ "_irq_" ++ name) = some (.int n)

/-- A setting with a default. -/
def SettingOr (conf : String → Option Val) (i name : String) (d n : Int) : Prop :=
  Setting conf i name n ∨ (conf (i ++ "_irq_" ++ name) = none ∧ n = d)

/-- Level-triggered unless set to `edge`. -/
def Trigger (conf : String → Option Val) (i : String) (t : Int) : Prop :=
  (t = 0 ∧ (conf (i ++ "_irq_trigger") = none ∨ conf (i ++ "_irq_trigger") = some (.str "level"))) ∨
    (t = 1 ∧ conf (i ++ "_irq_trigger") = some (.str "edge"))

/-- The settings say that this handler is needed, and it is described by this entry. Shared peripheral interrupts of ARM
(`spi_number` is 0) start at 32. -/
inductive Says (conf : String → Option Val) (i : String) : Handler → Entry → Prop
  | simple (n : Int) : HasType conf i "simple" → Setting conf i "number" n → conf (i ++ "_spi_number") ≠ some (.int 0) →
      Says conf i (.simple n) (.interrupt n)
  | spi (n : Int) : HasType conf i "simple" → Setting conf i "number" n → conf (i ++ "_spi_number") = some (.int 0) →
      Says conf i (.simple (32 + n)) (.interrupt (32 + n))
  | arm (n t c : Int) : HasType conf i "arm" → Setting conf i "number" n → Trigger conf i t → SettingOr conf i "target" 0 c →
      Says conf i (.arm n t c) (.trigger t c n)
  | isa (a n v : Int) : HasType conf i "isa" → Setting conf i "ioapic" a → Setting conf i "ioapic_pin" n →
      Setting conf i "vector" v → Says conf i (.ioapic v a n 0 0) (.ioapic a n 0 0 v)
  | pci (a n v : Int) : HasType conf i "pci" → Setting conf i "ioapic" a → Setting conf i "ioapic_pin" n →
      Setting conf i "vector" v → Says conf i (.ioapic v a n 1 1) (.ioapic a n 1 1 v)
  | ioapic (a n l p v : Int) : HasType conf i "ioapic" → Setting conf i "ioapic" a → Setting conf i "ioapic_pin" n →
      Setting conf i "level" l → Setting conf i "polarity" p → Setting conf i "vector" v →
      Says conf i (.ioapic v a n l p) (.ioapic a n l p v)
  | msi (h b d f v : Int) : HasType conf i "msi" → Setting conf i "handle" h → Setting conf i "pci_bus" b →
      Setting conf i "pci_dev" d → Setting conf i "pci_fun" f → Setting conf i "vector" v →
      Says conf i (.msi v h b d f) (.msi b d f h v)

/-- What a driver asks for to get the interrupt of this handler. -/
def Handler.request : Handler → Irq.Irq
  | .simple n => .interrupt n.toNat
  | .arm n t _ => .trigger n.toNat t.toNat
  | .ioapic v a n l p => .ioapic a.toNat n.toNat l.toNat p.toNat v.toNat
  | .msi v h b d f => .msi b.toNat d.toNat f.toNat h.toNat v.toNat

/-- The types of interrupts. -/
def types : List String := ["simple", "arm", "isa", "pci", "ioapic", "msi"]

/-- What an error message says is true. -/
def True_ (conf : String → Option Val) (i : String) : Err → Prop
  | .missing s => conf s = none
  | .notInteger s => ∃ v, conf s = some v ∧ ∀ n, v ≠ .int n
  | .trigger => HasType conf i "arm" ∧ ¬ ∃ t, Trigger conf i t
  | .type => ¬ ∃ t ∈ types, HasType conf i t

end Verif.IrqConfig
