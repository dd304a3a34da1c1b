import Verif.Interrupts.Model

namespace Verif.Interrupts.Spec

/-- An interrupt specifier of three cells, as in the device tree binding of the ARM interrupt
controller: type (0 shared, 1 private), number, and flags (1 and 2 edge, 4 and 8 level). -/
structure Specifier where
  type : Int
  number : Int
  flags : Int

/-- The cells of a specifier. -/
def cells (s : Specifier) : List Val := [.num s.type, .num s.number, .num s.flags]

/-- The flags are one of the four values of the binding. -/
def Plain (s : Specifier) : Prop := s.flags = 1 ∨ s.flags = 2 ∨ s.flags = 4 ∨ s.flags = 8

/-- Edge triggered interrupts have the trigger value 1. -/
def trigger (s : Specifier) : Nat := if s.flags = 1 ∨ s.flags = 2 then 1 else 0

/-- The number used by the kernel on ARM: shared interrupts start at 32. -/
def armNumber (s : Specifier) : Int := if s.type = 0 then s.number + 32 else s.number

end Verif.Interrupts.Spec
