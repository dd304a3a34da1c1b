import Verif.Fdt.Model
import Mathlib.Data.List.Forall2

/-! # Specification: big-endian cells and bus translation -/

namespace Verif.Fdt.Spec
open Verif.Fdt

/-- The `n` 32-bit cells of a number, most significant first. -/
def cells (n x : Nat) : List Nat := (List.range n).map (fun i => x / 2 ^ (32 * (n - 1 - i)) % 2 ^ 32)

/-- The number can be written in `n` cells. -/
def Fits (n x : Nat) : Prop := x < 2 ^ (32 * n)

/-- A row of numbers written in the given numbers of cells. -/
def rowCells (sizes vals : List Nat) : List Nat := (List.zipWith cells sizes vals).flatten

/-- The row has one number for each size, and each fits. -/
def RowFits (sizes vals : List Nat) : Prop := List.Forall₂ Fits sizes vals

/-- The address lies in the window of child addresses. -/
def Window.Contains (w : Window) (a : Nat) : Prop := w.fromStart ≤ a ∧ a < w.fromStart + w.size

/-- One level: a region in a window moves to the same offset in the parent's window (the first
window of the table that contains the address counts); an address in no window stays. -/
inductive Step (ts : List Window) (size : Nat) : Nat → Nat → Prop
  | inside (a pre w post) : ts = pre ++ w :: post → (∀ v ∈ pre, ¬ Window.Contains v a) → Window.Contains w a →
      a + size ≤ w.fromStart + w.size → Step ts size a (w.toStart + (a - w.fromStart))
  | outside (a) : (∀ v ∈ ts, ¬ Window.Contains v a) → Step ts size a a

/-- All levels, from the bus of the device up to the root. `none` is a bus without `ranges`. -/
inductive Route (size : Nat) : List (Option (List Window)) → Nat → Nat → Prop
  | root (a) : Route size [] a a
  | plain (bs a r) : Route size bs a r → Route size (none :: bs) a r
  | ranges (ts bs a a' r) : Step ts size a a' → Route size bs a' r → Route size (some ts :: bs) a r

/-- The raw bus describes address and size cells and a table of windows, encoded for the number of
address cells of the parent bus. -/
def Encodes (parentAc : Nat) (b : RawBus) (table : Option (List Window)) : Prop :=
  match table with
  | none => b.ranges = none
  | some ws => b.ranges = some (ws.map (fun w => rowCells [b.ac, parentAc, b.sc] [w.fromStart, w.toStart, w.size])).flatten ∧
      (∀ w ∈ ws, RowFits [b.ac, parentAc, b.sc] [w.fromStart, w.toStart, w.size]) ∧
      (ws ≠ [] → 0 < b.ac + parentAc + b.sc)

/-- A chain of buses up to the root describes a chain of tables. The root has none. -/
inductive EncodesAll : List RawBus → List (Option (List Window)) → Prop
  | root (b) : b.ranges = none → EncodesAll [b] [none]
  | cons (b pb bs t ts) : Encodes pb.ac b t → EncodesAll (pb :: bs) ts → EncodesAll (b :: pb :: bs) (t :: ts)

/-- The value of the last property of that name. -/
def lastProp (name : String) (props : List Property) : Option (List Nat) :=
  (props.reverse.find? (fun p => p.1 = name)).map (·.2)

/-- What the properties of an ancestor say about its bus: the defaults are those of the
devicetree specification. -/
def Describes (props : List Property) (b : RawBus) : Prop :=
  b.ranges = lastProp "ranges" props ∧
  (match lastProp "#address-cells" props with
    | some (v :: _) => b.ac = v
    | some [] => False
    | none => b.ac = 2) ∧
  (match lastProp "#size-cells" props with
    | some (v :: _) => b.sc = v
    | some [] => False
    | none => b.sc = 1)

end Verif.Fdt.Spec
