import Verif.Macros.Model

/-!
# Model: device memory (C86)

The registers of devices: `parse_dtb_node_reg` (camkes/templates/dtb-query-common.template.c:7-46) and the
register section of camkes/templates/seL4DTBHardware-to.template.c:48-93, and
camkes/templates/seL4HardwareMMIO.template.c:18-100. `next_page_multiple`, `align_page_address` and
`get_page_size` are those of `Verif.Macros`; frames and their physical addresses are made by
`register_shared_variable` (camkes/runner/Context.py:481-499, 515).

Simplifications: settings that are no integers are `Setting.other`; the size of the C type of the dataport, which
the compiler knows, is a parameter. The mapping itself is python-capdl's: frame `i` of a symbol is mapped `i`
times the frame size after its start.
-/

namespace Verif.DevMem

open Verif.Macros (alignPageAddress nextPageMultiple getPageSize)

/-- How it may fail. -/
inductive Err where
  | template
  | static
  | loop
  deriving DecidableEq, Repr

/-- The loops over the cells of a number, dtb-query-common.template.c:25-36. The index is always in range,
because of the number of rounds of the outer loop. -/
def cellsNumber (regs : List Nat) (start n : Nat) : Nat :=
  (List.range n).foldl (fun acc j => acc + (regs.getD (start + (n - 1 - j)) 0) <<< (j * 32)) 0

/-- `parse_dtb_node_reg`, dtb-query-common.template.c:7-46: `reg_set`, with the address as it is before it
is aligned. A missing property is `none`. -/
def parseReg (regs : Option (List Nat)) (addressCells sizeCells : Nat) : Except Err (List (Nat × Nat)) :=
  match regs with
  | none => .ok []
  | some regs =>
    if sizeCells = 0 then .error .template
    else
      let entry := addressCells + sizeCells
      .ok ((List.range (regs.length / entry)).map fun i =>
        (cellsNumber regs (i * entry) addressCells, cellsNumber regs (i * entry + addressCells) sizeCells))

/-- A piece of memory in the address space of the component: `dataport_frame_t`,
seL4DTBHardware-to.template.c:80-87, seL4HardwareMMIO.template.c:91-100. `offset` is the virtual address
relative to the symbol. -/
structure Frame where
  paddr : Nat
  size : Nat
  offset : Nat
  deriving DecidableEq, Repr

/-- The frames of a symbol: Context.py:484-499, and the entries of the templates. -/
def frames (paddr size page : Nat) : List Frame :=
  (List.range (size / page)).map fun i => ⟨paddr + i * page, page, i * page⟩

/-- What is made for one symbol. -/
structure Region where
  symbolBytes : Nat
  frames : List Frame
  cached : Bool
  deriving DecidableEq, Repr

/-- `ROUND_UP_UNSAFE` of libutils. -/
def roundUpUnsafe (x y : Nat) : Nat := (x + y - 1) / y * y

/-- The static assertions of `register_shared_variable`, Context.py:520-527. -/
def checked (symbol size page : Nat) (r : Region) : Except Err Region :=
  if symbol ≤ size ∧ symbol % page = 0 then .ok r else .error .static

/-- The loop over the registers, seL4DTBHardware-to.template.c:53-87, for one register. `p` is the smallest
page size. -/
def register (p : Nat) (ps : List Nat) (cached : Bool) (block : Nat × Nat) : Except Err Region :=
  let paddr := alignPageAddress block.1 p
  match nextPageMultiple (block.2 + 1) block.2 (p :: ps) with
  | none => .error .loop
  | some size =>
    let size := size.toNat
    let page := getPageSize size (p :: ps)
    checked (roundUpUnsafe size page) size page ⟨roundUpUnsafe size page, frames paddr size page, cached⟩

/-- The register section for a device. -/
def registers (p : Nat) (ps : List Nat) (cached : Option Bool) (regs : Option (List Nat)) (ac sc : Nat) :
    Except Err (List Region) :=
  match parseReg regs ac sc with
  | .error e => .error e
  | .ok blocks => blocks.mapM (register p ps (cached.getD false))

/-! ### seL4HardwareMMIO -/

/-- A setting: an integer, or something else. -/
inductive Setting where
  | int (n : Int)
  | other
  deriving DecidableEq

/-- seL4HardwareMMIO.template.c:18-100 up to the frames. -/
def mmio (ps : List Nat) (paddr size : Option Setting) (cached : Option Bool) (typeBytes : Nat) :
    Except Err (Region × Nat × Nat) :=
  match paddr with
  | some (.int a) =>
    if a < 0 then .error .template
    else
      match size with
      | some (.int n) =>
        if n ≤ 0 then .error .template
        else
          let page := getPageSize n.toNat ps
          if page = 0 then .error .template
          else
            let symbol := roundUpUnsafe typeBytes page
            match checked symbol n.toNat page ⟨symbol, frames a.toNat n.toNat page, cached.getD false⟩ with
            | .error e => .error e
            | .ok r => if typeBytes = n.toNat then .ok (r, a.toNat, n.toNat) else .error .static
      | _ => .error .template
  | _ => .error .template

/-- `<interface>_translate_paddr`, seL4HardwareMMIO.template.c:82-88, in words of `w` bits: the offset of the
result in the dataport, or NULL. -/
def translate (w P S paddr size : Nat) : Option Nat :=
  if paddr ≥ P ∧ (paddr + size) % 2 ^ w ≤ P + S then some (paddr - P) else none

end Verif.DevMem
