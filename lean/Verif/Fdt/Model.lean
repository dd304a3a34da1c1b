/-!
# Model: device tree cells and address translation (camkes/parser/fdtQueryEngine.py:417-597)

Words of a device tree property are natural numbers; that they are below `2^32` is a hypothesis
where it is needed. A loop that may not end takes a bound on its number of rounds and answers
`none` when the bound is used up, so that it runs for ever exactly if the answer is `none` for
every bound.
-/

namespace Verif.Fdt

/-- `functools.reduce(lambda a, b: (a << 32) + b, [0] + data[0:sz])`,
camkes/parser/fdtQueryEngine.py:428. -/
def join (ws : List Nat) : Nat := ws.foldl (fun a b => a <<< 32 + b) 0

/-- `DtbMatchQuery.unpack`, camkes/parser/fdtQueryEngine.py:423-430. -/
def unpack (data : List Nat) : List Nat → List Nat × List Nat
  | [] => ([], data)
  | sz :: sizes =>
    let (r, d) := unpack (data.drop sz) sizes
    (join (data.take sz) :: r, d)

/-- `DtbMatchQuery.unpacker`, camkes/parser/fdtQueryEngine.py:432-436: all rows of the generator. -/
def unpacker : Nat → List Nat → List Nat → Option (List (List Nat))
  | 0, _, _ => none
  | fuel + 1, data, sizes =>
    if data.isEmpty then some []
    else
      let (row, rest) := unpack data sizes
      (unpacker fuel rest sizes).map (row :: ·)

/-- `DtbMatchQuery.pack`, camkes/parser/fdtQueryEngine.py:438-448. -/
def pack (x : Nat) : Nat → Except String (List Nat)
  | 0 => if x ≠ 0 then .error "value does not fit into device tree" else .ok []
  | n + 1 =>
    match pack (x >>> 32) n with
    | .error e => .error e
    | .ok r => .ok (r ++ [x &&& (1 <<< 32 - 1)])

/-- An entry of `bus['translations']`. -/
structure Window where
  fromStart : Nat
  toStart : Nat
  size : Nat
  deriving DecidableEq, Repr

/-- A bus: `this-address-cells`, `this-size-cells` and, if present, `ranges`. -/
structure RawBus where
  ac : Nat
  sc : Nat
  ranges : Option (List Nat)
  deriving DecidableEq, Repr

/-- A bus with its decoded `translations`. -/
structure Bus where
  ac : Nat
  sc : Nat
  translations : Option (List Window)
  deriving DecidableEq, Repr

/-- The inner loop of `xlat_reg`, camkes/parser/fdtQueryEngine.py:455-462. -/
def xlatBus (addr size : Nat) : List Window → Except String Nat
  | [] => .ok addr
  | w :: ws =>
    if addr < w.fromStart ∨ (addr : Int) > (w.fromStart : Int) + w.size - 1 then xlatBus addr size ws
    else if addr + size > w.fromStart + w.size then .error "Region does not fit into range"
    else .ok (w.toStart + (addr - w.fromStart))

/-- `DtbMatchQuery.xlat_reg`, camkes/parser/fdtQueryEngine.py:450-463. -/
def xlatReg (addr size : Nat) : List Bus → Except String Nat
  | [] => .ok addr
  | b :: bs =>
    match b.translations with
    | none => xlatReg addr size bs
    | some ts =>
      match xlatBus addr size ts with
      | .error e => .error e
      | .ok a => xlatReg a size bs

/-- The loop of `xlat_regs`, camkes/parser/fdtQueryEngine.py:473-484, with the generator it reads
from. -/
def xlatLoop (ac sc : Nat) (buses : List Bus) : Nat → List Nat → Option (Except String (List Nat))
  | 0, _ => none
  | fuel + 1, data =>
    if data.isEmpty then some (.ok [])
    else
      match unpack data [ac, sc] with
      | ([addr, size], rest) =>
        match xlatReg addr size buses with
        | .error e => some (.error e)
        | .ok a =>
          match pack a ac with
          | .error e => some (.error e)
          | .ok pa =>
            match pack size sc with
            | .error e => some (.error e)
            | .ok ps => (xlatLoop ac sc buses fuel rest).map (Except.map (fun out => pa ++ ps ++ out))
      | _ => some (.error "ValueError")

/-- `DtbMatchQuery.xlat_regs`, camkes/parser/fdtQueryEngine.py:465-484. -/
def xlatRegs (fuel : Nat) (reg : List Nat) (buses : List Bus) : Option (Except String (List Nat)) :=
  match buses with
  | [] => some (.error "IndexError")
  | b :: _ => xlatLoop b.ac b.sc buses fuel reg

/-- One row of a `ranges` property, camkes/parser/fdtQueryEngine.py:507-514. -/
def toWindow : List Nat → Window
  | [t, p, s] => ⟨t, p, s⟩
  | _ => ⟨0, 0, 0⟩

/-- `DtbMatchQuery.resolve_translations`, camkes/parser/fdtQueryEngine.py:486-518. -/
def resolveTranslations (fuel : Nat) : List RawBus → Option (Except String (List Bus))
  | [] => some (.ok [])
  | b :: bs =>
    match b.ranges with
    | none => (resolveTranslations fuel bs).map (Except.map (fun r => ⟨b.ac, b.sc, none⟩ :: r))
    | some ws =>
      match bs with
      | [] => some (.error "cannot have 'ranges' without parent bus")
      | pb :: _ =>
        match unpacker fuel ws [b.ac, pb.ac, b.sc] with
        | none => none
        | some rows =>
          (resolveTranslations fuel bs).map
            (Except.map (fun r => ⟨b.ac, b.sc, some (rows.map toWindow)⟩ :: r))

/-- A property of a node, with the list of its values. -/
abbrev Property := String × List Nat

/-- The loop over the properties of one ancestor, camkes/parser/fdtQueryEngine.py:527-539 and
544-547: the last property of a name counts; `#address-cells` without value raises `IndexError`. -/
def busOf (props : List Property) : Except String RawBus :=
  props.foldlM (init := (⟨2, 1, none⟩ : RawBus)) fun b p =>
    if p.1 = "#address-cells" then
      match p.2 with
      | v :: _ => .ok { b with ac := v }
      | [] => .error "IndexError"
    else if p.1 = "#size-cells" then
      match p.2 with
      | v :: _ => .ok { b with sc := v }
      | [] => .error "IndexError"
    else if p.1 = "ranges" then .ok { b with ranges := some p.2 }
    else .ok b

/-- `DtbMatchQuery.resolve_buses`, camkes/parser/fdtQueryEngine.py:520-554. A node is given by the
properties of its ancestors, from its parent up to the root; the root has no ancestor and gets one
default bus. -/
def resolveBuses : List (List Property) → Except String (List RawBus)
  | [] => .ok [⟨2, 1, none⟩]
  | [p] => match busOf p with
    | .error e => .error e
    | .ok b => .ok [b]
  | p :: ps =>
    match busOf p with
    | .error e => .error e
    | .ok b => match resolveBuses ps with
      | .error e => .error e
      | .ok bs => .ok (b :: bs)

/-- The `reg` entry of the result of `resolve_fdt_node`, camkes/parser/fdtQueryEngine.py:575-582,
for a node with property `reg`. -/
def resolveReg (fuel : Nat) (reg : List Nat) (ancestors : List (List Property)) :
    Option (Except String (List Nat)) :=
  match resolveBuses ancestors with
  | .error e => some (.error e)
  | .ok raw =>
    match resolveTranslations fuel raw with
    | none => none
    | some (.error e) => some (.error e)
    | some (.ok buses) => xlatRegs fuel reg buses

end Verif.Fdt
