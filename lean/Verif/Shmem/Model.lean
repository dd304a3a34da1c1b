import Verif.Context.Model
import Verif.Macros.Model

/-!
# Model: shared memory connectors (C85)

What the templates of seL4SharedData and seL4DMASharedData register for each end of a connection
(camkes/templates/seL4SharedData.template.c:14-40, seL4DMASharedData.template.c:16-27), with `get_perm`,
`dataport_size` and `shared_buffer_symbol` (camkes/templates/macros.py:61-71, 137-145, 323-328) and
`register_shared_variable` (camkes/runner/Context.py:455-527, of which the part that makes frames is in
`Verif.Context`).

Simplifications: the size of a C type, which the compiler knows, is a number that comes with the type. Settings
have the right type. The mapping itself is python-capdl's: frame `i` of a symbol is mapped `i` times the frame
size after its start.
-/

namespace Verif.Shmem

open Verif.Context (Text St objAlloc registerShared)
open Verif.Macros (getPageSize)

/-- The type of a dataport: `Buf(n)`, or a C type of a certain size (macros.py:323-328). -/
inductive DType where
  | buf (n : Nat)
  | named (bytes : Nat)
  deriving DecidableEq

/-- The two connectors. -/
inductive Connector where
  | sharedData
  | dmaSharedData
  deriving DecidableEq

/-- One end of a connection. -/
structure PortEnd where
  conn : Text
  connector : Connector
  inst : Text
  iface : Text
  type : DType
  deriving DecidableEq

/-- The settings that are read: `size` and `paddr` of a connection, and `<interface>_access` and
`<interface>_cached` of an instance. -/
structure Settings where
  size : Text → Option Nat
  paddr : Text → Option Nat
  access : Text → Text → Option Text
  cached : Text → Text → Option Bool

/-- How it may fail: an exception of a template, or a static assertion in the generated code. -/
inductive Err where
  | template
  | static
  | python
  deriving DecidableEq, Repr

/-- An optional letter of a regular expression. -/
def skip (ch : Char) : Text → Text
  | [] => []
  | x :: l => if x = ch then l else x :: l

/-- `re.match('^R?W?X?P?$', perm)`, macros.py:142; `$` matches before a newline at the end, too. -/
def permMatch (p : Text) : Bool :=
  let rest := skip 'P' (skip 'X' (skip 'W' (skip 'R' p)))
  rest == [] || rest == ['\n']

/-- `get_perm`, macros.py:137-145. -/
def getPerm (access : Option Text) : Except Err Text :=
  match access with
  | none => .ok ['R', 'W', 'X', 'P']
  | some [] => .ok ['R', 'W', 'X', 'P']
  | some (ch :: l) => if permMatch (ch :: l) then .ok (ch :: l) else .error .template

/-- The rights of a mapping. -/
structure Rights where
  read : Bool
  write : Bool
  exec : Bool
  deriving DecidableEq

/-- `'R' in perm` and so on, Context.py:500-502. -/
def rightsOf (perm : Text) : Rights := ⟨perm.contains 'R', perm.contains 'W', perm.contains 'X'⟩

/-- What one end has got. -/
structure Mapped where
  symbolBytes : Nat
  frameSize : Nat
  frames : List Nat
  rights : Rights
  cached : Bool
  paddrs : Option (List Nat)

/-- `ROUND_UP_UNSAFE` of libutils. -/
def roundUpUnsafe (x y : Nat) : Nat := (x + y - 1) / y * y

/-- `register_shared_variable`, Context.py:455-527, with the static assertions about the symbol, which has
`symbol` bytes. -/
def register (ps : List Nat) (s : St) (conn : Text) (size page symbol : Nat) (paddr : Option Nat) (perm : Text)
    (cached : Bool) : Except Err (St × Mapped) :=
  match registerShared ps s (conn ++ ['_', 'd', 'a', 't', 'a']) size (some page) paddr with
  | .error _ => .error .python
  | .ok (s', frames, _, paddrs) =>
    if symbol ≤ size ∧ symbol % page = 0 then .ok (s', ⟨symbol, page, frames, rightsOf perm, cached, paddrs⟩)
    else .error .static

/-- The size of an end of a seL4SharedData connection, seL4SharedData.template.c:23-31. -/
def portSize (st : Settings) (e : PortEnd) : Nat :=
  match e.type with
  | .buf n => n
  | .named _ => (st.size e.conn).getD 4096

/-- `dataport_size`, macros.py:323-328, as the compiler evaluates it. -/
def typeSize : DType → Nat
  | .buf n => n
  | .named b => b

/-- The template for one end: seL4SharedData.template.c:22-40 or seL4DMASharedData.template.c:16-27. -/
def renderEnd (ps : List Nat) (st : Settings) (s : St) (e : PortEnd) : Except Err (St × Mapped) :=
  match e.connector with
  | .sharedData =>
    let size := portSize st e
    let page := getPageSize size ps
    if page = 0 then .error .template
    else
      match getPerm (st.access e.inst e.iface) with
      | .error x => .error x
      | .ok perm => register ps s e.conn size page (roundUpUnsafe (max (typeSize e.type) size) page) none perm true
  | .dmaSharedData =>
    let size := (st.size e.conn).getD 4096
    match getPerm (st.access e.inst e.iface) with
    | .error x => .error x
    | .ok perm =>
      register ps s e.conn size 4096 (roundUpUnsafe size 4096) (st.paddr e.conn) perm
        ((st.cached e.inst e.iface).getD true)

/-- The templates of an assembly share the object space (camkes/runner/__main__.py:246-262): ends of
connections, and everything else that makes objects. -/
inductive Step where
  | port (e : PortEnd)
  | other (name : Text)

/-- The templates are rendered one after the other. -/
def render (ps : List Nat) (st : Settings) : St → List Step → Except Err (St × List (PortEnd × Mapped))
  | s, [] => .ok (s, [])
  | s, .other name :: rest => render ps st (objAlloc s name).1 rest
  | s, .port e :: rest =>
    match renderEnd ps st s e with
    | .error x => .error x
    | .ok (s', m) =>
      match render ps st s' rest with
      | .error x => .error x
      | .ok (s'', ms) => .ok (s'', (e, m) :: ms)

/-- The byte of physical memory behind byte `off` of the symbol: a frame object and an offset in it. -/
def backing (m : Mapped) (off : Nat) : Option (Nat × Nat) :=
  (m.frames[off / m.frameSize]?).map fun f => (f, off % m.frameSize)

end Verif.Shmem
