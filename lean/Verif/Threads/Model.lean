import Mathlib.Data.List.Basic

/-!
# Model: the threads of a component and their settings (C83, C84)

`threads` (camkes/templates/macros.py:266-320), the properties of threads and scheduling contexts
(macros.py:388-438), the loop that makes the threads (camkes/templates/component.common.c:428-516), the
stack and IPC buffer symbols (macros.py:42-58, camkes/runner/Context.py:573-603) and the TLS regions
(component.common.c:557-600).

Simplification: the settings of a component are natural numbers, and `<interface>_passive` is a separate
Boolean setting. The page size is a parameter.
-/

namespace Verif.Threads

/-- Names. -/
abbrev Str := List Char

/-- A connection end (objects.py:980-990): the instance and the interface. -/
structure End where
  inst : Str
  iface : Str
  deriving DecidableEq

/-- A connection with the numbers of threads of its connector (objects.py:384-393, 811-838). -/
structure Conn where
  fromThreads : Nat
  toThreads : Nat
  fromEnds : List End
  toEnds : List End

/-- The options of the runner, camkes/runner/__main__.py:103-121, 133-141. -/
structure Options where
  stackSize : Nat
  prio : Nat
  maxPrio : Nat
  affinity : Nat
  period : Nat
  budget : Nat
  data : Nat
  sizeBits : Nat
  faultHandlers : Bool
  realtime : Bool

/-- `configuration[me.name]`: the settings of one instance. -/
abbrev Conf := Str → Option Nat

/-- `Thread`, macros.py:283-292, without the texts that are made from the name. -/
structure Thread where
  name : Str
  iface : Option Str
  index : Nat
  stackSize : Nat
  deriving DecidableEq

/-- `re.sub(r'[^A-Za-z0-9]', '_', instance.name)`, macros.py:294. -/
def sanitize (l : Str) : Str :=
  l.map fun ch => if ('A' ≤ ch ∧ ch ≤ 'Z') ∨ ('a' ≤ ch ∧ ch ≤ 'z') ∨ ('0' ≤ ch ∧ ch ≤ '9') then ch else '_'

/-- `"%s_%s_%04d"`, macros.py:303, 310. -/
def ifaceName (inst iface : Str) (x : Nat) : Str :=
  inst ++ '_' :: iface ++ '_' :: (List.replicate (4 - (Nat.toDigits 10 x).length) '0' ++ Nat.toDigits 10 x)

/-- The loop over the ends of one side of a connection, macros.py:300-306 and 307-313. -/
def endThreads (inst : Str) (conf : Conf) (o : Options) (n : Nat) (e : End) : List Thread :=
  if e.inst = inst then
    (List.range n).map fun x =>
      ⟨ifaceName (sanitize inst) e.iface x, some e.iface, x,
        (conf (e.iface ++ "_stack_size".toList)).getD o.stackSize⟩
  else []

/-- `threads`, macros.py:266-320. -/
def threads (conns : List Conn) (inst : Str) (conf : Conf) (o : Options) : List Thread :=
  ⟨sanitize inst ++ "_0_control".toList, none, 0, (conf "_stack_size".toList).getD o.stackSize⟩ ::
  (conns.flatMap fun c =>
    c.fromEnds.flatMap (endThreads inst conf o c.fromThreads) ++
    c.toEnds.flatMap (endThreads inst conf o c.toThreads)) ++
  (if o.faultHandlers then [⟨sanitize inst ++ "_0_fault_handler".toList, none, 0, o.stackSize⟩] else [])

/-- `maybe_set_property_from_configuration`, macros.py:388-406, after the default has been set. -/
def property (conf : Conf) (pre general : Str) (default : Nat) : Nat :=
  match conf (pre ++ general) with
  | some v => v
  | none =>
    match conf general with
    | some v => v
    | none => default

/-- A scheduling context. -/
structure Sc where
  period : Nat
  budget : Nat
  data : Nat
  sizeBits : Nat
  deriving DecidableEq

/-- `set_sc_properties`, macros.py:429-438. -/
def scProperties (o : Options) (conf : Conf) (pre : Str) : Sc :=
  ⟨property conf pre "period".toList o.period, property conf pre "budget".toList o.budget,
    property conf pre "data".toList o.data, property conf pre "size_bits".toList o.sizeBits⟩

/-- The part of a TCB that the settings decide. -/
structure Tcb where
  prio : Nat
  maxPrio : Nat
  affinity : Nat
  domain : Option Nat
  sc : Option Sc
  /-- faults go to the fault handler, badged with the TCB's own capability -/
  faultEp : Bool
  deriving DecidableEq

/-- `set_tcb_properties`, macros.py:413-426. -/
def tcbProperties (o : Options) (conf : Conf) (pre : Str) (sc : Option Sc) (faultEp : Bool) : Tcb :=
  ⟨property conf pre "priority".toList o.prio, property conf pre "max_priority".toList o.maxPrio,
    property conf pre "affinity".toList o.affinity, conf (pre ++ "domain".toList), sc, faultEp⟩

/-- `"%s_" % t.interface.name`; there is no interface in the branches where it is not used. -/
def ifacePrefix (t : Thread) : Str := t.iface.getD [] ++ "_".toList

/-- The scheduling context of a thread, component.common.c:473-488. -/
def threadSc (o : Options) (conf : Conf) (passive : Str → Bool) (t : Thread) (first last : Bool) : Option Sc :=
  if o.realtime && !(t.iface.any passive) then
    some (if first then scProperties o conf "_".toList
      else if o.faultHandlers && last then scProperties o conf "fault".toList
      else scProperties o conf (ifacePrefix t))
  else none

/-- The body of the loop, component.common.c:448-516, for a thread and the flags `loop.first` and
`loop.last`. -/
def threadTcb (o : Options) (conf : Conf) (passive : Str → Bool) (t : Thread) (first last : Bool) : Tcb :=
  let sc := threadSc o conf passive t first last
  let faultEp := o.faultHandlers && !last
  if first then tcbProperties o conf "_".toList sc faultEp
  else if o.faultHandlers && last then
    ⟨255, o.maxPrio, (conf "affinity".toList).getD o.affinity, none, sc, faultEp⟩
  else tcbProperties o conf (ifacePrefix t) sc faultEp

/-- `for t in threads`, component.common.c:448-516, from the second thread on. -/
def restTcbs (o : Options) (conf : Conf) (passive : Str → Bool) : List Thread → List Tcb
  | [] => []
  | [t] => [threadTcb o conf passive t false true]
  | t :: u :: ts => threadTcb o conf passive t false false :: restTcbs o conf passive (u :: ts)

/-- `for t in threads`, component.common.c:448-516. -/
def tcbs (o : Options) (conf : Conf) (passive : Str → Bool) : List Thread → List Tcb
  | [] => []
  | t :: ts => threadTcb o conf passive t true ts.isEmpty :: restTcbs o conf passive ts

/-- The slot in `tls_regions` of the thread number `k`, counted from 0: `loop.index - 2`
(component.common.c:574), for all but the control thread. -/
def tlsSlot (k : Nat) : Nat := k + 1 - 2

/-- The length of `tls_regions`, component.common.c:558. -/
def tlsRegions (ts : List Thread) : Nat := ts.length - 1

/-! ### Stacks and IPC buffers -/

/-- The rights of a mapping. -/
structure Rights where
  read : Bool
  write : Bool
  exec : Bool
  deriving DecidableEq

/-- The size of a stack symbol, `thread_stack`, macros.py:42-47. -/
def stackBytes (p size : Nat) : Nat := (size + p - 1) / p * p + p * 2

/-- What `register_stack_symbol` (Context.py:573-589) asks for, page by page; `none` is a page that is not
mapped. -/
def stackCaps (p size : Nat) : List (Option Rights) :=
  [none] ++ List.replicate (size / p) (some ⟨true, true, false⟩) ++ [none]

/-- The initial stack pointer relative to the symbol, macros.py:291. -/
def stackPointer (p size : Nat) : Nat := size + p

/-- The size of an IPC buffer symbol, `ipc_buffer`, macros.py:50-54. -/
def ipcBytes (p : Nat) : Nat := p * 3

/-- What `register_ipc_symbol` (Context.py:592-603) asks for. -/
def ipcCaps : List (Option Rights) := [none, some ⟨true, true, false⟩, none]

/-- The address of the IPC buffer relative to the symbol, macros.py:57-58, 292. -/
def ipcAddress (p : Nat) : Nat := p

/-- What a byte of a symbol is: the loader maps the page number `off / p` of the symbol as the list says;
pages after the list are left to the loader. -/
inductive Byte where
  | unmapped
  | mapped (r : Rights)
  | unspecified
  deriving DecidableEq

/-- The meaning of `add_symbol_with_caps` (python-capdl). -/
def byteAt (p : Nat) (caps : List (Option Rights)) (off : Nat) : Byte :=
  match caps[off / p]? with
  | some none => .unmapped
  | some (some r) => .mapped r
  | none => .unspecified

end Verif.Threads
