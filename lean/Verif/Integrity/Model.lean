import Verif.Labels.Model

/-!
# Model: the generated statement of integrity (camkes/templates/cdl-refine.thy)

Which label the generated theory gives to each object, interrupt and ASID pool, and the lemmas about labels that it states. The proofs of
the theory, the policy itself and the object sizes' use by `RangeMap` are left out. The labels of groups are those of `Labels`.
-/

namespace Verif.Integrity

open Labels (Inst Conn Dict)

/-- The class of an object, as far as the template looks at it. -/
inductive Kind
  | irq (number : Nat)
  | asidPool (high : Option Nat)
  | other
  deriving DecidableEq, Repr

/-- An object of the allocator. -/
structure Obj where
  name : String
  sizeBits : Option Nat
  kind : Kind
  deriving DecidableEq, Repr

/-- `obj_space.labels`: for each label the objects that were allocated under it. -/
abbrev Space := List (String × List Obj)

/-- `object_label_mapping`, camkes/runner/Context.py:617-621. -/
def mapping (s : Space) : List (Obj × String) := s.flatMap fun p => p.2.map fun o => (o, p.1)

/-- `isabelle_ident`, camkes/templates/macros.py:452-456; the assertion looks only at the first character. -/
def ident (n : String) : Option String :=
  match n.toList with
  | [] => none
  | c :: cs =>
    if c.isAlpha || c == '_' then some (String.ofList ((c :: cs).map fun c => if c = '.' then '\'' else c)) else none

/-- `group_labels.get(x, x)`. -/
def groupOf (g : Dict) (x : String) : String := (Labels.get g x).getD x

/-- An entry of `obj_labels`: the constant, the size, the label. -/
structure Entry where
  const : String
  size : Nat
  label : String
  deriving DecidableEq, Repr

/-- The entry of an object, camkes/templates/cdl-refine.thy:220-224, 237: root untypeds have none. -/
def entryOf (g : Dict) (p : Obj × String) : Option (List Entry) :=
  if "root_untyped_".toList.isPrefixOf p.1.name.toList then some []
  else (ident p.1.name).map fun n => [⟨n ++ "_id", p.1.sizeBits.getD 0, groupOf g p.2⟩]

/-- `mapM` for lists of entries. -/
def collect (f : α → Option (List β)) : List α → Option (List β)
  | [] => some []
  | a :: as =>
    match f a with
    | none => none
    | some bs => (collect f as).map fun cs => bs ++ cs

/-- `obj_labels` and `label_entries`, camkes/templates/cdl-refine.thy:217-246. Simplification: the order is left out, as the theory sorts
the entries by the numbers of the objects. `none` if a name is refused. -/
def objLabels (g : Dict) (s : Space) : Option (List Entry) := collect (entryOf g) (mapping s)

/-- The entries of `irqs`, camkes/templates/cdl-refine.thy:413-422. -/
def irqLabels (g : Dict) (s : Space) : List (Nat × String) :=
  (mapping s).filterMap fun p => match p.1.kind with | .irq n => some (n, groupOf g p.2) | _ => none

/-- The entries of `asids`, camkes/templates/cdl-refine.thy:360-382. -/
def asidLabels (s : Space) : List (Nat × String) :=
  (mapping s).filterMap fun p => match p.1.kind with | .asidPool (some h) => some (h, p.2) | _ => none

/-- The lines of `group_label_lookups`, camkes/templates/cdl-refine.thy:119-123: a name and the label stated for it. -/
def lookupLines (g : Dict) (is : List Inst) (cs : List Conn) : List (String × String) :=
  (is.map Inst.name ++ cs.map Conn.name).map fun x => (x, groupOf g x)

/-- The right-hand side of `policy_extra`, camkes/templates/cdl-refine.thy:125-135. -/
def extraStated (extra : List (String × String × String)) : List (String × String × String) := extra

/-- The left-hand side of `policy_extra`, camkes/templates/cdl-refine.thy:127-129: the image of what the architecture specification lists
(camkes/templates/arch-definitions.thy:428) under `get_group_label`, the lookup in `group_labels`. -/
def extraMeant (g : Dict) (extra : List (String × String × String)) : List (String × String × String) :=
  extra.map fun t => (groupOf g t.1, t.2.1, groupOf g t.2.2)

/-! ### The objects of instances -/

/-- An instance with what its type says. `control` and `hardware` exclude each other, camkes/ast/objects.py:683-685. -/
structure Comp where
  inst : Inst
  control : Bool
  hardware : Bool

/-- `re.sub(r'[^A-Za-z0-9]', '_', name)`, camkes/templates/macros.py:294. -/
def mangled (n : String) : String := String.ofList (n.toList.map fun c => if c.isAlphanum then c else '_')

/-- `name.replace('.', '_')`, camkes/templates/cdl-refine.thy:306. -/
def dotless (n : String) : String := String.ofList (n.toList.map fun c => if c = '.' then '_' else c)

/-- The CNode and the page directory of an address space, camkes/runner/__main__.py:264-268: the label and the name of each. -/
def spaceObjects (key : String) : List (String × String) := [(key, key ++ "_cnode"), (key, key ++ "_group_bin_pd")]

/-- The control thread of an instance, camkes/templates/component.common.c:460, camkes/templates/macros.py:297,
camkes/runner/Context.py:60-64: its label and its name. -/
def tcbObject (c : Comp) : String × String := (c.inst.name, c.inst.name ++ "_" ++ (mangled c.inst.name ++ "_0_control") ++ "_tcb")

/-- The objects that are allocated for each instance of software, camkes/runner/__main__.py:256-272. Only those objects are given that the
generated lemmas mention. -/
def ownObjects (cs : List Comp) : List (String × String) :=
  (cs.filter fun c => !c.hardware).flatMap fun c => tcbObject c :: spaceObjects c.inst.addressSpace

/-- The conjuncts about single objects of `tcbs_correct`, camkes/templates/cdl-refine.thy:298-314: a constant and the label stated for it.
Left out: the conjuncts about the capabilities of the thread and about page tables. -/
def sanityLines (g : Dict) (cs : List Comp) : Option (List (String × String)) :=
  collect (fun c =>
    if c.control then
      let group := groupOf g c.inst.name
      match ident group, ident (c.inst.name ++ "_" ++ dotless c.inst.name ++ "_0_control_tcb_id"), ident (group ++ "_group_bin_pd_id") with
      | some a, some t, some p => some [(a ++ "_cnode_id", group), (t, group), (p, group)]
      | _, _, _ => none
    else some []) cs

/-- The subjects that `admissible_pas` allows, camkes/templates/cdl-refine.thy:474: the components of the architecture specification
(camkes/templates/arch-definitions.thy lists one for each instance). -/
def admissibleSubjects (is : List Inst) : List String := is.map Inst.name

/-- The subjects for which `policy_wellformed` is stated, camkes/templates/cdl-refine.thy:542-543. -/
def wellformedSubjects (g : Dict) (is : List Inst) : List String := is.map fun i => groupOf g i.name

end Verif.Integrity
