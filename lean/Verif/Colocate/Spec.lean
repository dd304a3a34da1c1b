import Verif.Colocate.Model

/-!
# Specification: instances that share an address space

What an assembly means, without the functions of the model: which instances share an address space
and which method of which instance a direct call means.
-/

namespace Verif.Colocate.Spec
open Verif.Colocate

/-- `i` is the instance of index `k`. -/
def At (c : Comp) (k : Nat) (i : Inst) : Prop := c.insts[k]? = some i

/-- `k` is a software instance in the address space `g`. -/
def In (c : Comp) (g : String) (k : Nat) : Prop := ∃ i, At c k i ∧ i.hardware = false ∧ i.space = g

/-- `n` is a direct connection from `f` to `t`. -/
def Direct (c : Comp) (n : Conn) (f t : End) : Prop :=
  n ∈ c.conns ∧ n.type = "seL4DirectCall" ∧ n.fromEnds = [f] ∧ n.toEnds = [t]

/-- The C name of a method of an interface. -/
def CName (e : End) (m s : String) : Prop := s.toList = e.iface.toList ++ '_' :: m.toList

/-- A call: the code of instance `k` refers to `r`, which is method `m` of the interface that it uses
over a direct connection; `d` is the name that the code of instance `k'`, at the other end, has
for the same method. -/
def Call (c : Comp) (k : Nat) (r : String) (k' : Nat) (d : String) : Prop :=
  ∃ n f t m, Direct c n f t ∧ m ∈ f.methods ∧ f.inst = k ∧ t.inst = k' ∧ CName f m r ∧ CName t m d

/-- What the parser has checked of the direct connections: every one has one `from` end and one `to`
end, which belong to different software instances and have the same methods; connections have
different names; and no interface of an instance is at two ends. -/
structure Checked (c : Comp) : Prop where
  single : ∀ n ∈ c.conns, n.type = "seL4DirectCall" → ∃ f t, n.fromEnds = [f] ∧ n.toEnds = [t]
  conns : c.conns.Pairwise fun n n' => n.name ≠ n'.name
  methods : ∀ n f t, Direct c n f t → f.methods = t.methods ∧ f.methods.Nodup
  apart : ∀ n f t, Direct c n f t → f.inst ≠ t.inst
  insts : ∀ k k' i i', At c k i → At c k' i' → i.name = i'.name → k = k'
  /-- identifiers have no blanks, and `connection` is a keyword -/
  words : ∀ k i, At c k i → ' ' ∉ i.name.toList ∧ i.name ≠ "connection"

/-- All ends of a direct connection are in the same address space: the templates refuse others. -/
def Together (c : Comp) : Prop :=
  ∀ n f t, Direct c n f t → ∃ g, In c g f.inst ∧ In c g t.inst

/-- No two names that are put together with an underscore are the same by accident. The tool does not
check this. -/
structure Unambiguous (c : Comp) : Prop where
  /-- names of methods of connections -/
  shared : ∀ n f t n' f' t' m m', Direct c n f t → Direct c n' f' t' → m ∈ f.methods →
    m' ∈ f'.methods → n.name.toList ++ '_' :: m.toList = n'.name.toList ++ '_' :: m'.toList →
    n = n' ∧ m = m'
  /-- names of interfaces of instances -/
  keys : ∀ n f t n' f' t' i i', Direct c n f t → Direct c n' f' t' → At c t.inst i →
    At c t'.inst i' → i.name.toList ++ '_' :: t.iface.toList = i'.name.toList ++ '_' :: t'.iface.toList →
    n = n'
  /-- C names of the methods of an instance -/
  cnames : ∀ n f t n' f' t' e e' m m' s, Direct c n f t → Direct c n' f' t' → (e = f ∨ e = t) →
    (e' = f' ∨ e' = t') → e.inst = e'.inst → m ∈ e.methods → m' ∈ e'.methods → CName e m s →
    CName e' m' s → n = n' ∧ m = m'
  /-- no method is called like the entry point -/
  entry : ∀ n f t e m, Direct c n f t → (e = f ∨ e = t) → m ∈ e.methods → ¬ CName e m "_camkes_start"

/-- The objects of the instances: symbols of C, each defined once; every method that an instance
provides over a direct connection is defined; and the only symbols that are not defined are
methods that the instance uses over direct connections. -/
structure Objects (c : Comp) (objs : Nat → Obj) : Prop where
  defs : ∀ k, (objs k).defs.Nodup
  ids : ∀ k s, s ∈ (objs k).defs → ' ' ∉ s.toList ∧ s ≠ ""
  provided : ∀ n f t m d, Direct c n f t → m ∈ t.methods → CName t m d → d ∈ (objs t.inst).defs
  used : ∀ k r, r ∈ (objs k).refs → ∃ n f t m, Direct c n f t ∧ f.inst = k ∧ m ∈ f.methods ∧ CName f m r

/-- `gs` enumerates the set of the elements of `l`. -/
def Enumerates (gs l : List String) : Prop := gs.Nodup ∧ ∀ x, x ∈ gs ↔ x ∈ l

end Verif.Colocate.Spec
