import Verif.FdtQuery.Model

namespace Verif.FdtQuery.Spec
open Verif.FdtQuery

/-- White space around the index. -/
def Padded (s core : List Char) : Prop :=
  ∃ a b, s = List.replicate a ' ' ++ core ++ List.replicate b ' ' ∧ core.head? ≠ some ' ' ∧ core.getLast? ≠ some ' '

/-- A key is a property name, which stands for its first value, or a property name with an index
in square brackets, or with `*`, which stands for all values (as does a negative index). `none` is
all values. -/
inductive KeyMeans (parseInt : String → Option Int) : String → String → Option Nat → Prop
  | simple (key) : '[' ∉ key.toList → KeyMeans parseInt key key (some 0)
  | all (key name i core rest) : key.toList = name ++ '[' :: i ++ ']' :: rest → '[' ∉ name → ']' ∉ i →
      Padded i core → (core = ['*'] ∨ ∃ n, n < 0 ∧ parseInt (String.ofList core) = some n) →
      KeyMeans parseInt key (String.ofList name) none
  | index (key name i core rest) (n : Nat) : key.toList = name ++ '[' :: i ++ ']' :: rest → '[' ∉ name → ']' ∉ i →
      Padded i core → core ≠ ['*'] → parseInt (String.ofList core) = some (n : Int) →
      KeyMeans parseInt key (String.ofList name) (some n)

/-- The value in a query agrees with the values of a property: one of them, or all. -/
def ValueAgrees : PVal → Option Nat → AVal → Prop
  | .strings l, some i, v => ∃ s, v = .str s ∧ l[i]? = some s
  | .strings l, none, v => v = .strs l ∨ (v = .ints [] ∧ l = [])
  | .words l, some i, v => ∃ n, v = .int n ∧ l[i]? = some n
  | .words l, none, v => v = .ints l ∨ (v = .strs [] ∧ l = [])
  | .bytes l, some i, v => ∃ n, v = .int n ∧ l[i]? = some n
  | .bytes l, none, v => v = .ints l ∨ (v = .strs [] ∧ l = [])
  | .plain, _, _ => False

/-- The node has the property and its value agrees. -/
def Holds (parseInt : String → Option Int) (n : Node) (key : String) (v : AVal) : Prop :=
  ∃ name i p, KeyMeans parseInt key name i ∧ p ∈ n.props ∧ p.name = name ∧ ValueAgrees p.val i v

/-- The node satisfies every condition of a query that gives a path or properties. -/
def Satisfies (env : Env) (q : Query) (n : Node) : Prop :=
  (∀ p, q.path = some p → p ≠ "" → ∃ f, env.search p = some f ∧ f n.path = true) ∧
  (∀ attrs, q.properties = some attrs → ∀ a ∈ attrs, Holds env.parseInt n a.1 a.2)

/-- The path contains the string, letter case ignored. -/
def ContainsIgnoringCase (path s : String) : Prop :=
  s.toList.map Char.toLower <:+: path.toList.map Char.toLower

/-- The entry `name` of the node (`/aliases` or `/chosen`) is the single string `s`. -/
def Says (node : Option (List Property)) (name s : String) : Prop :=
  ∃ props p, node = some props ∧ p ∈ props ∧ p.name = name ∧ p.val = .strings [s]

/-- The node is the only one in the tree whose path contains the string. -/
def OnlyNodeAt (t : Tree) (s : String) (n : Node) : Prop :=
  n ∈ t.nodes ∧ ContainsIgnoringCase n.path s ∧ ∀ m ∈ t.nodes, ContainsIgnoringCase m.path s → m = n

/-- The part of the string in front of the first colon, or all of it. -/
def BeforeColon (s r : String) : Prop :=
  ':' ∉ r.toList ∧ (s.toList = r.toList ∨ ∃ rest, s.toList = r.toList ++ ':' :: rest)

end Verif.FdtQuery.Spec
