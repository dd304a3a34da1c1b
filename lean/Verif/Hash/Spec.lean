import Verif.Hash.Model

namespace Verif.Hash.Spec
open Verif.Hash

/-- The fields that do not count: where the object comes from, its place in the AST, whether it is
frozen, and data derived from the other fields. -/
def ignored (cls : String) : List String :=
  ["child_fields", "_frozen", "_location", "no_hash", "_parent"] ++
    (if cls ∈ ["Composition", "Configuration", "Component", "Group", "Procedure"] then ["_mapping"] else []) ++
    (if cls = "LiftedAST" then ["_assembly"] else [])

mutual
/-- Well-formed values: dictionaries have each key once, and the fields an object compares are
the ones its class gives it (`shape`), in the order in which the constructor sets them. -/
inductive Wf (shape : String → List String) : Val → Prop
  | none : Wf shape .none
  | str (s) : Wf shape (.str s)
  | int (n) : Wf shape (.int n)
  | ref (n) : Wf shape (.ref n)
  | list (l) : WfL shape l → Wf shape (.list l)
  | tuple (l) : WfL shape l → Wf shape (.tuple l)
  | dict (f d) : d.keys.Nodup → WfE shape d → Wf shape (.dict f d)
  | obj (c fs) : fs.keys.Nodup → fs.keys.filter (fun k => !decide (k ∈ ignored c)) = shape c → WfE shape fs →
      Wf shape (.obj c fs)

inductive WfL (shape : String → List String) : Vals → Prop
  | nil : WfL shape .nil
  | cons (v rest) : Wf shape v → WfL shape rest → WfL shape (.cons v rest)

inductive WfE (shape : String → List String) : Entries → Prop
  | nil : WfE shape .nil
  | cons (k v rest) : Wf shape v → WfE shape rest → WfE shape (.cons k v rest)
end

/-- The dictionary has the entry. -/
inductive Has : Entries → String → Val → Prop
  | here (k v rest) : Has (.cons k v rest) k v
  | there (k v k' v' rest) : Has rest k v → Has (.cons k' v' rest) k v

mutual
/-- Two values are structurally the same: the same scalar, sequences of the same kind and length
with the same elements, dictionaries with the same keys and values, or objects of the same class
whose fields are the same, except for the fields that do not count. (`m k` is the second object's
value for `k`.) -/
inductive Same : Val → Val → Prop
  | none : Same .none .none
  | str (s) : Same (.str s) (.str s)
  | int (n) : Same (.int n) (.int n)
  | ref (n) : Same (.ref n) (.ref n)
  | list (a b) : SameL a b → Same (.list a) (.list b)
  | tuple (a b) : SameL a b → Same (.tuple a) (.tuple b)
  | dict (f g a b) (m : String → Val) : (∀ k, (∃ v, Has a k v) ↔ ∃ v, Has b k v) →
      (∀ k v, Has a k v → Has b k (m k)) → (∀ k v, Has a k v → Same v (m k)) → Same (.dict f a) (.dict g b)
  | obj (c a b) (m : String → Val) : (∀ k, k ∉ ignored c → ((∃ v, Has a k v) ↔ ∃ v, Has b k v)) →
      (∀ k v, k ∉ ignored c → Has a k v → Has b k (m k)) → (∀ k v, k ∉ ignored c → Has a k v → Same v (m k)) →
      Same (.obj c a) (.obj c b)

inductive SameL : Vals → Vals → Prop
  | nil : SameL .nil .nil
  | cons (v w a b) : Same v w → SameL a b → SameL (.cons v a) (.cons w b)
end

/-- The two objects differ at most in where they come from, their place in the AST and whether
they are frozen. -/
def SameExceptPlace (fs fs' : Entries) : Prop :=
  ∀ k v, k ∉ ["_location", "_parent", "_frozen"] → (Has fs k v ↔ Has fs' k v)

end Verif.Hash.Spec
