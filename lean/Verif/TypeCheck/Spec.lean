import Verif.TypeCheck.Model

namespace Verif.TypeCheck.Spec
open Verif.TypeCheck

/-- A struct value has field `n` with value `v`. -/
def HasField (d : List (String × Val)) (n : String) (v : Val) : Prop :=
  ∃ pre post, d = pre ++ (n, v) :: post ∧ ∀ p ∈ pre, p.1 ≠ n

mutual
/-- A value belongs to a type. -/
inductive HasType : Ty → Val → Prop
  | int (t n) : t ∈ ["int", "uint64_t", "int64_t"] → HasType (.base t) (.int n)
  | float (t b) : t ∈ ["double", "float"] → HasType (.base t) (.float b)
  | string (s) : HasType (.base "string") (.str s)
  | list (l) : HasType (.base "list") (.list l)
  | dict (d) : HasType (.base "dict") (.dict d)
  | struct (fs d) : HasFields fs d → HasType (.struct fs) (.dict d)

/-- A dictionary has all the fields, with values of their types. -/
inductive HasFields : Fields → List (String × Val) → Prop
  | nil (d) : HasFields .nil d
  | scalar (n ty df rest d v) : HasField d n v → HasType ty v → HasFields rest d →
      HasFields (.cons n ty false df rest) d
  | array (n ty df rest d l) : HasField d n (.list l) → (∀ v ∈ l, HasType ty v) → HasFields rest d →
      HasFields (.cons n ty true df rest) d
end

/-- A value belongs to the type of an attribute. -/
def AttrHas (a : Attr) (v : Val) : Prop :=
  (a.array = false ∧ HasType a.ty v) ∨ (a.array = true ∧ ∃ l, v = .list l ∧ ∀ x ∈ l, HasType a.ty x)

/-- The value a setting provides for a struct field: the one in the dictionary or else the
default. -/
def Provides (d : List (String × Val)) (n : String) (df : Option Val) (v : Val) : Prop :=
  HasField d n v ∨ ((∀ w, ¬ HasField d n w) ∧ df = some v)

mutual
/-- A value is acceptable for a type: it belongs to it once defaults are filled in. -/
inductive Fits : Ty → Val → Prop
  | base (t v) : HasType (.base t) v → Fits (.base t) v
  | struct (fs d) : FitsFields fs d → Fits (.struct fs) (.dict d)

inductive FitsFields : Fields → List (String × Val) → Prop
  | nil (d) : FitsFields .nil d
  | scalar (n ty df rest d v) : Provides d n df v → Fits ty v → FitsFields rest d →
      FitsFields (.cons n ty false df rest) d
  | array (n ty df rest d l) : Provides d n df (.list l) → (∀ v ∈ l, Fits ty v) → FitsFields rest d →
      FitsFields (.cons n ty true df rest) d
end

/-- A value is acceptable for an attribute. -/
def AttrFits (a : Attr) (v : Val) : Prop :=
  (a.array = false ∧ Fits a.ty v) ∨ (a.array = true ∧ ∃ l, v = .list l ∧ ∀ x ∈ l, Fits a.ty x)

/-- `a` is the declaration of the attribute that a setting sets: the attribute of that name of the
instance of that name. -/
def Declares (insts : List Inst) (s : Setting) (a : Attr) : Prop :=
  ∃ i ∈ insts, i.name = s.inst ∧ a ∈ i.attrs ∧ a.name = s.attr

/-- Instances have different names, and so have the attributes of an instance (the language
rejects anything else, `Verif.Freeze`). -/
def Distinct (insts : List Inst) : Prop :=
  (insts.map (·.name)).Nodup ∧ ∀ i ∈ insts, (i.attrs.map (·.name)).Nodup

/-- The names of the fields of a struct are different. -/
def names : Fields → List String
  | .nil => []
  | .cons n _ _ _ rest => n :: names rest

mutual
inductive WfTy : Ty → Prop
  | base (t) : WfTy (.base t)
  | struct (fs) : (names fs).Nodup → WfFields fs → WfTy (.struct fs)

inductive WfFields : Fields → Prop
  | nil : WfFields .nil
  | cons (n ty a df rest) : WfTy ty → WfFields rest → WfFields (.cons n ty a df rest)
end

mutual
/-- `v'` is `v` with struct fields possibly added, at any depth: each entry `n` of a dictionary
is kept, its value completed to `g n`. -/
inductive Completes : Val → Val → Prop
  | refl (v) : Completes v v
  | list (l l') : CompletesL l l' → Completes (.list l) (.list l')
  | dict (d d') (g : String → Val) : (∀ n v, HasField d n v → HasField d' n (g n)) →
      (∀ n v, HasField d n v → Completes v (g n)) → Completes (.dict d) (.dict d')

inductive CompletesL : List Val → List Val → Prop
  | nil : CompletesL [] []
  | cons (v v' l l') : Completes v v' → CompletesL l l' → CompletesL (v :: l) (v' :: l')
end

end Verif.TypeCheck.Spec
