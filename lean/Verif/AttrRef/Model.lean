/-!
# Model: resolution of attribute references between settings (camkes/parser/stage8.py)

Settings are mutable objects in a list; they are identified by their index and the state is the
list of current values. A reference `a.b.c` is split at its last dot into instance `a.b` and
attribute `c` (`rsplit('.', 1)`); it is represented by that pair. `defaults` is
`assembly.get_attribute(...)`'s default, `look` is the repeated subscripting of a dict value
(`none` = KeyError; a non-dict value is returned unchanged), both parameters.
-/

namespace Verif.AttrRef

/-- (instance name, attribute name). -/
abbrev Key := String × String

inductive Val (K V : Type)
  | lit (v : V)
  | ref (r : Key) (lookup : List K)
  deriving DecidableEq, Repr

structure Setting (K V : Type) where
  key : Key
  value : Val K V
  deriving DecidableEq, Repr

inductive Err
  | parseError   -- loop, or attribute set several times
  | assertion    -- `setting.value = None` violates the type predicate of `Setting.value`
  | keyError
  deriving DecidableEq, Repr

/-- What surrounds the settings: attribute defaults and dict subscripting. -/
structure Env (K V : Type) where
  default : Key → Option V
  look : V → List K → Option V

variable {K V : Type}

/-- Indices of the settings of the attribute `r`; camkes/parser/stage8.py:75-77. -/
def referents (st : List (Setting K V)) (r : Key) : List Nat :=
  (List.range st.length).filter fun i => ((st[i]?).map (·.key)) == some r

/-- `setting.value = v`. -/
def assign (st : List (Setting K V)) (i : Nat) (v : V) : List (Setting K V) :=
  match st[i]? with
  | some s => st.set i ⟨s.key, .lit v⟩
  | none => st

/-- `sub_resolve`, camkes/parser/stage8.py:54-111. The `return False` branches are preceded by
`setting.value = None`, which the property setter of camkes/ast/objects.py:538-540 rejects with
an AssertionError (`None` is not an allowed value). `none` is out of fuel. -/
def subResolve (env : Env K V) : Nat → List (Setting K V) → Nat → List Key →
    Option (Except Err (List (Setting K V)))
  | 0, _, _, _ => none
  | fuel + 1, st, i, depth =>
    match st[i]? with
    | none => some (.ok st)
    | some ⟨_, .lit _⟩ => some (.ok st)
    | some ⟨k, .ref r lk⟩ =>
      if r ∈ depth then some (.error .parseError)
      else
        match referents st r with
        | [] =>
          match env.default r with
          | some d => some (.ok (assign st i d))
          | none =>
            match env.default k with
            | some d => some (.ok (assign st i d))
            | none => some (.error .assertion)
        | [j] =>
          match st[j]? with
          | none => some (.ok st)
          | some ⟨_, .ref _ _⟩ =>
            match subResolve env fuel st j (depth ++ [r]) with
            | none => none
            | some (.error e) => some (.error e)
            | some (.ok st') =>
              match st'[j]? with
              | some ⟨_, .lit v⟩ => some (.ok (assign st' i v))
              | _ => some (.ok st')
          | some ⟨_, .lit v⟩ =>
            if lk = [] then some (.ok (assign st i v))
            else
              match env.look v lk with
              | some w => some (.ok (assign st i w))
              | none => some (.error .keyError)
        | _ => some (.error .parseError)

/-- The loop over the settings to resolve; camkes/parser/stage8.py:114-120. -/
def loop [DecidableEq K] (env : Env K V) (fuel : Nat) : List (Setting K V) → List Nat →
    Option (Except Err (List (Setting K V)))
  | st, [] => some (.ok st)
  | st, i :: is =>
    match subResolve env fuel st i [] with
    | none => none
    | some (.error e) => some (.error e)
    | some (.ok st') => loop env fuel st' is

/-- Is the setting a reference? -/
def isRef (s : Setting K V) : Bool := match s.value with | .ref _ _ => true | .lit _ => false

/-- `resolve`, camkes/parser/stage8.py:36-123: the settings that were literal, then those that
were references. -/
def resolve [DecidableEq K] (env : Env K V) (fuel : Nat) (st : List (Setting K V)) :
    Option (Except Err (List (Setting K V))) :=
  let idx := List.range st.length
  let isR := fun i => ((st[i]?).map isRef).getD false
  let toResolve := idx.filter isR
  match loop env fuel st toResolve with
  | none => none
  | some (.error e) => some (.error e)
  | some (.ok st') =>
    some (.ok ((idx.filter (fun i => !isR i) ++ toResolve).filterMap (fun i => st'[i]?)))

end Verif.AttrRef
