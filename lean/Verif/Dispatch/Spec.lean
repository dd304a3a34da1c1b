import Verif.Dispatch.Model

/-!
# Specification of a server with several clients
-/

namespace Verif.Dispatch.Spec

open Verif.Marshal (Env Ty Val Byte Out)

/-- The types of the clients. -/
def types (cs : List Client) : List Proc := cs.map (·.type)

/-- The names of methods tell methods apart. -/
def NamesApart (cs : List Client) : Prop :=
  (∀ t ∈ types cs, (t.methods.map (·.name)).Nodup)
    ∧ ∀ t ∈ types cs, ∀ u ∈ types cs, t ≠ u → ∀ m ∈ t.methods, ∀ n ∈ u.methods, m.name ≠ n.name

/-- No badge is configured for two clients. -/
def BadgesApart (cs : List Client) : Prop :=
  ∀ (i j b : Nat), (cs[i]?.bind Client.explicit) = some b → (cs[j]?.bind Client.explicit) = some b → i = j

/-- All clients have the same type. -/
def OneType (cs : List Client) : Prop := ∀ t ∈ types cs, ∀ u ∈ types cs, t = u

/-- No two clients have the same type. -/
def OwnTypes (cs : List Client) : Prop := (types cs).Nodup

variable {σ : Type}

/-- The results of a method have its types and fit into the buffer. -/
structure ResultOk (v : Env' σ) (m : Method) (r : Option Val × List Val) : Prop where
  ret : ∀ t, m.ret = some t → ∃ x, r.1 = some x ∧ Marshal.Proper v.env t x
  noRet : m.ret = none → r.1 = none
  len : r.2.length = m.outs.length
  outs : ∀ p ∈ m.outs.zip r.2, Marshal.Proper v.env p.1 p.2
  fits : ((r.1.toList ++ r.2).flatMap (Marshal.wire v.env)).length ≤ v.size

/-- The machine, the buffer and the implementation are sensible: there is memory, and the methods of
the clients' types have results that fit. -/
structure Sensible (v : Env' σ) (cs : List Client) : Prop where
  env : Marshal.EnvOk v.env
  memory : ∀ n, v.malloc n = true
  size : v.size + 1 < v.env.U
  words : v.env.wb ∣ v.size
  count : ∀ t ∈ types cs, t.methods.length ≤ 2 ^ 64
  results : ∀ t ∈ types cs, ∀ m ∈ t.methods, ∀ s args, ResultOk v m (v.impl s m.name args).2

/-- A call of a method `m` that the client has, with arguments of its types. -/
structure CallOk (v : Env' σ) (cs : List Client) (c : Call) (m : Method) : Prop where
  method : ∃ cl, cs[c.client]? = some cl ∧ cl.type.methods[c.index]? = some m
  types : c.args.map (·.1) = m.ins
  proper : ∀ p ∈ c.args, Marshal.Proper v.env p.1 p.2
  fits : ∀ cl, cs[c.client]? = some cl →
    (Marshal.wireIndex cl.type.methods.length c.index
      ++ c.args.flatMap (fun p => Marshal.wire v.env p.2)).length ≤ v.size

/-- What calls of a component are expected to give: each is executed once, in order, on its own
arguments, and its results come back.  From the state of the component and the calls to the final
state, the executed methods with their arguments and the results. -/
inductive Answers (v : Env' σ) (cs : List Client) :
    σ → List Call → σ → List (String × List Val) → List Result → Prop
  | nil (s : σ) : Answers v cs s [] s [] []
  | cons (s : σ) (c : Call) (l : List Call) (m : Method) (s' : σ) (lg : List (String × List Val))
      (rs : List Result) :
      CallOk v cs c m →
      Answers v cs (v.impl s m.name (c.args.map (·.2))).1 l s' lg rs →
      Answers v cs s (c :: l) s' ((m.name, c.args.map (·.2)) :: lg)
        (.returned ((v.impl s m.name (c.args.map (·.2))).2.1.toList
          ++ (v.impl s m.name (c.args.map (·.2))).2.2) :: rs)

end Verif.Dispatch.Spec
