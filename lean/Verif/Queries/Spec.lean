import Verif.Queries.Model
import Verif.QueryKeys.Spec

/-!
# Specification: what queries in settings mean
-/

namespace Verif.Queries

open QueryKeys (Key)

/-- `w` is in `v` under this key. -/
inductive Has : Val → Val → Val → Prop
  | entry (d : List (Key × Val)) (k : Key) (w : Val) : QueryKeys.get d k = some w → Has (.dict d) (.str k) w
  | item (l : List Val) (n : Nat) (w : Val) : l[n]? = some w → Has (.list l) (.int n) w
  | last (l : List Val) (n : Nat) (w : Val) : l.reverse[n]? = some w → Has (.list l) (.int (-(n + 1))) w
  | char (s : Key) (n : Nat) (c : Char) : s[n]? = some c → Has (.str s) (.int n) (.str [c])
  | lastChar (s : Key) (n : Nat) (c : Char) : s.reverse[n]? = some c → Has (.str s) (.int (-(n + 1))) (.str [c])

/-- `w` is in `v` under these keys, one after the other. -/
inductive Path : Val → List Val → Val → Prop
  | here (v : Val) : Path v [] v
  | step (v w x : Val) (k : Val) (ks : List Val) : Has v k w → Path w ks x → Path v (k :: ks) x

/-- `d'` is `d` with keys that are identifiers; of entries that get the same key the last one is kept. -/
def Cleaned (isWord : Char → Bool) (d d' : List (Key × Val)) : Prop :=
  ∀ k, QueryKeys.get d' k = QueryKeys.Spec.lastValue isWord d k

/-- A dictionary as Python has them, without line ends in keys. -/
def Proper (d : List (Key × Val)) : Prop := (d.map (·.1)).Nodup ∧ ∀ e ∈ d, '\n' ∉ e.1

/-- A result: a list of dictionaries under `query`. -/
def GoodResult (isWord : Char → Bool) (d : List (Key × Val)) (l : List (List (Key × Val))) : Prop :=
  Proper d ∧ QueryKeys.get d "query".toList = some (.list (l.map .dict)) ∧ (∀ r ∈ l, Proper r) ∧
  ∀ e ∈ d, QueryKeys.Spec.normal isWord e.1 = "query".toList → e.1 = "query".toList

/-- The setting is a query of this type. -/
def Asks (s : Setting) (q : Query) : Prop := s.value = .query q

end Verif.Queries
