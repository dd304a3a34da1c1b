import Verif.Traversal.Model

namespace Verif.Traversal.Spec
open Verif.Traversal

/-- `u` is one of the items of `k`. -/
inductive InKids : Kids → Tree → Prop
  | here (t rest) : InKids (.cons t rest) t
  | unset (rest u) : InKids rest u → InKids (.unset rest) u
  | there (t rest u) : InKids rest u → InKids (.cons t rest) u

/-- `u` is a proper descendant of the tree. -/
inductive Below : Tree → Tree → Prop
  | child (t u) : InKids t.kids u → Below t u
  | deeper (t u v) : InKids t.kids u → Below u v → Below t v

mutual
/-- How often the node `x` occurs below the root. -/
def occurs (x : Nat) : Tree → Nat
  | .node _ k => occursKids x k

def occursKids (x : Nat) : Kids → Nat
  | .nil => 0
  | .unset rest => occursKids x rest
  | .cons t rest => (if t.id = x then 1 else 0) + occurs x t + occursKids x rest
end

mutual
/-- How often the node `x` occurs below the root, not counting places below a node of `R`. -/
def occursAbove (R : Nat → Bool) (x : Nat) : Tree → Nat
  | .node _ k => occursAboveKids R x k

def occursAboveKids (R : Nat → Bool) (x : Nat) : Kids → Nat
  | .nil => 0
  | .unset rest => occursAboveKids R x rest
  | .cons t rest => (if t.id = x then 1 else 0) + (if R t.id then 0 else occursAbove R x t) + occursAboveKids R x rest
end

/-- The action, also recording the nodes (or `None`) it is called with. -/
def logged {S : Type} (act : Action S) : Action (S × List (Option Nat)) := fun s x =>
  ((((act s.1 x).1), s.2 ++ [x.map Tree.id]), (act s.1 x).2)

/-- The nodes the action is called with in a post-order traversal. -/
def postCalls {S : Type} (act : Action S) (enter exit : S → S) (t : Tree) (s : S) : List (Option Nat) :=
  (post (logged act) (fun p => (enter p.1, p.2)) (fun p => (exit p.1, p.2)) t (s, [])).2.2

/-- The nodes the action is called with in a pre-order traversal. -/
def preCalls {S : Type} (act : Action S) (enter exit : S → S) (t : Tree) (s : S) : List (Option Nat) :=
  (pre (logged act) (fun p => (enter p.1, p.2)) (fun p => (exit p.1, p.2)) t (s, [])).2.2

/-- `a` comes before `b` in a list. -/
def Before {α : Type} (l : List α) (a b : α) : Prop := ∃ p q r, l = p ++ a :: (q ++ b :: r)

/-- `k` is `rest` with an item in front: a node or an unset field. -/
inductive Put : Option Tree → Kids → Kids → Prop
  | unset (rest) : Put none rest (.unset rest)
  | node (t rest) : Put (some t) rest (.cons t rest)

/-- The traversal's answer for an item: the item itself, or the replacement. -/
def Answer (f : Option Tree → Option (Option Tree)) (x y : Option Tree) : Prop :=
  (f x = none ∧ y = x) ∨ f x = some y

mutual
/-- The tree after a post-order traversal with replacements `f`: an item is replaced according to
what `f` says of it after its children have been processed. -/
inductive PostResult (f : Option Tree → Option (Option Tree)) : Tree → Tree → Prop
  | node (i k k') : PostResults f k k' → PostResult f (.node i k) (.node i k')

inductive PostResults (f : Option Tree → Option (Option Tree)) : Kids → Kids → Prop
  | nil : PostResults f .nil .nil
  | unset (rest rest' y k) : PostResults f rest rest' → Answer f none y → Put y rest' k →
      PostResults f (.unset rest) k
  | node (t t' rest rest' y k) : PostResult f t t' → PostResults f rest rest' → Answer f (some t') y →
      Put y rest' k → PostResults f (.cons t rest) k
end

mutual
/-- The tree after a pre-order traversal with replacements `f`: an item that `f` keeps has its
children processed, a replacement is put in as it is. -/
inductive PreResult (f : Option Tree → Option (Option Tree)) : Tree → Tree → Prop
  | node (i k k') : PreResults f k k' → PreResult f (.node i k) (.node i k')

inductive PreResults (f : Option Tree → Option (Option Tree)) : Kids → Kids → Prop
  | nil : PreResults f .nil .nil
  | unset (rest rest' y k) : PreResults f rest rest' → Answer f none y → Put y rest' k →
      PreResults f (.unset rest) k
  | kept (t t' rest rest') : f (some t) = none → PreResult f t t' → PreResults f rest rest' →
      PreResults f (.cons t rest) (.cons t' rest')
  | replaced (t rest rest' y k) : f (some t) = some y → PreResults f rest rest' → Put y rest' k →
      PreResults f (.cons t rest) k
end

end Verif.Traversal.Spec
