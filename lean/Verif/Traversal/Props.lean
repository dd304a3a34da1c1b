import Verif.Traversal.Spec

namespace Verif.Traversal
open Spec

variable {S : Type}

mutual
def postIds : Tree → List (Option Nat)
  | .node _ k => postIdsKids k
def postIdsKids : Kids → List (Option Nat)
  | .nil => []
  | .unset rest => none :: postIdsKids rest
  | .cons t rest => postIds t ++ some t.id :: postIdsKids rest
end

theorem post_id (act : Action S) (enter exit : S → S) (t : Tree) (s : S) : (post act enter exit t s).1.id = t.id := by
  cases t; rfl

mutual
theorem post_log (act : Action S) (enter exit : S → S) : ∀ (t : Tree) (s : S) (log : List (Option Nat)),
    (post (logged act) (fun p => (enter p.1, p.2)) (fun p => (exit p.1, p.2)) t (s, log)) =
      ((post act enter exit t s).1, ((post act enter exit t s).2, log ++ postIds t))
  | .node i k, s, log => by
    simp only [post, postIds]
    rw [postKids_log act enter exit k s log]

theorem postKids_log (act : Action S) (enter exit : S → S) : ∀ (k : Kids) (s : S) (log : List (Option Nat)),
    (postKids (logged act) (fun p => (enter p.1, p.2)) (fun p => (exit p.1, p.2)) k (s, log)) =
      ((postKids act enter exit k s).1, ((postKids act enter exit k s).2, log ++ postIdsKids k))
  | .nil, s, log => by simp [postKids, postIdsKids]
  | .unset rest, s, log => by
    simp only [postKids, postIdsKids, logged]
    rw [postKids_log act enter exit rest]
    simp
  | .cons t rest, s, log => by
    simp only [postKids, postIdsKids]
    rw [post_log act enter exit t (enter s) log]
    simp only [logged]
    rw [postKids_log act enter exit rest]
    simp [post_id]
end

theorem postCalls_eq (act : Action S) (enter exit : S → S) (t : Tree) (s : S) :
    postCalls act enter exit t s = postIds t := by
  unfold postCalls; rw [post_log]; simp

mutual
theorem postIds_count (x : Nat) : ∀ t : Tree, (postIds t).count (some x) = occurs x t
  | .node _ k => by simp only [postIds, occurs]; exact postIdsKids_count x k
theorem postIdsKids_count (x : Nat) : ∀ k : Kids, (postIdsKids k).count (some x) = occursKids x k
  | .nil => rfl
  | .unset rest => by
    simp only [postIdsKids, occursKids]
    rw [List.count_cons_of_ne (by simp), postIdsKids_count x rest]
  | .cons t rest => by
    simp only [postIdsKids, occursKids, List.count_append, List.count_cons, postIds_count x t, postIdsKids_count x rest]
    simp only [beq_iff_eq, Option.some.injEq]
    omega
end

/-- C25: for every tree, action and context, a post-order traversal calls the action on each
node exactly as often as the node occurs below the root (so once if nodes are not shared). -/
theorem post_visits (act : Action S) (enter exit : S → S) (t : Tree) (s : S) (x : Nat) :
    (postCalls act enter exit t s).count (some x) = occurs x t := by
  rw [postCalls_eq]; exact postIds_count x t

theorem Spec.Before.append {α : Type} {l : List α} {a b : α} (h : Before l a b) (p q : List α) : Before (p ++ l ++ q) a b := by
  obtain ⟨x, y, z, rfl⟩ := h
  exact ⟨p ++ x, y, z ++ q, by simp⟩

theorem inKids_split : ∀ (k : Kids) (u : Tree), InKids k u →
    ∃ p q, postIdsKids k = p ++ (postIds u ++ some u.id :: q) := by
  intro k u h
  induction h with
  | here t rest => exact ⟨[], postIdsKids rest, by simp [postIdsKids]⟩
  | unset rest u _ ih =>
    obtain ⟨p, q, h⟩ := ih
    exact ⟨none :: p, q, by simp [postIdsKids, h]⟩
  | there t rest u _ ih =>
    obtain ⟨p, q, h⟩ := ih
    exact ⟨postIds t ++ some t.id :: p, q, by simp [postIdsKids, h]⟩

theorem postIds_eq (t : Tree) : postIds t = postIdsKids t.kids := by cases t; rfl

theorem below_split (t u : Tree) (h : Below t u) : ∃ p q, postIds t = p ++ (postIds u ++ some u.id :: q) := by
  induction h with
  | child t u h => rw [postIds_eq]; exact inKids_split _ _ h
  | deeper t u v h _ ih =>
    obtain ⟨p, q, h1⟩ := inKids_split _ _ h
    obtain ⟨p', q', h2⟩ := ih
    rw [postIds_eq, h1, h2]
    exact ⟨p ++ p', q' ++ some u.id :: q, by simp⟩

/-- C25: a post-order traversal visits descendants before their ancestors. -/
theorem post_children_first (act : Action S) (enter exit : S → S) (t u v : Tree) (s : S) (hu : Below t u)
    (hv : Below u v) : Before (postCalls act enter exit t s) (some v.id) (some u.id) := by
  rw [postCalls_eq]
  obtain ⟨p, q, h1⟩ := below_split t u hu
  obtain ⟨p', q', h2⟩ := below_split u v hv
  rw [h1, h2]
  exact ⟨p ++ (p' ++ postIds v), q', q, by simp⟩

mutual
theorem post_keep (act : Action S) (enter exit : S → S) (hk : ∀ s x, (act s x).2 = none) :
    ∀ (t : Tree) (s : S), (post act enter exit t s).1 = t
  | .node i k, s => by simp only [post]; rw [postKids_keep act enter exit hk k s]
theorem postKids_keep (act : Action S) (enter exit : S → S) (hk : ∀ s x, (act s x).2 = none) :
    ∀ (k : Kids) (s : S), (postKids act enter exit k s).1 = k
  | .nil, s => rfl
  | .unset rest, s => by
    simp only [postKids, hk, Option.getD_none, putItem]
    rw [postKids_keep act enter exit hk rest]
  | .cons t rest, s => by
    simp only [postKids, hk, Option.getD_none, putItem]
    rw [post_keep act enter exit hk t, postKids_keep act enter exit hk rest]
end

/-- C25: an action that replaces nothing leaves the tree as it is. -/
theorem post_unchanged (act : Action S) (enter exit : S → S) (hk : ∀ s x, (act s x).2 = none) (t : Tree) (s : S) :
    (post act enter exit t s).1 = t := post_keep act enter exit hk t s

mutual
theorem iter_post : ∀ (t : Tree) (s : List (Option Tree)), ∃ l : List (Option Tree),
    (post collector id id t s).2 = s ++ l ∧ l.map (Option.map Tree.id) = postIds t ∧
      ∀ u, some u ∈ l ↔ Below t u
  | .node i k, s => by
    obtain ⟨l, h1, h2, h3⟩ := iter_postKids k s
    refine ⟨l, by simp only [post]; exact h1, by simp only [postIds]; exact h2, ?_⟩
    intro u
    rw [h3]
    constructor
    · rintro (h | ⟨v, h, h'⟩)
      · exact .child _ _ h
      · exact .deeper _ _ _ h h'
    · intro h
      cases h with
      | child _ _ h => exact .inl h
      | deeper _ v _ h h' => exact .inr ⟨v, h, h'⟩
theorem iter_postKids : ∀ (k : Kids) (s : List (Option Tree)), ∃ l : List (Option Tree),
    (postKids collector id id k s).2 = s ++ l ∧ l.map (Option.map Tree.id) = postIdsKids k ∧
      ∀ u, some u ∈ l ↔ (InKids k u ∨ ∃ v, InKids k v ∧ Below v u)
  | .nil, s => ⟨[], by simp [postKids], rfl, by
      intro u
      constructor
      · intro h; cases h
      · rintro (h | ⟨v, h, _⟩) <;> cases h⟩
  | .unset rest, s => by
    obtain ⟨l, h1, h2, h3⟩ := iter_postKids rest (s ++ [none])
    refine ⟨none :: l, ?_, ?_, ?_⟩
    · simp only [postKids, collector]
      have : (postKids collector id id rest (s ++ [none])).2 = s ++ none :: l := by rw [h1]; simp
      exact this
    · simp [postIdsKids, h2]
    · intro u
      simp only [List.mem_cons, reduceCtorEq, false_or, h3]
      constructor
      · rintro (h | ⟨v, h, h'⟩)
        · exact .inl (.unset _ _ h)
        · exact .inr ⟨v, .unset _ _ h, h'⟩
      · rintro (h | ⟨v, h, h'⟩)
        · cases h; exact .inl ‹_›
        · cases h; exact .inr ⟨v, ‹_›, h'⟩
  | .cons t rest, s => by
    obtain ⟨l, h1, h2, h3⟩ := iter_post t s
    have hsame := post_keep collector id id (fun _ _ => rfl) t s
    obtain ⟨l', h1', h2', h3'⟩ := iter_postKids rest (s ++ l ++ [some t])
    refine ⟨l ++ some t :: l', ?_, ?_, ?_⟩
    · simp only [postKids, id]
      rw [hsame, h1]
      have : (collector (s ++ l) (some t)).1 = s ++ l ++ [some t] := rfl
      rw [this, h1']
      simp
    · simp [postIdsKids, h2, h2']
    · intro u
      simp only [List.mem_append, List.mem_cons, Option.some.injEq, h3, h3']
      constructor
      · rintro (h | rfl | h | ⟨v, h, h'⟩)
        · exact .inr ⟨t, .here _ _, h⟩
        · exact .inl (.here _ _)
        · exact .inl (.there _ _ _ h)
        · exact .inr ⟨v, .there _ _ _ h, h'⟩
      · rintro (h | ⟨v, h, h'⟩)
        · cases h with
          | here => exact .inr (.inl rfl)
          | there _ _ _ h => exact .inr (.inr (.inl h))
        · cases h with
          | here => exact .inl h'
          | there _ _ _ h => exact .inr (.inr (.inr ⟨v, h, h'⟩))
end

/-- C25: iterating a lifted AST yields exactly the nodes below it, in the order in which a
post-order traversal visits them (with a `None` for each unset child field). -/
theorem iter_spec (t : Tree) : (iter t).map (Option.map Tree.id) = postCalls collector id id t [] ∧
    ∀ u, some u ∈ iter t ↔ Below t u := by
  obtain ⟨l, h1, h2, h3⟩ := iter_post t []
  unfold iter
  rw [h1, postCalls_eq]
  exact ⟨by simpa using h2, by simpa using h3⟩

/-! ### Pre-order -/

mutual
def preIds (R : Nat → Bool) : Tree → List (Option Nat)
  | .node _ k => preIdsKids R k
def preIdsKids (R : Nat → Bool) : Kids → List (Option Nat)
  | .nil => []
  | .unset rest => none :: preIdsKids R rest
  | .cons t rest => some t.id :: ((if R t.id then [] else preIds R t) ++ preIdsKids R rest)
end

/-- The action replaces exactly the nodes of `R`. -/
def Spec.Replaces (act : Action S) (R : Nat → Bool) : Prop := ∀ s t, (act s (some t)).2.isSome = R t.id

mutual
theorem pre_log (act : Action S) (enter exit : S → S) (R : Nat → Bool) (hR : Replaces act R) :
    ∀ (t : Tree) (s : S) (log : List (Option Nat)),
    (pre (logged act) (fun p => (enter p.1, p.2)) (fun p => (exit p.1, p.2)) t (s, log)) =
      ((pre act enter exit t s).1, ((pre act enter exit t s).2, log ++ preIds R t))
  | .node i k, s, log => by
    simp only [pre, preIds]
    rw [preKids_log act enter exit R hR k s log]

theorem preKids_log (act : Action S) (enter exit : S → S) (R : Nat → Bool) (hR : Replaces act R) :
    ∀ (k : Kids) (s : S) (log : List (Option Nat)),
    (preKids (logged act) (fun p => (enter p.1, p.2)) (fun p => (exit p.1, p.2)) k (s, log)) =
      ((preKids act enter exit k s).1, ((preKids act enter exit k s).2, log ++ preIdsKids R k))
  | .nil, s, log => by simp [preKids, preIdsKids]
  | .unset rest, s, log => by
    simp only [preKids, preIdsKids, logged]
    rw [preKids_log act enter exit R hR rest]
    simp
  | .cons t rest, s, log => by
    have hr := hR s t
    simp only [preKids, preIdsKids]
    have hl : (logged act (s, log) (some t)) = (((act s (some t)).1, log ++ [some t.id]), (act s (some t)).2) := rfl
    rw [hl]
    cases ha : (act s (some t)).2 with
    | none =>
      rw [ha] at hr
      simp only [Option.isSome_none] at hr
      simp only
      rw [pre_log act enter exit R hR t]
      simp only
      rw [preKids_log act enter exit R hR rest, ← hr]
      simp
    | some repl =>
      rw [ha] at hr
      simp only [Option.isSome_some] at hr
      simp only
      rw [preKids_log act enter exit R hR rest, ← hr]
      simp
end

theorem preCalls_eq (act : Action S) (enter exit : S → S) (R : Nat → Bool) (hR : Replaces act R) (t : Tree) (s : S) :
    preCalls act enter exit t s = preIds R t := by
  unfold preCalls; rw [pre_log act enter exit R hR]; simp

mutual
theorem preIds_count (R : Nat → Bool) (x : Nat) : ∀ t : Tree, (preIds R t).count (some x) = occursAbove R x t
  | .node _ k => by simp only [preIds, occursAbove]; exact preIdsKids_count R x k
theorem preIdsKids_count (R : Nat → Bool) (x : Nat) : ∀ k : Kids, (preIdsKids R k).count (some x) = occursAboveKids R x k
  | .nil => rfl
  | .unset rest => by
    simp only [preIdsKids, occursAboveKids]
    rw [List.count_cons_of_ne (by simp), preIdsKids_count R x rest]
  | .cons t rest => by
    simp only [preIdsKids, occursAboveKids, List.count_append, List.count_cons, preIdsKids_count R x rest]
    simp only [beq_iff_eq, Option.some.injEq]
    split
    · simp; omega
    · rw [preIds_count R x t]; omega
end

/-- C25: a pre-order traversal calls the action on each node as often as the node occurs outside
the subtrees of replaced nodes; in particular it does not descend into replaced nodes. -/
theorem pre_visits (act : Action S) (enter exit : S → S) (R : Nat → Bool) (hR : Replaces act R) (t : Tree) (s : S)
    (x : Nat) : (preCalls act enter exit t s).count (some x) = occursAbove R x t := by
  rw [preCalls_eq act enter exit R hR]; exact preIds_count R x t

/-- A path of descendants none of which is replaced (except possibly the last). -/
inductive Spec.Visible (R : Nat → Bool) : Tree → Tree → Prop
  | child (t u) : InKids t.kids u → Visible R t u
  | deeper (t u v) : InKids t.kids u → R u.id = false → Visible R u v → Visible R t v

theorem pre_inKids_split (R : Nat → Bool) : ∀ (k : Kids) (u : Tree), InKids k u →
    ∃ p q, preIdsKids R k = p ++ (some u.id :: ((if R u.id then [] else preIds R u) ++ q)) := by
  intro k u h
  induction h with
  | here t rest => exact ⟨[], preIdsKids R rest, by simp [preIdsKids]⟩
  | unset rest u _ ih =>
    obtain ⟨p, q, h⟩ := ih
    exact ⟨none :: p, q, by simp [preIdsKids, h]⟩
  | there t rest u _ ih =>
    obtain ⟨p, q, h⟩ := ih
    exact ⟨some t.id :: ((if R t.id then [] else preIds R t) ++ p), q, by simp [preIdsKids, h]⟩

theorem preIds_eq (R : Nat → Bool) (t : Tree) : preIds R t = preIdsKids R t.kids := by cases t; rfl

theorem visible_split (R : Nat → Bool) (t u : Tree) (h : Visible R t u) :
    ∃ p q, preIds R t = p ++ (some u.id :: ((if R u.id then [] else preIds R u) ++ q)) := by
  induction h with
  | child t u h => rw [preIds_eq]; exact pre_inKids_split R _ _ h
  | deeper t u v h hr _ ih =>
    obtain ⟨p, q, h1⟩ := pre_inKids_split R _ _ h
    obtain ⟨p', q', h2⟩ := ih
    rw [preIds_eq, h1, hr, h2]
    exact ⟨p ++ some u.id :: p', q' ++ q, by simp⟩

/-- C25: a pre-order traversal visits a node before the descendants it reaches through it. -/
theorem pre_parents_first (act : Action S) (enter exit : S → S) (R : Nat → Bool) (hR : Replaces act R)
    (t u v : Tree) (s : S) (hu : Visible R t u) (hr : R u.id = false) (hv : Visible R u v) :
    Before (preCalls act enter exit t s) (some u.id) (some v.id) := by
  rw [preCalls_eq act enter exit R hR]
  obtain ⟨p, q, h1⟩ := visible_split R t u hu
  obtain ⟨p', q', h2⟩ := visible_split R u v hv
  rw [h1, hr, h2]
  exact ⟨p, p', (if R v.id then [] else preIds R v) ++ (q' ++ q), by simp⟩

/-! ### Replacements -/

theorem put_putItem (y : Option Tree) (rest : Kids) : Put y rest (putItem y rest) := by
  cases y with
  | none => exact .unset _
  | some t => exact .node _ _

theorem answer_getD (f : Option Tree → Option (Option Tree)) (x : Option Tree) : Answer f x ((f x).getD x) := by
  cases h : f x with
  | none => exact .inl ⟨h, rfl⟩
  | some y => exact .inr h

mutual
/-- C25: the tree that a post-order traversal leaves behind has the action's replacements in it. -/
theorem post_result (act : Action S) (enter exit : S → S) (f : Option Tree → Option (Option Tree))
    (hf : ∀ s x, (act s x).2 = f x) : ∀ (t : Tree) (s : S), PostResult f t (post act enter exit t s).1
  | .node i k, s => .node _ _ _ (postKids_result act enter exit f hf k s)

theorem postKids_result (act : Action S) (enter exit : S → S) (f : Option Tree → Option (Option Tree))
    (hf : ∀ s x, (act s x).2 = f x) : ∀ (k : Kids) (s : S), PostResults f k (postKids act enter exit k s).1
  | .nil, s => .nil
  | .unset rest, s => by
    simp only [postKids]
    refine .unset _ _ _ _ (postKids_result act enter exit f hf rest _) ?_ (put_putItem _ _)
    rw [hf]; exact answer_getD _ _
  | .cons t rest, s => by
    simp only [postKids]
    refine .node _ _ _ _ _ _ (post_result act enter exit f hf t (enter s)) (postKids_result act enter exit f hf rest _) ?_ (put_putItem _ _)
    rw [hf]; exact answer_getD _ _
end

mutual
/-- C25: the tree that a pre-order traversal leaves behind has the action's replacements in it. -/
theorem pre_result (act : Action S) (enter exit : S → S) (f : Option Tree → Option (Option Tree))
    (hf : ∀ s x, (act s x).2 = f x) : ∀ (t : Tree) (s : S), PreResult f t (pre act enter exit t s).1
  | .node _ k, s => .node _ _ _ (preKids_result act enter exit f hf k s)

theorem preKids_result (act : Action S) (enter exit : S → S) (f : Option Tree → Option (Option Tree))
    (hf : ∀ s x, (act s x).2 = f x) : ∀ (k : Kids) (s : S), PreResults f k (preKids act enter exit k s).1
  | .nil, s => .nil
  | .unset rest, s => by
    simp only [preKids]
    refine .unset _ _ _ _ (preKids_result act enter exit f hf rest _) ?_ (put_putItem _ _)
    rw [hf]; exact answer_getD _ _
  | .cons t rest, s => by
    simp only [preKids]
    have ha := hf s (some t)
    split
    · rename_i h
      rw [h] at ha
      exact .kept _ _ _ _ ha.symm (pre_result act enter exit f hf t _) (preKids_result act enter exit f hf rest _)
    · rename_i y h
      rw [h] at ha
      exact .replaced _ _ _ _ _ ha.symm (preKids_result act enter exit f hf rest _) (put_putItem _ _)
end

/-! ### Concrete case -/

/-- Root 0 with children 1 (child 3, an unset field) and 2. -/
def demo : Tree := .node 0 (.cons (.node 1 (.cons (.node 3 .nil) (.unset .nil))) (.cons (.node 2 .nil) .nil))

example : (iter demo).map (Option.map Tree.id) = [some 3, none, some 1, some 2] := by decide
example : preCalls (S := Unit) (fun s _ => (s, none)) id id demo () = [some 1, some 3, none, some 2] := by decide
/-- An action that replaces node 1. -/
def replace1 : Action Unit := fun s x => (s, match x with
  | some (.node 1 _) => some (some (.node 9 (.cons (.node 8 .nil) .nil)))
  | _ => none)
example : preCalls replace1 id id demo () = [some 1, some 2] := by decide
example : Replaces replace1 (fun i => i == 1) := by
  intro s t
  cases t with
  | node i k =>
    match i with
    | 0 => rfl
    | 1 => rfl
    | i + 2 => simp [replace1, Tree.id]

example : ∀ s x, (replace1 s x).2 = (replace1 () x).2 := fun _ _ => rfl

end Verif.Traversal
