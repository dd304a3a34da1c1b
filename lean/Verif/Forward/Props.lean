import Verif.Forward.Spec
import Verif.Scope.Props
import Verif.Resolve.Props
import Verif.Acyclic.Props
import Mathlib.Data.List.Nodup
import Mathlib.Data.List.Pairwise
import Mathlib.Tactic.Tauto

/-!
# Properties: forward references (C102)
-/

namespace Verif.Forward

open Scope (Obj Frame Stack)

/-! ### Links -/

theorem lookup_mono {l x : Links} {k : Nat × Nat} {o : Obj} (h : l.lookup k = some o) : (l ++ x).lookup k = some o := by
  rw [List.lookup_append, h]; rfl

theorem lookup_mem {l : Links} {k : Nat × Nat} {o : Obj} (h : l.lookup k = some o) : (k, o) ∈ l := by
  induction l with
  | nil => cases h
  | cons e l ih =>
    obtain ⟨k', o'⟩ := e
    simp only [List.lookup_cons] at h
    split at h
    · rename_i hk
      cases h
      rw [eq_of_beq hk]; simp
    · exact List.mem_cons_of_mem _ (ih h)

theorem lookup_none {l : Links} {k : Nat × Nat} : l.lookup k = none ↔ k ∉ l.map (·.1) := by
  induction l with
  | nil => simp
  | cons e l ih =>
    obtain ⟨k', o'⟩ := e
    simp only [List.lookup_cons, List.map_cons, List.mem_cons, not_or]
    split
    · rename_i hk
      simp [eq_of_beq hk]
    · rename_i hk
      rw [ih]
      have : ¬ k = k' := by simpa using hk
      simp [this]

theorem lookup_nodup {l : Links} {k : Nat × Nat} {o : Obj} (hn : (l.map (·.1)).Nodup) (h : (k, o) ∈ l) : l.lookup k = some o := by
  induction l with
  | nil => cases h
  | cons e l ih =>
    obtain ⟨k', o'⟩ := e
    simp only [List.map_cons, List.nodup_cons] at hn
    rw [List.lookup_cons]
    rcases List.mem_cons.1 h with h | hm
    · cases h; simp
    ·
      have : ¬ k = k' := by
        rintro rfl
        exact hn.1 (List.mem_map.2 ⟨(k, o), hm, rfl⟩)
      have hb : (k == k') = false := by simpa using this
      rw [hb]
      exact ih hn.2 hm

/-! ### Positions -/

theorem get_zero_node (u k n s r) (p : List Nat) (hp : p ≠ []) : (Tree.node u k n s r).get (0 :: p) = s.get p := by
  cases p with
  | nil => exact absurd rfl hp
  | cons q p => rfl

theorem get_succ_node (u k n s r) (j : Nat) (p : List Nat) : (Tree.node u k n s r).get ((j + 1) :: p) = r.get (j :: p) := by
  cases p <;> rfl

theorem get_succ_unset (r) (j : Nat) (p : List Nat) : (Tree.unset r).get ((j + 1) :: p) = r.get (j :: p) := by
  cases p <;> rfl

theorem get_succ_ref (x t r) (j : Nat) (p : List Nat) : (Tree.ref x t r).get ((j + 1) :: p) = r.get (j :: p) := by
  cases p <;> rfl

theorem get_nil (p : List Nat) : Tree.nil.get p = none := by
  induction p with
  | nil => rfl
  | cons j p ih =>
    cases p with
    | nil => rfl
    | cons q p => exact ih

/-- The place of a position in items that begin with number `i`. -/
def placeI (u i : Nat) : List Nat → Tree → Nat × Nat
  | [], _ => (u, i)
  | [j], _ => (u, i + j)
  | j :: p, t => place (t.uid j) p (t.sub j)

theorem placeI_zero (u : Nat) (p : List Nat) (t : Tree) : placeI u 0 p t = place u p t := by
  cases p with
  | nil => rfl
  | cons j p => cases p <;> simp [placeI, place]

theorem placeI_node (u i v k n s r) (p : List Nat) (hp : p ≠ []) : placeI u i (0 :: p) (.node v k n s r) = placeI v 0 p s := by
  rw [placeI_zero]
  cases p with
  | nil => exact absurd rfl hp
  | cons q p => rfl

theorem placeI_succ_node (u i v k n s r) (j : Nat) (p : List Nat) : placeI u i ((j + 1) :: p) (.node v k n s r) = placeI u (i + 1) (j :: p) r := by
  cases p with
  | nil => simp [placeI]; omega
  | cons q p => rfl

theorem placeI_succ_unset (u i r) (j : Nat) (p : List Nat) : placeI u i ((j + 1) :: p) (.unset r) = placeI u (i + 1) (j :: p) r := by
  cases p with
  | nil => simp [placeI]; omega
  | cons q p => rfl

theorem placeI_succ_ref (u i x t r) (j : Nat) (p : List Nat) : placeI u i ((j + 1) :: p) (.ref x t r) = placeI u (i + 1) (j :: p) r := by
  cases p with
  | nil => simp [placeI]; omega
  | cons q p => rfl

/-- The places of all references. -/
def keys (u : Nat) : Tree → Nat → List (Nat × Nat)
  | .nil, _ => []
  | .unset r, i => keys u r (i + 1)
  | .ref _ _ r, i => (u, i) :: keys u r (i + 1)
  | .node v _ _ s r, i => keys v s 0 ++ keys u r (i + 1)

theorem keys_mem (t : Tree) : ∀ (u i : Nat) (k : Nat × Nat), k ∈ keys u t i → (k.1 = u ∧ i ≤ k.2) ∨ k.1 ∈ uids t := by
  induction t with
  | nil => intro u i k h; cases h
  | unset r ih =>
    intro u i k h
    rcases ih u (i + 1) k h with ⟨h1, h2⟩ | h1
    · exact .inl ⟨h1, by omega⟩
    · exact .inr h1
  | ref x y r ih =>
    intro u i k h
    rcases List.mem_cons.1 h with rfl | h
    · exact .inl ⟨rfl, Nat.le_refl _⟩
    · rcases ih u (i + 1) k h with ⟨h1, h2⟩ | h1
      · exact .inl ⟨h1, by omega⟩
      · exact .inr h1
  | node v k' n s r ihs ihr =>
    intro u i k h
    rcases List.mem_append.1 h with h | h
    · rcases ihs v 0 k h with ⟨h1, -⟩ | h1
      · exact .inr (by simp [uids, h1])
      · exact .inr (by simp [uids, h1])
    · rcases ihr u (i + 1) k h with ⟨h1, h2⟩ | h1
      · exact .inl ⟨h1, by omega⟩
      · exact .inr (by simp [uids, h1])

theorem keys_nodup (t : Tree) : ∀ (u i : Nat), (u :: uids t).Nodup → (keys u t i).Nodup := by
  induction t with
  | nil => intro u i _; exact List.nodup_nil
  | unset r ih => intro u i h; exact ih u (i + 1) h
  | ref x y r ih =>
    intro u i h
    refine List.nodup_cons.2 ⟨?_, ih u (i + 1) h⟩
    intro hm
    rcases keys_mem r u (i + 1) _ hm with ⟨-, h2⟩ | h1
    · simp only at h2; omega
    · exact (List.nodup_cons.1 h).1 h1
  | node v k n s r ihs ihr =>
    intro u i h
    simp only [uids, List.nodup_cons, List.mem_cons, List.mem_append, not_or, List.nodup_append] at h
    obtain ⟨⟨h1, h2, h3⟩, ⟨h4, h5⟩, h6, h7, h8⟩ := h
    refine List.nodup_append.2 ⟨ihs v 0 (List.nodup_cons.2 ⟨h4, h6⟩), ihr u (i + 1) (List.nodup_cons.2 ⟨h3, h7⟩), ?_⟩
    rintro a ha b hb rfl
    rcases keys_mem s v 0 a ha with ⟨ha, -⟩ | ha <;> rcases keys_mem r u (i + 1) a hb with ⟨hb, -⟩ | hb
    · exact h1 (by rw [← hb, ha])
    · exact h5 (by rw [← ha]; exact hb)
    · exact h2 (by rw [← hb]; exact ha)
    · exact h8 _ ha _ hb rfl

theorem ref_key (t : Tree) : ∀ (u i j : Nat) (p : List Nat) (path : List String) (type : String), t.get (j :: p) = some (.ref path type) →
    placeI u i (j :: p) t ∈ keys u t i := by
  induction t with
  | nil => intro u i j p path type h; rw [get_nil] at h; cases h
  | unset r ih =>
    intro u i j p path type h
    cases j with
    | zero => cases p with
      | nil => cases h
      | cons q p => rw [show (Tree.unset r).get (0 :: q :: p) = Tree.nil.get (q :: p) from rfl, get_nil] at h; cases h
    | succ j =>
      rw [get_succ_unset] at h
      rw [placeI_succ_unset]
      exact ih u (i + 1) j p path type h
  | ref x y r ih =>
    intro u i j p path type h
    cases j with
    | zero => cases p with
      | nil => simp [placeI, keys]
      | cons q p => rw [show (Tree.ref x y r).get (0 :: q :: p) = Tree.nil.get (q :: p) from rfl, get_nil] at h; cases h
    | succ j =>
      rw [get_succ_ref] at h
      rw [placeI_succ_ref]
      exact List.mem_cons_of_mem _ (ih u (i + 1) j p path type h)
  | node v k n s r ihs ihr =>
    intro u i j p path type h
    cases j with
    | zero => cases p with
      | nil => cases h
      | cons q p =>
        rw [get_zero_node _ _ _ _ _ _ (by simp)] at h
        rw [placeI_node _ _ _ _ _ _ _ _ (by simp)]
        exact List.mem_append_left _ (ihs v 0 q p path type h)
    | succ j =>
      rw [get_succ_node] at h
      rw [placeI_succ_node]
      exact List.mem_append_right _ (ihr u (i + 1) j p path type h)

/-! ### Scopes -/

theorem registerAll_eq {os : List Obj} : ∀ {f f' : Frame}, Scope.registerAll f os = .ok f' → f' = f ++ os.filter fun o => o.name ≠ none := by
  induction os with
  | nil => intro f f' h; cases h; simp
  | cons o os ih =>
    intro f f' h
    simp only [Scope.registerAll] at h
    split at h
    · cases h
    · rename_i f1 hf
      rw [ih h, Resolve.register_frame hf]
      by_cases hn : o.name = none <;> simp [hn]

theorem owned_named (t : Tree) : (owned t).filter (fun o => o.name ≠ none) = named t := by
  induction t with
  | nil => rfl
  | unset r ih => exact ih
  | ref x y r ih => exact ih
  | node v k n s r ihs ihr =>
    simp only [owned, named, List.filter_cons, ihr]
    cases n <;> rfl

theorem frame_named {t : Tree} {f : Frame} (h : Scope.registerAll [] (owned t) = .ok f) : f = named t := by
  rw [registerAll_eq h, List.nil_append, owned_named]

/-! ### The first pass -/

/-- What was decided for a reference, with the references that were replaced at that time. -/
def Decided (t : Tree) (isa : String → String → Bool) (asm : Frame) (vis : Stack) (path : List String) (type : String) (last : Links)
    (r : Option Obj) : Prop :=
  ∃ l x, last = l ++ x ∧ resolveRef t l (fun o => isa o.kind type) path vis [asm] = .ok r

theorem Decided.mono {t isa asm vis path type last r} (h : Decided t isa asm vis path type last r) (x : Links) :
    Decided t isa asm vis path type (last ++ x) r := by
  obtain ⟨l, y, rfl, h⟩ := h
  exact ⟨l, y ++ x, by simp, h⟩

theorem pre_spec (t : Tree) (isa : String → String → Bool) (asm : Frame) (kids : Tree) : ∀ (u i : Nat) (s : Stack) (l l' : Links),
    pre t isa asm u kids i s l = .ok l' → (keys u kids i).Nodup →
    ∃ new, l' = l ++ new ∧ (new.map (·.1)).Sublist (keys u kids i) ∧
      ∀ j p path type, kids.get (j :: p) = some (.ref path type) →
        (∃ o, (placeI u i (j :: p) kids, o) ∈ new ∧ Decided t isa asm (visible s p (kids.sub j)) path type l' (some o)) ∨
        (placeI u i (j :: p) kids ∉ new.map (·.1) ∧ (type = "Instance" ∨ type = "Interface") ∧
          Decided t isa asm (visible s p (kids.sub j)) path type l' none) := by
  induction kids with
  | nil =>
    intro u i s l l' h _
    cases h
    exact ⟨[], by simp, by simp, by intro j p path type hg; rw [get_nil] at hg; cases hg⟩
  | unset r ih =>
    intro u i s l l' h hn
    obtain ⟨new, h1, h2, h3⟩ := ih u (i + 1) s l l' h hn
    refine ⟨new, h1, h2, ?_⟩
    intro j p path type hg
    cases j with
    | zero => cases p with
      | nil => cases hg
      | cons q p => rw [show (Tree.unset r).get (0 :: q :: p) = Tree.nil.get (q :: p) from rfl, get_nil] at hg; cases hg
    | succ j =>
      rw [get_succ_unset] at hg
      rw [placeI_succ_unset]
      exact h3 j p path type hg
  | ref x y r ih =>
    intro u i s l l' h hn
    simp only [pre] at h
    obtain ⟨hn1, hn2⟩ := List.nodup_cons.1 hn
    split at h
    · cases h
    · rename_i hr
      split at h
      · rename_i hy
        obtain ⟨new, h1, h2, h3⟩ := ih u (i + 1) s l l' h hn2
        refine ⟨new, h1, h2.cons _, ?_⟩
        intro j p path type hg
        cases j with
        | zero => cases p with
          | nil =>
            cases hg
            exact .inr ⟨fun hm => hn1 (h2.subset hm), hy, l, new, h1, hr⟩
          | cons q p => rw [show (Tree.ref x y r).get (0 :: q :: p) = Tree.nil.get (q :: p) from rfl, get_nil] at hg; cases hg
        | succ j =>
          rw [get_succ_ref] at hg
          rw [placeI_succ_ref]
          exact h3 j p path type hg
      · cases h
    · rename_i o hr
      obtain ⟨new, h1, h2, h3⟩ := ih u (i + 1) s (l ++ [((u, i), o)]) l' h hn2
      refine ⟨((u, i), o) :: new, by simp [h1], h2.cons_cons _, ?_⟩
      intro j p path type hg
      cases j with
      | zero => cases p with
        | nil =>
          cases hg
          exact .inl ⟨o, by simp [placeI], l, ((u, i), o) :: new, by simp [h1], hr⟩
        | cons q p => rw [show (Tree.ref x y r).get (0 :: q :: p) = Tree.nil.get (q :: p) from rfl, get_nil] at hg; cases hg
      | succ j =>
        rw [get_succ_ref] at hg
        rw [placeI_succ_ref]
        rcases h3 j p path type hg with ⟨o', h4, h5⟩ | ⟨h4, h5⟩
        · exact .inl ⟨o', List.mem_cons_of_mem _ h4, h5⟩
        · refine .inr ⟨?_, h5⟩
          intro hm
          rcases List.mem_cons.1 hm with hm | hm
          · exact hn1 (by have := ref_key r u (i + 1) j p path type hg; rw [hm] at this; exact this)
          · exact h4 hm
  | node v k n sub r ihs ihr =>
    intro u i s l l' h hn
    simp only [pre] at h
    obtain ⟨hn1, hn2, hn3⟩ := List.nodup_append.1 hn
    split at h
    · cases h
    · rename_i f hf
      split at h
      · cases h
      · rename_i l1 hl1
        obtain ⟨new1, a1, a2, a3⟩ := ihs v 0 (f :: s) l l1 hl1 hn1
        obtain ⟨new2, b1, b2, b3⟩ := ihr u (i + 1) s l1 l' h hn2
        refine ⟨new1 ++ new2, by rw [b1, a1]; simp, by rw [List.map_append]; exact a2.append b2, ?_⟩
        intro j p path type hg
        cases j with
        | zero => cases p with
          | nil => cases hg
          | cons q p =>
            rw [get_zero_node _ _ _ _ _ _ (by simp)] at hg
            rw [placeI_node _ _ _ _ _ _ _ _ (by simp)]
            have hv : visible s (q :: p) ((Tree.node v k n sub r).sub 0) = visible (f :: s) p (sub.sub q) := by
              rw [frame_named hf]; rfl
            rw [hv]
            rcases a3 q p path type hg with ⟨o', h4, h5⟩ | ⟨h4, h5, h6⟩
            · exact .inl ⟨o', List.mem_append_left _ h4, by rw [b1]; exact h5.mono _⟩
            · refine .inr ⟨?_, h5, by rw [b1]; exact h6.mono _⟩
              rw [List.map_append]
              intro hm
              rcases List.mem_append.1 hm with hm | hm
              · exact h4 hm
              · exact hn3 _ (ref_key sub v 0 q p path type hg) _ (b2.subset hm) rfl
        | succ j =>
          rw [get_succ_node] at hg
          rw [placeI_succ_node]
          rcases b3 j p path type hg with ⟨o', h4, h5⟩ | ⟨h4, h5⟩
          · exact .inl ⟨o', List.mem_append_right _ h4, h5⟩
          · refine .inr ⟨?_, h5⟩
            rw [List.map_append]
            intro hm
            rcases List.mem_append.1 hm with hm | hm
            · exact hn3 _ (a2.subset hm) _ (ref_key r u (i + 1) j p path type hg) rfl
            · exact h4 hm


/-! ### Finding objects -/

theorem find_mem {t sub : Tree} {u : Nat} (h : find u t = some sub) : u ∈ uids t := by
  induction t generalizing sub with
  | nil => cases h
  | unset r ih => exact ih h
  | ref x y r ih => exact ih h
  | node v k n s r ihs ihr =>
    simp only [find] at h
    split at h
    · rename_i hv; simp [uids, hv]
    · cases hs : find u s with
      | none => rw [hs] at h; simp only [Option.orElse_none] at h; simp [uids, ihr h]
      | some x => simp [uids, ihs hs]

theorem find_not_mem {t : Tree} {u : Nat} (h : u ∉ uids t) : find u t = none := by
  cases hf : find u t with
  | none => rfl
  | some sub => exact absurd (find_mem hf) h

theorem get_item_mem {t : Tree} : ∀ {p : List Nat} {u i : Nat} {u0 : Nat} {it : Item}, p ≠ [] → t.get p = some it → place u0 p t = (u, i) →
    (u :: uids t).Nodup ∨ (uids t).Nodup →
    (p = [i] ∧ u = u0 ∧ t.item i = some it) ∨ ((uids t).Nodup → ∃ sub, find u t = some sub ∧ sub.item i = some it) := by
  induction t with
  | nil => intro p u i u0 it hp hg; rw [get_nil] at hg; cases hg
  | unset r ih =>
    intro p u i u0 it hp hg hpl hn
    cases p with
    | nil => exact absurd rfl hp
    | cons j p =>
      cases p with
      | nil => cases hpl; exact .inl ⟨rfl, rfl, hg⟩
      | cons q p =>
        cases j with
        | zero => rw [show (Tree.unset r).get (0 :: q :: p) = Tree.nil.get (q :: p) from rfl, get_nil] at hg; cases hg
        | succ j =>
          rcases ih (p := j :: q :: p) (u0 := u0) (by simp) (by rw [get_succ_unset] at hg; exact hg) hpl hn with ⟨h1, -⟩ | h
          · cases h1
          · exact .inr h
  | ref x y r ih =>
    intro p u i u0 it hp hg hpl hn
    cases p with
    | nil => exact absurd rfl hp
    | cons j p =>
      cases p with
      | nil => cases hpl; exact .inl ⟨rfl, rfl, hg⟩
      | cons q p =>
        cases j with
        | zero => rw [show (Tree.ref x y r).get (0 :: q :: p) = Tree.nil.get (q :: p) from rfl, get_nil] at hg; cases hg
        | succ j =>
          rcases ih (p := j :: q :: p) (u0 := u0) (by simp) (by rw [get_succ_ref] at hg; exact hg) hpl hn with ⟨h1, -⟩ | h
          · cases h1
          · exact .inr h
  | node v k n s r ihs ihr =>
    intro p u i u0 it hp hg hpl hn
    have hn' : (uids (Tree.node v k n s r)).Nodup := by
      rcases hn with hn | hn
      · exact (List.nodup_cons.1 hn).2
      · exact hn
    simp only [uids, List.nodup_cons, List.mem_append, not_or, List.nodup_append] at hn'
    obtain ⟨⟨h4, h5⟩, h6, h7, h8⟩ := hn'
    cases p with
    | nil => exact absurd rfl hp
    | cons j p =>
      cases p with
      | nil => cases hpl; exact .inl ⟨rfl, rfl, hg⟩
      | cons q p =>
        right
        intro _
        cases j with
        | zero =>
          rw [get_zero_node _ _ _ _ _ _ (by simp)] at hg
          have hpl' : place v (q :: p) s = (u, i) := hpl
          rcases ihs (p := q :: p) (u0 := v) (by simp) hg hpl' (.inr h6) with ⟨-, rfl, h3⟩ | h
          · exact ⟨s, by simp [find], h3⟩
          · obtain ⟨sub, h1, h2⟩ := h h6
            have hne : v ≠ u := by rintro rfl; exact h4 (find_mem h1)
            exact ⟨sub, by simp [find, hne, h1], h2⟩
        | succ j =>
          rw [get_succ_node] at hg
          have hpl' : place u0 (j :: q :: p) r = (u, i) := hpl
          rcases ihr (p := j :: q :: p) (u0 := u0) (by simp) hg hpl' (.inr h7) with ⟨h1, -⟩ | h
          · cases h1
          · obtain ⟨sub, h1, h2⟩ := h h7
            have hm := find_mem h1
            have hne : v ≠ u := by rintro rfl; exact h5 hm
            have hs : find u s = none := find_not_mem (fun hm' => h8 _ hm' _ hm rfl)
            exact ⟨sub, by simp [find, hne, hs, h1], h2⟩

/-- The items of an object are where it says. -/
theorem find_pos {t sub : Tree} {u : Nat} (h : find u t = some sub) : ∃ p, p ≠ [] ∧ (∃ k n, t.get p = some (.node u k n)) ∧
    ∀ u0 i, t.get (p ++ [i]) = sub.item i ∧ place u0 (p ++ [i]) t = (u, i) := by
  induction t with
  | nil => cases h
  | unset r ih =>
    obtain ⟨p, hp, h1, h2⟩ := ih h
    cases p with
    | nil => exact absurd rfl hp
    | cons j p =>
      refine ⟨(j + 1) :: p, by simp, by simpa only [get_succ_unset] using h1, ?_⟩
      intro u0 i
      obtain ⟨h3, h4⟩ := h2 u0 i
      refine ⟨by rw [List.cons_append, get_succ_unset]; exact h3, ?_⟩
      cases hq : p ++ [i] with
      | nil => simp at hq
      | cons q p' => rw [List.cons_append, hq] at h4 ⊢; exact h4
  | ref x y r ih =>
    obtain ⟨p, hp, h1, h2⟩ := ih h
    cases p with
    | nil => exact absurd rfl hp
    | cons j p =>
      refine ⟨(j + 1) :: p, by simp, by simpa only [get_succ_ref] using h1, ?_⟩
      intro u0 i
      obtain ⟨h3, h4⟩ := h2 u0 i
      refine ⟨by rw [List.cons_append, get_succ_ref]; exact h3, ?_⟩
      cases hq : p ++ [i] with
      | nil => simp at hq
      | cons q p' => rw [List.cons_append, hq] at h4 ⊢; exact h4
  | node v k n s r ihs ihr =>
    simp only [find] at h
    split at h
    · rename_i hv
      subst hv
      cases h
      exact ⟨[0], by simp, ⟨k, n, rfl⟩, fun u0 i => ⟨rfl, rfl⟩⟩
    · cases hs : find u s with
      | some x =>
        rw [hs] at h
        simp only [Option.orElse_some] at h
        cases h
        obtain ⟨p, hp, h1, h2⟩ := ihs hs
        refine ⟨0 :: p, by simp, by simpa only [get_zero_node _ _ _ _ _ _ hp] using h1, ?_⟩
        intro u0 i
        obtain ⟨h3, h4⟩ := h2 v i
        refine ⟨by rw [List.cons_append, get_zero_node _ _ _ _ _ _ (by simp)]; exact h3, ?_⟩
        cases hq : p ++ [i] with
        | nil => simp at hq
        | cons q p' => rw [hq] at h4; rw [List.cons_append, hq]; exact h4
      | none =>
        rw [hs] at h
        simp only [Option.orElse_none] at h
        obtain ⟨p, hp, h1, h2⟩ := ihr h
        cases p with
        | nil => exact absurd rfl hp
        | cons j p =>
          refine ⟨(j + 1) :: p, by simp, by simpa only [get_succ_node] using h1, ?_⟩
          intro u0 i
          obtain ⟨h3, h4⟩ := h2 u0 i
          refine ⟨by rw [List.cons_append, get_succ_node]; exact h3, ?_⟩
          cases hq : p ++ [i] with
          | nil => simp at hq
          | cons q p' => rw [List.cons_append, hq] at h4 ⊢; exact h4

theorem members_sound {l : Links} {u : Nat} {sub : Tree} : ∀ {i : Nat} {o : Obj}, o ∈ members l u sub i → o ≠ .mk 0 "Reference" none [] →
    ∃ j, (sub.item j = some (.node o.uid o.kind o.name) ∧ o.members = []) ∨
      ((∃ path type, sub.item j = some (.ref path type)) ∧ l.lookup (u, i + j) = some o) := by
  induction sub with
  | nil => intro i o h; cases h
  | unset r ih =>
    intro i o h hk
    obtain ⟨j, h⟩ := ih h hk
    exact ⟨j + 1, by rw [show i + (j + 1) = i + 1 + j by omega]; exact h⟩
  | ref x y r ih =>
    intro i o h hk
    rcases List.mem_cons.1 h with h | h
    · refine ⟨0, .inr ⟨⟨x, y, rfl⟩, ?_⟩⟩
      cases hl : l.lookup (u, i) with
      | none => rw [hl] at h; exact absurd h hk
      | some o' => rw [hl] at h; rw [h]; rfl
    · obtain ⟨j, h⟩ := ih h hk
      exact ⟨j + 1, by rw [show i + (j + 1) = i + 1 + j by omega]; exact h⟩
  | node v k n s r ihs ihr =>
    intro i o h hk
    rcases List.mem_cons.1 h with h | h
    · exact ⟨0, .inl (by rw [h]; exact ⟨rfl, rfl⟩)⟩
    · obtain ⟨j, h⟩ := ihr h hk
      exact ⟨j + 1, by rw [show i + (j + 1) = i + 1 + j by omega]; exact h⟩

theorem members_complete {l : Links} {u : Nat} {sub : Tree} : ∀ {i j : Nat} {o : Obj},
    ((sub.item j = some (.node o.uid o.kind o.name) ∧ o.members = []) ∨
      ((∃ path type, sub.item j = some (.ref path type)) ∧ l.lookup (u, i + j) = some o)) → o ∈ members l u sub i := by
  induction sub with
  | nil => rintro i j o (⟨h, -⟩ | ⟨⟨_, _, h⟩, -⟩) <;> cases h
  | unset r ih =>
    intro i j o h
    cases j with
    | zero => rcases h with ⟨h, -⟩ | ⟨⟨_, _, h⟩, -⟩ <;> cases h
    | succ j => exact ih (j := j) (by rw [show i + 1 + j = i + (j + 1) by omega]; exact h)
  | ref x y r ih =>
    intro i j o h
    cases j with
    | zero =>
      rcases h with ⟨h, -⟩ | ⟨-, h⟩
      · cases h
      · simp only [Nat.add_zero] at h
        simp [members, h]
    | succ j => exact List.mem_cons_of_mem _ (ih (j := j) (by rw [show i + 1 + j = i + (j + 1) by omega]; exact h))
  | node v k n s r ihs ihr =>
    intro i j o h
    cases j with
    | zero =>
      rcases h with ⟨h, hm⟩ | ⟨⟨_, _, h⟩, -⟩
      · obtain ⟨a, b, c, d⟩ := o
        simp only [Tree.item, Obj.uid, Obj.kind, Obj.name, Option.some.injEq, Item.node.injEq] at h
        simp only [Obj.members] at hm
        obtain ⟨rfl, rfl, rfl⟩ := h
        subst hm
        simp [members]
      · cases h
    | succ j => exact List.mem_cons_of_mem _ (ihr (j := j) (by rw [show i + 1 + j = i + (j + 1) by omega]; exact h))

theorem children_sound {t : Tree} {l : Links} {u : Nat} {o : Obj} (h : o ∈ children t l u) (hk : o ≠ .mk 0 "Reference" none []) : Child t l u o := by
  unfold children at h
  split at h
  · cases h
  · rename_i sub hs
    obtain ⟨j, hj⟩ := members_sound h hk
    rw [Nat.zero_add] at hj
    split at hs
    · rename_i hu
      cases hs
      refine ⟨j, [j], by simp, by rw [hu]; rfl, hj⟩
    · obtain ⟨p, hp, -, h2⟩ := find_pos hs
      obtain ⟨h3, h4⟩ := h2 0 j
      exact ⟨j, p ++ [j], by simp, h4, by rw [h3]; exact hj⟩

theorem get_item {t : Tree} (hd : Distinct t) {p : List Nat} {u i : Nat} {it : Item} (hp : p ≠ []) (hg : t.get p = some it)
    (hpl : place 0 p t = (u, i)) : (u = 0 ∧ t.item i = some it) ∨ (u ≠ 0 ∧ ∃ sub, find u t = some sub ∧ sub.item i = some it) := by
  rcases get_item_mem hp hg hpl (.inr (List.nodup_cons.1 hd).2) with ⟨-, h1, h2⟩ | h
  · exact .inl ⟨h1, h2⟩
  · obtain ⟨sub, h1, h2⟩ := h (List.nodup_cons.1 hd).2
    refine .inr ⟨?_, sub, h1, h2⟩
    rintro rfl
    exact (List.nodup_cons.1 hd).1 (find_mem h1)

theorem children_complete {t : Tree} {l : Links} {u : Nat} {o : Obj} (hd : Distinct t) (h : Child t l u o) : o ∈ children t l u := by
  obtain ⟨i, p, hp, hpl, h⟩ := h
  have key : ∀ it, t.get p = some it → ∃ sub, (if u = 0 then some t else find u t) = some sub ∧ sub.item i = some it := by
    intro it hit
    rcases get_item hd hp hit hpl with ⟨h1, h2⟩ | ⟨h1, sub, h2, h3⟩
    · exact ⟨t, by simp [h1], h2⟩
    · exact ⟨sub, by simp [h1, h2], h3⟩
  unfold children
  rcases h with ⟨h1, h2⟩ | ⟨⟨path, type, h1⟩, h2⟩
  · obtain ⟨sub, k1, k2⟩ := key _ h1
    rw [k1]
    exact members_complete (j := i) (.inl ⟨k2, h2⟩)
  · obtain ⟨sub, k1, k2⟩ := key _ h1
    rw [k1]
    exact members_complete (j := i) (.inr ⟨⟨path, type, k2⟩, by rw [Nat.zero_add]; exact h2⟩)

theorem at_iff {l : Links} {u i : Nat} {sub : Tree} : ∀ {j : Nat} {o : Obj}, at? l u i sub j = some o ↔
    ((sub.item j = some (.node o.uid o.kind o.name) ∧ o.members = []) ∨
      ((∃ path type, sub.item j = some (.ref path type)) ∧ l.lookup (u, i) = some o)) := by
  induction sub with
  | nil => intro j o; cases j <;> simp [at?, Tree.item]
  | unset r ih =>
    intro j o
    cases j with
    | zero => simp [at?, Tree.item]
    | succ j => exact ih
  | ref x y r ih =>
    intro j o
    cases j with
    | zero => simp [at?, Tree.item]
    | succ j => exact ih
  | node v k n s r ihs ihr =>
    intro j o
    cases j with
    | zero =>
      obtain ⟨a, b, c, d⟩ := o
      simp [at?, Tree.item, Obj.uid, Obj.kind, Obj.name, Obj.members]
      tauto
    | succ j => exact ihr

theorem first_sound {t : Tree} {l : Links} {u : Nat} {o : Obj} (h : first t l u = some o) : Field t l u 0 o := by
  unfold first at h
  cases hf : find u t with
  | none => rw [hf] at h; cases h
  | some sub =>
    rw [hf] at h
    simp only [Option.bind_some] at h
    obtain ⟨p, hp, -, h2⟩ := find_pos hf
    obtain ⟨h3, h4⟩ := h2 0 0
    exact ⟨p ++ [0], by simp, h4, by rw [h3]; exact at_iff.1 h⟩

theorem first_complete {t : Tree} {l : Links} {u : Nat} {o : Obj} (hd : Distinct t) (hu : u ≠ 0) (h : Field t l u 0 o) : first t l u = some o := by
  obtain ⟨p, hp, hpl, h⟩ := h
  have key : ∀ it, t.get p = some it → ∃ sub, find u t = some sub ∧ sub.item 0 = some it := by
    intro it hit
    rcases get_item hd hp hit hpl with ⟨h1, h2⟩ | ⟨h1, sub, h2, h3⟩
    · exact absurd h1 hu
    · exact ⟨sub, h2, h3⟩
  unfold first
  rcases h with ⟨h1, h2⟩ | ⟨⟨path, type, h1⟩, h2⟩
  · obtain ⟨sub, k1, k2⟩ := key _ h1
    rw [k1]
    exact at_iff.2 (.inl ⟨k2, h2⟩)
  · obtain ⟨sub, k1, k2⟩ := key _ h1
    rw [k1]
    exact at_iff.2 (.inr ⟨⟨path, type, k2⟩, h2⟩)

/-! ### Looking up -/

theorem Field.mono {t : Tree} {l : Links} {u i : Nat} {o : Obj} (h : Field t l u i o) (x : Links) : Field t (l ++ x) u i o := by
  obtain ⟨p, h1, h2, h3 | ⟨h3, h4⟩⟩ := h
  · exact ⟨p, h1, h2, .inl h3⟩
  · exact ⟨p, h1, h2, .inr ⟨h3, lookup_mono h4⟩⟩

theorem Child.mono {t : Tree} {l : Links} {u : Nat} {o : Obj} (h : Child t l u o) (x : Links) : Child t (l ++ x) u o := by
  obtain ⟨i, h⟩ := h
  exact ⟨i, h.mono x⟩

theorem Inside.mono {t : Tree} {l : Links} {o p : Obj} (h : Inside t l o p) (x : Links) : Inside t (l ++ x) o p := by
  unfold Inside at h ⊢
  split at h
  · rename_i hk
    rw [if_pos hk]
    obtain ⟨ty, h1, h2⟩ := h
    exact ⟨ty, h1.mono x, h2.mono x⟩
  · rename_i hk
    rw [if_neg hk]
    exact h.mono x

theorem Walk.mono {t : Tree} {l : Links} {o q : Obj} {path : List String} (h : Walk t l o path q) (x : Links) : Walk t (l ++ x) o path q := by
  induction h with
  | here o => exact .here o
  | step o n p rest q h1 h2 _ ih => exact .step o n p rest q (h1.mono x) h2 ih

theorem Shared.mono {t : Tree} {l : Links} {o : Obj} (h : Shared t l o) (x : Links) : Shared t (l ++ x) o := by
  obtain ⟨i, a, n, c, h1, h2, h3⟩ := h
  exact ⟨i, a, n, c, h1, h2.mono x, h3.mono x⟩

theorem ne_marker {o : Obj} {n : String} (h : o.name = some n) : o ≠ .mk 0 "Reference" none [] := by
  rintro rfl; cases h

theorem within_sound {t : Tree} {l : Links} {c p : Obj} {n : String} {f : Frame} (h : within t l c = .ok f) (hp : p ∈ f) (hn : p.name = some n) :
    Inside t l c p := by
  have hm : p ∈ inside t l c := by
    rcases (Scope.registerAll_mem h n p hn).1 hp with h | h
    · cases h
    · exact h
  unfold inside at hm
  unfold Inside
  split at hm
  · rename_i hk
    rw [if_pos hk]
    split at hm
    · cases hm
    · rename_i ty hty
      exact ⟨ty, first_sound hty, children_sound hm (ne_marker hn)⟩
  · rename_i hk
    rw [if_neg hk]
    exact children_sound hm (ne_marker hn)

theorem lookup_sound {t : Tree} {l : Links} {want : Obj → Bool} {path : List String} : ∀ {n : String} {s : Stack} {q : Obj},
    q ∈ (lookup t l want (n :: path) s).1 → want q = true ∧ ∃ f ∈ s, ∃ c ∈ f, c.name = some n ∧ Walk t l c path q := by
  have cand : ∀ {s : Stack} {n : String} {c : Obj}, c ∈ Scope.candidates s n → ∃ f ∈ s, c ∈ f ∧ c.name = some n := by
    intro s n c h
    simp only [Scope.candidates, List.mem_flatMap, List.mem_filter, beq_iff_eq] at h
    exact h
  induction path with
  | nil =>
    intro n s q h
    obtain ⟨c, hc, hq⟩ := Resolve.forEach_sound h
    simp only at hq
    split at hq
    · rename_i hw
      obtain ⟨f, hf, h1, h2⟩ := cand hc
      rw [List.mem_singleton.1 hq]
      exact ⟨hw, f, hf, c, h1, h2, .here c⟩
    · cases hq
  | cons m path ih =>
    intro n s q h
    obtain ⟨c, hc, hq⟩ := Resolve.forEach_sound h
    obtain ⟨f, hf, h1, h2⟩ := cand hc
    cases hw : within t l c with
    | error e => rw [hw] at hq; cases hq
    | ok g =>
      rw [hw] at hq
      simp only [List.mem_filter] at hq
      obtain ⟨h3, g', hg', c', h4, h5, h6⟩ := ih hq.1
      rw [List.mem_singleton.1 hg'] at h4
      exact ⟨h3, f, hf, c, h1, h2, .step c m c' path q (within_sound hw h4 h5) h5 h6⟩

theorem resolveRef_single (t : Tree) (l : Links) (want : Obj → Bool) (n : String) (s a : Stack) :
    resolveRef t l want [n] s a = Scope.resolveRef want [n] s a := rfl

theorem lookup_single (t : Tree) (l : Links) (want : Obj → Bool) (n : String) (s : Stack) :
    lookup t l want [n] s = Scope.lookup want [n] s := rfl

theorem resolveRef_sound {t : Tree} {l : Links} {want : Obj → Bool} {n : String} {path : List String} {s a : Stack} {o : Obj}
    (h : resolveRef t l want (n :: path) s a = .ok (some o)) : want o = true ∧ ∃ f ∈ s ++ a, ∃ c ∈ f, c.name = some n ∧ Walk t l c path o := by
  unfold resolveRef at h
  split at h
  · rename_i o' ys e hl
    cases h
    obtain ⟨h1, f, hf, h2⟩ := lookup_sound (q := o) (by rw [hl]; simp)
    exact ⟨h1, f, by simp [hf], h2⟩
  · cases h
  · split at h
    · rename_i o' ys e hl
      cases h
      obtain ⟨h1, f, hf, h2⟩ := lookup_sound (q := o) (by rw [hl]; simp)
      exact ⟨h1, f, by simp [hf], h2⟩
    · cases h
    · cases h

/-! ### The second pass -/

/-- What was found for a reference in the second pass. -/
def Found (t : Tree) (isa : String → String → Bool) (scope : Frame) (k : Nat × Nat) (last : Links) (o : Obj) : Prop :=
  ∃ path type l x ys e, last = l ++ x ∧ ((find k.1 t).bind fun sub => refAt sub k.2) = some (path, type) ∧ l.lookup k = none ∧
    lookup t l (fun o => isa o.kind type) path [scope] = (o :: ys, e)

theorem Found.mono {t isa scope k last o} (h : Found t isa scope k last o) (x : Links) : Found t isa scope k (last ++ x) o := by
  obtain ⟨path, type, l, y, ys, e, rfl, h⟩ := h
  exact ⟨path, type, l, y ++ x, ys, e, by simp, h⟩

/-- The links grow, each new one was found in the second pass. -/
def Grown (t : Tree) (isa : String → String → Bool) (scope : Frame) (l l' : Links) : Prop :=
  ∃ new, l' = l ++ new ∧ ∀ e ∈ new, Found t isa scope e.1 l' e.2

theorem Grown.refl {t isa scope l} : Grown t isa scope l l := ⟨[], by simp, by intro e h; cases h⟩

theorem Grown.trans {t isa scope l l' l''} (h : Grown t isa scope l l') (h' : Grown t isa scope l' l'') : Grown t isa scope l l'' := by
  obtain ⟨n1, rfl, h1⟩ := h
  obtain ⟨n2, rfl, h2⟩ := h'
  refine ⟨n1 ++ n2, by simp, ?_⟩
  intro e he
  rcases List.mem_append.1 he with he | he
  · exact (h1 e he).mono _
  · exact h2 e he

theorem again_spec {t isa scope u i l l'} (h : again t isa scope u i l = .ok l') : Grown t isa scope l l' := by
  unfold again at h
  split at h
  · rename_i path type hl hr
    split at h
    · rename_i o ys e hk
      cases h
      refine ⟨[((u, i), o)], rfl, ?_⟩
      intro x hx
      rw [List.mem_singleton.1 hx]
      exact ⟨path, type, l, _, ys, e, rfl, hr, hl, hk⟩
    · cases h
    · cases h
  · cases h; exact .refl

theorem second_spec {t isa scope} {us : List Nat} : ∀ {l l'}, second t isa scope us l = .ok l' → Grown t isa scope l l' := by
  induction us with
  | nil => intro l l' h; cases h; exact .refl
  | cons u us ih =>
    intro l l' h
    simp only [second] at h
    split at h
    · cases h
    · rename_i l1 h1
      split at h
      · cases h
      · rename_i l2 h2
        exact ((again_spec h1).trans (again_spec h2)).trans (ih h)

theorem left_none {l : Links} {t : Tree} : ∀ {u i : Nat}, left l u t i = none → ∀ {j p path type}, t.get (j :: p) = some (.ref path type) →
    ∃ o, l.lookup (placeI u i (j :: p) t) = some o := by
  induction t with
  | nil => intro u i _ j p path type h; rw [get_nil] at h; cases h
  | unset r ih =>
    intro u i hl j p path type h
    cases j with
    | zero => cases p with
      | nil => cases h
      | cons q p => rw [show (Tree.unset r).get (0 :: q :: p) = Tree.nil.get (q :: p) from rfl, get_nil] at h; cases h
    | succ j =>
      rw [get_succ_unset] at h
      rw [placeI_succ_unset]
      exact ih hl h
  | ref x y r ih =>
    intro u i hl j p path type h
    simp only [left] at hl
    split at hl
    · cases hl
    · rename_i hk
      cases j with
      | zero => cases p with
        | nil =>
          cases ho : l.lookup (u, i) with
          | none => exact absurd ho hk
          | some o => exact ⟨o, ho⟩
        | cons q p => rw [show (Tree.ref x y r).get (0 :: q :: p) = Tree.nil.get (q :: p) from rfl, get_nil] at h; cases h
      | succ j =>
        rw [get_succ_ref] at h
        rw [placeI_succ_ref]
        exact ih hl h
  | node v k n s r ihs ihr =>
    intro u i hl j p path type h
    simp only [left] at hl
    cases hs : left l v s 0 with
    | some x => rw [hs] at hl; simp at hl
    | none =>
      rw [hs] at hl
      simp only [Option.orElse_none] at hl
      cases j with
      | zero => cases p with
        | nil => cases h
        | cons q p =>
          rw [get_zero_node _ _ _ _ _ _ (by simp)] at h
          rw [placeI_node _ _ _ _ _ _ _ _ (by simp)]
          exact ihs hs h
      | succ j =>
        rw [get_succ_node] at h
        rw [placeI_succ_node]
        exact ihr hl h

theorem left_some {l : Links} {t : Tree} {x : List String} : ∀ {u i : Nat}, left l u t i = some x → ∃ j p type, t.get (j :: p) = some (.ref x type) ∧
    l.lookup (placeI u i (j :: p) t) = none := by
  induction t with
  | nil => intro u i h; cases h
  | unset r ih =>
    intro u i h
    obtain ⟨j, p, type, h1, h2⟩ := ih h
    exact ⟨j + 1, p, type, by rw [get_succ_unset]; exact h1, by rw [placeI_succ_unset]; exact h2⟩
  | ref y z r ih =>
    intro u i h
    simp only [left] at h
    split at h
    · rename_i hk
      cases h
      exact ⟨0, [], z, rfl, hk⟩
    · obtain ⟨j, p, type, h1, h2⟩ := ih h
      exact ⟨j + 1, p, type, by rw [get_succ_ref]; exact h1, by rw [placeI_succ_ref]; exact h2⟩
  | node v k n s r ihs ihr =>
    intro u i h
    simp only [left] at h
    cases hs : left l v s 0 with
    | some y =>
      rw [hs] at h
      simp only [Option.orElse_some] at h
      cases h
      obtain ⟨j, p, type, h1, h2⟩ := ihs hs
      exact ⟨0, j :: p, type, by rw [get_zero_node _ _ _ _ _ _ (by simp)]; exact h1, by rw [placeI_node _ _ _ _ _ _ _ _ (by simp)]; exact h2⟩
    | none =>
      rw [hs] at h
      simp only [Option.orElse_none] at h
      obtain ⟨j, p, type, h1, h2⟩ := ihr h
      exact ⟨j + 1, p, type, by rw [get_succ_node]; exact h1, by rw [placeI_succ_node]; exact h2⟩

theorem refAt_item {t : Tree} : ∀ {i : Nat} {path type}, refAt t i = some (path, type) ↔ t.item i = some (.ref path type) := by
  induction t with
  | nil => intro i path type; cases i <;> simp [refAt, Tree.item]
  | unset r ih => intro i path type; cases i with
    | zero => simp [refAt, Tree.item]
    | succ i => exact ih
  | ref x y r ih => intro i path type; cases i with
    | zero => simp [refAt, Tree.item]
    | succ i => exact ih
  | node v k n s r ihs ihr => intro i path type; cases i with
    | zero => simp [refAt, Tree.item]
    | succ i => exact ihr

/-! ### The whole -/

/-- The parts of a run. -/
theorem run {isa : String → String → Bool} {t : Tree} {l : Links} (h : resolve isa t = .ok l) :
    ∃ asm l1 scope, Scope.registerAll [] (declared t []) = .ok asm ∧ Scope.registerAll [] (owned t) = .ok (named t) ∧
      pre t isa asm 0 t 0 [named t] [] = .ok l1 ∧ Scope.registerAll [] (declared t l1) = .ok scope ∧
      second t isa scope (ends t l1) l1 = .ok l ∧
      Acyclic.check (fun u => ((children t l u).filter fun o => o.kind ≠ "Reference").map Obj.uid) (size t + 2) [] 0 = some .ok ∧
      left l 0 t 0 = none := by
  unfold resolve at h
  split at h
  · cases h
  · rename_i asm h1
    split at h
    · cases h
    · rename_i f h2
      have := frame_named h2
      subst this
      split at h
      · cases h
      · rename_i l1 h3
        split at h
        · cases h
        · rename_i scope h4
          split at h
          · cases h
          · rename_i l2 h5
            split at h
            · rename_i h6
              split at h
              · cases h
              · rename_i h7
                cases h
                exact ⟨asm, l1, scope, h1, h2, h3, h4, h5, h6, h7⟩
            · cases h

/-- What can have happened to a reference that was replaced by `o`. -/
def Placed (isa : String → String → Bool) (t : Tree) (l : Links) (p : List Nat) (path : List String) (type : String) (o : Obj) : Prop :=
  ∃ asm scope l1, Scope.registerAll [] (declared t []) = .ok asm ∧
      Scope.registerAll [] (declared t l1) = .ok scope ∧ (∃ x, l = l1 ++ x) ∧
      (Decided t isa asm (visible [] p t) path type l (some o) ∨
       ((type = "Instance" ∨ type = "Interface") ∧ Decided t isa asm (visible [] p t) path type l none ∧
        ∃ l2 x ys e, l = l2 ++ x ∧ lookup t l2 (fun o => isa o.kind type) path [scope] = (o :: ys, e)))

theorem placed {isa : String → String → Bool} {t : Tree} {l l1 : Links} {asm scope : Frame} (hd : Distinct t)
    (h1 : Scope.registerAll [] (declared t []) = .ok asm) (h3 : pre t isa asm 0 t 0 [named t] [] = .ok l1)
    (h4 : Scope.registerAll [] (declared t l1) = .ok scope) {us : List Nat} (h5 : second t isa scope us l1 = .ok l) (p : List Nat)
    (path : List String) (type : String) (hp : t.get p = some (.ref path type)) (o : Obj) (ho : l.lookup (place 0 p t) = some o) :
    Placed isa t l p path type o := by
  cases p with
  | nil => cases hp
  | cons j p =>
    obtain ⟨new, k1, k2, k3⟩ := pre_spec t isa asm t 0 0 [named t] [] l1 h3 (keys_nodup t 0 0 hd)
    rw [List.nil_append] at k1
    subst k1
    obtain ⟨new2, rfl, g⟩ := second_spec h5
    refine ⟨asm, scope, l1, h1, h4, ⟨new2, rfl⟩, ?_⟩
    have hv : visible [] (j :: p) t = visible [named t] p (t.sub j) := rfl
    rw [hv]
    have hk := k3 j p path type hp
    rw [placeI_zero] at hk
    rcases hk with ⟨o', m1, m2⟩ | ⟨m1, m2, m3⟩
    · have hl := lookup_nodup ((k2.nodup) (keys_nodup t 0 0 hd)) m1
      rw [lookup_mono hl] at ho
      cases ho
      exact .inl (m2.mono _)
    · right
      refine ⟨m2, m3.mono _, ?_⟩
      have hm := lookup_mem ho
      rcases List.mem_append.1 hm with hm | hm
      · exact absurd (List.mem_map.2 ⟨_, hm, rfl⟩) m1
      · obtain ⟨path', type', l2, x, ys, e, r1, r2, -, r4⟩ := g _ hm
        refine ⟨l2, x, ys, e, r1, ?_⟩
        have : (path', type') = (path, type) := by
          cases hu : place 0 (j :: p) t with
          | mk u i =>
            rw [hu] at r2
            cases hf : find u t with
            | none => rw [hf] at r2; cases r2
            | some sub =>
              rw [hf] at r2
              have h8 := refAt_item.1 r2
              rcases get_item hd (by simp) hp hu with ⟨rfl, -⟩ | ⟨-, sub', h9, h10⟩
              · exact absurd (find_mem hf) (List.nodup_cons.1 hd).1
              · rw [hf] at h9
                cases h9
                rw [h8] at h10
                cases h10
                rfl
        cases this
        exact r4

theorem resolved {isa : String → String → Bool} {t : Tree} {l : Links} (hd : Distinct t) (h : resolve isa t = .ok l) (p : List Nat)
    (path : List String) (type : String) (hp : t.get p = some (.ref path type)) :
    ∃ o, l.lookup (place 0 p t) = some o ∧ Placed isa t l p path type o := by
  obtain ⟨asm, l1, scope, h1, h2, h3, h4, h5, h6, h7⟩ := run h
  have hp' := hp
  cases p with
  | nil => cases hp
  | cons j p =>
    obtain ⟨o, ho⟩ := left_none h7 hp
    rw [placeI_zero] at ho
    exact ⟨o, ho, placed hd h1 h3 h4 h5 _ path type hp o ho⟩

/-! ### Declarations of assemblies -/

theorem assemblies_iff {t : Tree} {a : Nat} : a ∈ assemblies t ↔ ∃ i n, t.get [i] = some (.node a "Assembly" n) := by
  show _ ↔ ∃ i n, t.item i = some (.node a "Assembly" n)
  induction t with
  | nil => simp [assemblies, Tree.item]
  | unset r ih =>
    rw [assemblies, ih]
    constructor
    · rintro ⟨i, n, h⟩; exact ⟨i + 1, n, h⟩
    · rintro ⟨i, n, h⟩
      cases i with
      | zero => cases h
      | succ i => exact ⟨i, n, h⟩
  | ref x y r ih =>
    rw [assemblies, ih]
    constructor
    · rintro ⟨i, n, h⟩; exact ⟨i + 1, n, h⟩
    · rintro ⟨i, n, h⟩
      cases i with
      | zero => cases h
      | succ i => exact ⟨i, n, h⟩
  | node v k m s r ihs ihr =>
    have hsucc : (∃ i n, (Tree.node v k m s r).item i = some (.node a "Assembly" n)) ↔
        (v = a ∧ k = "Assembly") ∨ ∃ i n, r.item i = some (.node a "Assembly" n) := by
      constructor
      · rintro ⟨i, n, h⟩
        cases i with
        | zero => cases h; exact .inl ⟨rfl, rfl⟩
        | succ i => exact .inr ⟨i, n, h⟩
      · rintro (⟨rfl, rfl⟩ | ⟨i, n, h⟩)
        · exact ⟨0, m, rfl⟩
        · exact ⟨i + 1, n, h⟩
    rw [hsucc, ← ihr, assemblies]
    split
    · rename_i hk
      simp [hk, eq_comm]
    · rename_i hk
      simp [hk]

theorem declared_sound {t : Tree} {l : Links} {o : Obj} (h : o ∈ declared t l) : Shared t l o := by
  simp only [declared, List.mem_flatMap] at h
  obtain ⟨a, ha, h⟩ := h
  obtain ⟨i, n, hi⟩ := assemblies_iff.1 ha
  split at h
  · cases h
  · rename_i c hc
    simp only [List.mem_filter, decide_eq_true_eq] at h
    exact ⟨i, a, n, c, hi, first_sound hc, children_sound h.1 (by rintro rfl; exact h.2 rfl)⟩

theorem item_uid {t : Tree} {i u : Nat} {k : String} {n : Option String} (h : t.item i = some (.node u k n)) : u ∈ uids t := by
  induction t generalizing i with
  | nil => cases h
  | unset r ih => cases i with
    | zero => cases h
    | succ i => exact ih h
  | ref x y r ih => cases i with
    | zero => cases h
    | succ i => exact ih h
  | node v k' m s r ihs ihr => cases i with
    | zero => cases h; simp [uids]
    | succ i => simp [uids, ihr h]

theorem sub_of_not_node {t : Tree} {j : Nat} (h : ∀ u k n, t.item j ≠ some (.node u k n)) : t.sub j = .nil := by
  induction t generalizing j with
  | nil => cases j <;> rfl
  | unset r ih => cases j with
    | zero => rfl
    | succ j => exact ih h
  | ref x t r ih => cases j with
    | zero => rfl
    | succ j => exact ih h
  | node u' k' n' s r _ ih => cases j with
    | zero => exact absurd rfl (h u' k' n')
    | succ j => exact ih h

theorem sub_uids {t : Tree} {j u : Nat} (h : u ∈ uids (t.sub j)) : u ∈ uids t := by
  induction t generalizing j with
  | nil => cases j <;> exact h
  | unset r ih => cases j with
    | zero => cases h
    | succ j => exact ih h
  | ref x t r ih => cases j with
    | zero => cases h
    | succ j => exact ih h
  | node u' k' n' s r _ ih => cases j with
    | zero => simp only [uids, List.mem_cons, List.mem_append]; exact .inr (.inl h)
    | succ j => simp only [uids, List.mem_cons, List.mem_append]; exact .inr (.inr (ih h))

theorem sub_sane {t : Tree} {j : Nat} (h : Sane t) : Sane (t.sub j) ∧ ∀ u k n, t.item j = some (.node u k n) → k ≠ "Reference" := by
  induction t generalizing j with
  | nil => exact ⟨by cases j <;> trivial, by intro u k n h; cases h⟩
  | unset r ih => cases j with
    | zero => exact ⟨trivial, by intro u k n h; cases h⟩
    | succ j => exact ih h
  | ref x t r ih => cases j with
    | zero => exact ⟨trivial, by intro u k n h; cases h⟩
    | succ j => exact ih h
  | node u' k' n' s r _ ih => cases j with
    | zero => exact ⟨h.2.1, by intro u k n hx; cases hx; exact h.1⟩
    | succ j => exact ih h.2.2

theorem get_facts (p : List Nat) : ∀ {t : Tree} {u : Nat} {k : String} {n : Option String}, t.get p = some (.node u k n) →
    u ∈ uids t ∧ (Sane t → k ≠ "Reference") := by
  induction p with
  | nil => intro t u k n h; cases h
  | cons j p ih =>
    intro t u k n h
    cases p with
    | nil => exact ⟨item_uid h, fun hs => (sub_sane hs).2 u k n h⟩
    | cons q p =>
      have h' : (t.sub j).get (q :: p) = some (.node u k n) := h
      obtain ⟨h1, h2⟩ := ih h'
      exact ⟨sub_uids h1, fun hs => h2 (sub_sane hs).1⟩

theorem declared_complete {t : Tree} {l : Links} {o : Obj} (hd : Distinct t) (ho : o.kind ≠ "Reference") (h : Shared t l o) : o ∈ declared t l := by
  obtain ⟨i, a, n, c, h1, h2, h3⟩ := h
  simp only [declared, List.mem_flatMap]
  refine ⟨a, assemblies_iff.2 ⟨i, n, h1⟩, ?_⟩
  have ha : a ≠ 0 := by
    rintro rfl
    exact (List.nodup_cons.1 hd).1 (get_facts [i] h1).1
  rw [first_complete hd ha h2]
  simp only [List.mem_filter, decide_eq_true_eq]
  exact ⟨children_complete hd h3, ho⟩

theorem inline_kind {t : Tree} {u : Nat} {o : Obj} (hs : Sane t) (h : Child t [] u o) : o.kind ≠ "Reference" := by
  obtain ⟨i, p, -, -, ⟨h, -⟩ | ⟨-, h⟩⟩ := h
  · exact (get_facts p h).2 hs
  · cases h

theorem asm_iff {t : Tree} {asm : Frame} (hd : Distinct t) (hs : Sane t) (h : Scope.registerAll [] (declared t []) = .ok asm) (o : Obj)
    (n : String) (hn : o.name = some n) : o ∈ asm ↔ Shared t [] o := by
  rw [Scope.registerAll_mem h n o hn]
  constructor
  · rintro (h | h)
    · cases h
    · exact declared_sound h
  · intro h
    right
    refine declared_complete hd ?_ h
    obtain ⟨_, _, _, _, _, _, h⟩ := h
    exact inline_kind hs h

/-- C102: a specification that is accepted has no reference left, and nothing but references is replaced, each once, by something of a
right class. -/
theorem all_replaced (isa : String → String → Bool) (t : Tree) (l : Links) (hd : Distinct t) (h : resolve isa t = .ok l) :
    (∀ p path type, t.get p = some (.ref path type) → ∃ o, l.lookup (place 0 p t) = some o ∧ isa o.kind type = true) ∧
    (∀ k o, l.lookup k = some o → ∃ p path type, t.get p = some (.ref path type) ∧ place 0 p t = k) := by
  constructor
  · intro p path type hp
    obtain ⟨o, h1, asm, scope, l1, -, -, -, h2⟩ := resolved hd h p path type hp
    refine ⟨o, h1, ?_⟩
    cases path with
    | nil =>
      rcases h2 with ⟨l2, x, -, h2⟩ | ⟨-, ⟨l2, x, -, h2⟩, -⟩
      · cases h2
      · cases h2
    | cons n path =>
      rcases h2 with ⟨l2, x, -, h2⟩ | ⟨-, -, l2, x, ys, e, -, h2⟩
      · exact (resolveRef_sound h2).1
      · exact (lookup_sound (q := o) (by rw [h2]; simp)).1
  · intro k o hk
    obtain ⟨asm, l1, scope, h1, h2, h3, h4, h5, -, -⟩ := run h
    obtain ⟨new, k1, k2, -⟩ := pre_spec t isa asm t 0 0 [named t] [] l1 h3 (keys_nodup t 0 0 hd)
    rw [List.nil_append] at k1
    subst k1
    obtain ⟨new2, rfl, g⟩ := second_spec h5
    have hkey : ∀ (t : Tree) (u i : Nat), k ∈ keys u t i → ∃ j p path type, t.get (j :: p) = some (.ref path type) ∧ placeI u i (j :: p) t = k := by
      intro t
      induction t with
      | nil => intro u i h; cases h
      | unset r ih =>
        intro u i h
        obtain ⟨j, p, path, type, h1, h2⟩ := ih u (i + 1) h
        exact ⟨j + 1, p, path, type, by rw [get_succ_unset]; exact h1, by rw [placeI_succ_unset]; exact h2⟩
      | ref x y r ih =>
        intro u i h
        rcases List.mem_cons.1 h with rfl | h
        · exact ⟨0, [], x, y, rfl, rfl⟩
        · obtain ⟨j, p, path, type, h1, h2⟩ := ih u (i + 1) h
          exact ⟨j + 1, p, path, type, by rw [get_succ_ref]; exact h1, by rw [placeI_succ_ref]; exact h2⟩
      | node v k n s r ihs ihr =>
        intro u i h
        rcases List.mem_append.1 h with h | h
        · obtain ⟨j, p, path, type, h1, h2⟩ := ihs v 0 h
          exact ⟨0, j :: p, path, type, by rw [get_zero_node _ _ _ _ _ _ (by simp)]; exact h1, by rw [placeI_node _ _ _ _ _ _ _ _ (by simp)]; exact h2⟩
        · obtain ⟨j, p, path, type, h1, h2⟩ := ihr u (i + 1) h
          exact ⟨j + 1, p, path, type, by rw [get_succ_node]; exact h1, by rw [placeI_succ_node]; exact h2⟩
    rcases List.mem_append.1 (lookup_mem hk) with hm | hm
    · obtain ⟨j, p, path, type, m1, m2⟩ := hkey t 0 0 (k2.subset (List.mem_map.2 ⟨_, hm, rfl⟩))
      exact ⟨j :: p, path, type, m1, by rw [← placeI_zero]; exact m2⟩
    · obtain ⟨path, type, _, _, _, _, -, r2, -⟩ := g _ hm
      cases hf : find k.1 t with
      | none => simp only [hf] at r2; cases r2
      | some sub =>
        simp only [hf] at r2
        obtain ⟨p, -, -, m⟩ := find_pos hf
        obtain ⟨m1, m2⟩ := m 0 k.2
        exact ⟨p ++ [k.2], path, type, by rw [m1]; exact refAt_item.1 r2, m2⟩

/-- C102: a reference with one name becomes the innermost declaration around it, before it or after it; if there is none, that of an
assembly. -/
theorem reference_resolved (isa : String → String → Bool) (t : Tree) (l : Links) (hd : Distinct t) (hs : Sane t) (h : resolve isa t = .ok l)
    (p : List Nat) (n type : String) (hp : t.get p = some (.ref [n] type)) :
    ∃ o, l.lookup (place 0 p t) = some o ∧ Means isa t l (visible [] p t) n type o := by
  obtain ⟨o, h1, asm, scope, l1, h2, h3, ⟨x1, hx1⟩, h4⟩ := resolved hd h p [n] type hp
  refine ⟨o, h1, ?_⟩
  rcases h4 with ⟨l2, x, -, h5⟩ | ⟨hty, ⟨l2, x, -, h5⟩, l3, x3, ys, e, -, h6⟩
  · rw [resolveRef_single] at h5
    rcases Scope.resolve_prefers_context _ _ _ _ _ h5 with h5 | ⟨hno, h6⟩
    · exact .inl h5
    · obtain ⟨inner, f, outer, e, ⟨h7, h8, h9⟩, -⟩ := h6
      have hf : f = asm := by
        have : f ∈ [asm] := by rw [e]; simp
        exact List.mem_singleton.1 this
      subst hf
      refine .inr ⟨fun f hf q hq hx => hno f hf q ⟨hq, hx.1, hx.2⟩, h8, h9, .inl ?_⟩
      exact (asm_iff hd hs h2 o n h8).1 h7
  · rw [resolveRef_single] at h5
    have h7 := (Scope.resolve_unknown_iff _ _ _ _).1 h5
    rw [lookup_single] at h6
    obtain ⟨inner, f, outer, e', ⟨h8, h9, h10⟩, -⟩ := Scope.lookup_innermost _ _ _ _ _ _ h6
    have hf : f = scope := by
      have : f ∈ [scope] := by rw [e']; simp
      exact List.mem_singleton.1 this
    subst hf
    refine .inr ⟨fun f hf q hq hx => h7 f (by simp [hf]) q ⟨hq, hx.1, hx.2⟩, h9, h10, .inr ⟨?_, hty, ?_⟩⟩
    · intro q hq hx
      exact h7 asm (by simp) q ⟨(asm_iff hd hs h2 q n hx.1).2 hq, hx.1, hx.2⟩
    · rcases (Scope.registerAll_mem h3 n o h9).1 h8 with h | h
      · cases h
      · rw [hx1]; exact (declared_sound h).mono _

theorem placed_walk {isa : String → String → Bool} {t : Tree} {l : Links} {p : List Nat} {n : String} {path : List String} {type : String} {o : Obj}
    (h : Placed isa t l p (n :: path) type o) : isa o.kind type = true ∧ ∃ c, c.name = some n ∧ Walk t l c path o ∧
      ((∃ f ∈ visible [] p t, c ∈ f) ∨ Shared t l c) := by
  obtain ⟨asm, scope, l1, h2, h3, ⟨x1, hx1⟩, h4⟩ := h
  rcases h4 with ⟨l2, x, hl, h5⟩ | ⟨-, -, l3, x3, ys, e, hl, h6⟩
  · obtain ⟨k1, f, hf, c, k2, k3, k4⟩ := resolveRef_sound h5
    refine ⟨k1, c, k3, by rw [hl]; exact k4.mono _, ?_⟩
    rcases List.mem_append.1 hf with hf | hf
    · exact .inl ⟨f, hf, k2⟩
    · rw [List.mem_singleton.1 hf] at k2
      rcases (Scope.registerAll_mem h2 n c k3).1 k2 with h | h
      · cases h
      · exact .inr ((declared_sound h).mono l)
  · obtain ⟨k1, f, hf, c, k2, k3, k4⟩ := lookup_sound (q := o) (by rw [h6]; simp)
    refine ⟨k1, c, k3, by rw [hl]; exact k4.mono _, .inr ?_⟩
    rw [List.mem_singleton.1 hf] at k2
    rcases (Scope.registerAll_mem h3 n c k3).1 k2 with h | h
    · cases h
    · rw [hx1]; exact (declared_sound h).mono _

/-- C102: a qualified reference becomes something that is reached from a visible declaration, or one of an assembly, by its names. -/
theorem qualified_resolved (isa : String → String → Bool) (t : Tree) (l : Links) (hd : Distinct t) (h : resolve isa t = .ok l)
    (p : List Nat) (n : String) (path : List String) (type : String) (hp : t.get p = some (.ref (n :: path) type)) :
    ∃ o c, l.lookup (place 0 p t) = some o ∧ isa o.kind type = true ∧ c.name = some n ∧ Walk t l c path o ∧
      ((∃ f ∈ visible [] p t, c ∈ f) ∨ Shared t l c) := by
  obtain ⟨o, h1, h2⟩ := resolved hd h p (n :: path) type hp
  obtain ⟨h3, c, h4, h5, h6⟩ := placed_walk h2
  exact ⟨o, c, h1, h3, h4, h5, h6⟩

/-- C102: a specification in which nothing fits a reference is not accepted. -/
theorem unknown_refused (isa : String → String → Bool) (t : Tree) (hd : Distinct t) (hs : Sane t) (p : List Nat) (n type : String)
    (hp : t.get p = some (.ref [n] type)) (hv : ∀ f ∈ visible [] p t, ∀ o ∈ f, ¬ (o.name = some n ∧ isa o.kind type = true))
    (ha : ∀ l o, Shared t l o → ¬ (o.name = some n ∧ isa o.kind type = true)) : ∀ l, resolve isa t ≠ .ok l := by
  intro l h
  obtain ⟨o, -, hm⟩ := reference_resolved isa t l hd hs h p n type hp
  rcases hm with ⟨inner, f, outer, e, ⟨h1, h2, h3⟩, -⟩ | ⟨-, h1, h2, h3 | ⟨-, -, h3⟩⟩
  · exact hv f (by rw [e]; simp) o h1 ⟨h2, h3⟩
  · exact ha [] o h3 ⟨h1, h2⟩
  · exact ha l o h3 ⟨h1, h2⟩

theorem pre_unknown (t : Tree) (isa : String → String → Bool) (asm : Frame) (path : List String) (kids : Tree) : ∀ (u i : Nat) (s : Stack) (l : Links),
    pre t isa asm u kids i s l = .error (.unknown path) → ∃ j p type l', kids.get (j :: p) = some (.ref path type) ∧
      resolveRef t l' (fun o => isa o.kind type) path (visible s p (kids.sub j)) [asm] = .ok none ∧ ¬ (type = "Instance" ∨ type = "Interface") := by
  induction kids with
  | nil => intro u i s l h; cases h
  | unset r ih =>
    intro u i s l h
    obtain ⟨j, p, type, l', h1, h2⟩ := ih u (i + 1) s l h
    exact ⟨j + 1, p, type, l', by rw [get_succ_unset]; exact h1, h2⟩
  | ref x y r ih =>
    intro u i s l h
    simp only [pre] at h
    split at h
    · cases h
    · rename_i hr
      split at h
      · obtain ⟨j, p, type, l', h1, h2⟩ := ih u (i + 1) s l h
        exact ⟨j + 1, p, type, l', by rw [get_succ_ref]; exact h1, h2⟩
      · rename_i hy
        cases h
        exact ⟨0, [], y, l, rfl, hr, hy⟩
    · obtain ⟨j, p, type, l', h1, h2⟩ := ih u (i + 1) s _ h
      exact ⟨j + 1, p, type, l', by rw [get_succ_ref]; exact h1, h2⟩
  | node v k n sub r ihs ihr =>
    intro u i s l h
    simp only [pre] at h
    split at h
    · cases h
    · rename_i f hf
      split at h
      · rename_i e hl1
        cases h
        obtain ⟨j, p, type, l', h1, h2⟩ := ihs v 0 (f :: s) l hl1
        rw [frame_named hf] at h2
        exact ⟨0, j :: p, type, l', by rw [get_zero_node _ _ _ _ _ _ (by simp)]; exact h1, h2⟩
      · obtain ⟨j, p, type, l', h1, h2⟩ := ihr u (i + 1) s _ h
        exact ⟨j + 1, p, type, l', by rw [get_succ_node]; exact h1, h2⟩

theorem again_unknown {t isa scope u i l path} (h : again t isa scope u i l = .error (.unknown path)) :
    l.lookup (u, i) = none ∧ ∃ type, ((find u t).bind fun sub => refAt sub i) = some (path, type) := by
  unfold again at h
  split at h
  · rename_i path' type hl hr
    split at h
    · cases h
    · cases h
    · cases h; exact ⟨hl, type, hr⟩
  · cases h

theorem second_unknown {t isa scope path} {us : List Nat} : ∀ {l}, second t isa scope us l = .error (.unknown path) →
    ∃ u i type, l.lookup (u, i) = none ∧ ((find u t).bind fun sub => refAt sub i) = some (path, type) := by
  have mono : ∀ {l l' : Links} {k}, Grown t isa scope l l' → l'.lookup k = none → l.lookup k = none := by
    rintro l l' k ⟨new, rfl, -⟩ h
    rw [lookup_none] at h ⊢
    rw [List.map_append] at h
    exact fun hm => h (List.mem_append_left _ hm)
  induction us with
  | nil => intro l h; cases h
  | cons u us ih =>
    intro l h
    simp only [second] at h
    split at h
    · rename_i e h1
      cases h
      obtain ⟨a, type, b⟩ := again_unknown h1
      exact ⟨u, 0, type, a, b⟩
    · rename_i l1 h1
      split at h
      · rename_i e h2
        cases h
        obtain ⟨a, type, b⟩ := again_unknown h2
        exact ⟨u, 1, type, mono (again_spec h1) a, b⟩
      · rename_i l2 h2
        obtain ⟨v, i, type, a, b⟩ := ih h
        exact ⟨v, i, type, mono ((again_spec h1).trans (again_spec h2)) a, b⟩

/-! ### Places and assemblies -/

theorem registerAll_ok {os : List Obj} : ∀ {f f' : Frame}, Scope.FrameOk f → Scope.registerAll f os = .ok f' → Scope.FrameOk f' := by
  induction os with
  | nil => intro f f' hf h; cases h; exact hf
  | cons o os ih =>
    intro f f' hf h
    simp only [Scope.registerAll] at h
    split at h
    · cases h
    · rename_i f1 h1
      exact ih (Scope.registerFrame_ok hf h1) h

/-- On no level are two declarations of one sort under one name. -/
def Levels : Tree → Prop
  | .nil => True
  | .unset r => Levels r
  | .ref _ _ r => Levels r
  | .node _ _ _ s r => Scope.FrameOk (named s) ∧ Levels s ∧ Levels r

theorem pre_levels (t : Tree) (isa : String → String → Bool) (asm : Frame) (kids : Tree) : ∀ (u i : Nat) (s : Stack) (l l' : Links),
    pre t isa asm u kids i s l = .ok l' → Levels kids := by
  induction kids with
  | nil => intros; trivial
  | unset r ih => intro u i s l l' h; exact ih u (i + 1) s l l' h
  | ref x y r ih =>
    intro u i s l l' h
    simp only [pre] at h
    split at h
    · cases h
    · split at h
      · exact ih u (i + 1) s l l' h
      · cases h
    · exact ih u (i + 1) s _ l' h
  | node v k n sub r ihs ihr =>
    intro u i s l l' h
    simp only [pre] at h
    split at h
    · cases h
    · rename_i f hf
      split at h
      · cases h
      · rename_i l1 hl1
        refine ⟨?_, ihs v 0 _ _ _ hl1, ihr u (i + 1) s l1 l' h⟩
        rw [← frame_named hf]
        exact registerAll_ok (by simp [Scope.FrameOk]) hf

theorem named_item {t : Tree} {j u k n} (h : t.item j = some (.node u k (some n))) : Obj.mk u k (some n) [] ∈ named t := by
  induction t generalizing j with
  | nil => cases h
  | unset r ih => cases j with
    | zero => cases h
    | succ j => exact ih h
  | ref x y r ih => cases j with
    | zero => cases h
    | succ j => exact ih h
  | node u' k' n' s r _ ih => cases j with
    | zero => cases h; simp [named]
    | succ j => simp only [named, List.mem_append]; exact .inr (ih h)

theorem named_items {t : Tree} {j i u k n u' k' n'} (h : t.item j = some (.node u k (some n))) (h' : t.item i = some (.node u' k' (some n')))
    (hj : j < i) : [Obj.mk u k (some n) [], Obj.mk u' k' (some n') []].Sublist (named t) := by
  induction t generalizing j i with
  | nil => cases h
  | unset r ih => cases j with
    | zero => cases h
    | succ j => cases i with
      | zero => omega
      | succ i => exact ih h h' (by omega)
  | ref x y r ih => cases j with
    | zero => cases h
    | succ j => cases i with
      | zero => omega
      | succ i => exact ih h h' (by omega)
  | node u1 k1 n1 s r _ ih => cases i with
    | zero => omega
    | succ i => cases j with
      | zero =>
        cases h
        simp only [named, reduceCtorEq, if_false, List.singleton_append]
        exact List.Sublist.cons_cons _ (List.singleton_sublist.2 (named_item h'))
      | succ j => exact (ih h h' (by omega)).trans (List.sublist_append_right _ _)

theorem item_level {t : Tree} {j u k n} (h : t.item j = some (.node u k n)) (hl : Levels t) : Scope.FrameOk (named (t.sub j)) ∧ Levels (t.sub j) := by
  induction t generalizing j with
  | nil => cases h
  | unset r ih => cases j with
    | zero => cases h
    | succ j => exact ih h hl
  | ref x y r ih => cases j with
    | zero => cases h
    | succ j => exact ih h hl
  | node u' k' n' s r _ ih => cases j with
    | zero => exact ⟨hl.1, hl.2.1⟩
    | succ j => exact ih h hl.2.2

theorem level_at (p : List Nat) : ∀ {t : Tree}, Scope.FrameOk (named t) → Levels t → ∀ {j i u k n u' k' n'},
    t.get (p ++ [j]) = some (.node u k (some n)) → t.get (p ++ [i]) = some (.node u' k' (some n')) → j < i →
    ¬ (n = n' ∧ Scope.scopeType k = Scope.scopeType k') := by
  induction p with
  | nil =>
    intro t hf hl j i u k n u' k' n' h h' hj
    have hs := named_items h h' hj
    have := List.Pairwise.sublist hs hf
    simp only [List.pairwise_cons] at this
    intro hx
    exact this.1 (Obj.mk u' k' (some n') []) (by simp) ⟨congrArg some hx.1, hx.2⟩
  | cons q p ih =>
    intro t hf hl j i u k n u' k' n' h h' hj
    have e : ∀ x, t.get (q :: p ++ [x]) = (t.sub q).get (p ++ [x]) := by intro x; cases p <;> rfl
    rw [e] at h h'
    by_cases hn : ∃ u k n, t.item q = some (.node u k n)
    · obtain ⟨u1, k1, n1, hq⟩ := hn
      obtain ⟨h1, h2⟩ := item_level hq hl
      exact ih h1 h2 h h' hj
    · rw [sub_of_not_node (fun u k n he => hn ⟨u, k, n, he⟩), get_nil] at h
      cases h

/-- C102: a specification that is accepted does not declare two things of one sort under one name in one place. -/
theorem siblings_differ (isa : String → String → Bool) (t : Tree) (l : Links) (h : resolve isa t = .ok l) (p : List Nat) (j i : Nat)
    (hne : j ≠ i) (u u' : Nat) (k k' : String) (n : String) (hj : t.get (p ++ [j]) = some (.node u k (some n)))
    (hi : t.get (p ++ [i]) = some (.node u' k' (some n))) :
    k ≠ k' ∧ ¬ ((k = "Group" ∨ k = "Instance") ∧ (k' = "Group" ∨ k' = "Instance")) := by
  obtain ⟨asm, l1, scope, -, h2, h3, -⟩ := run h
  have hf : Scope.FrameOk (named t) := registerAll_ok (by simp [Scope.FrameOk]) h2
  have hl := pre_levels t isa asm t 0 0 _ _ _ h3
  have key : ¬ (Scope.scopeType k = Scope.scopeType k') := by
    rcases Nat.lt_or_gt_of_ne hne with hlt | hlt
    · exact fun hs => level_at p hf hl hj hi hlt ⟨rfl, hs⟩
    · exact fun hs => level_at p hf hl hi hj hlt ⟨rfl, hs.symm⟩
  exact ⟨fun hk => key (Resolve.scopeType_same (.inl hk)), fun hk => key (Resolve.scopeType_same (.inr hk))⟩

/-- C102: nor do assemblies with inline compositions, taken together. -/
theorem assemblies_differ (isa : String → String → Bool) (t : Tree) (l : Links) (hd : Distinct t) (hs : Sane t) (h : resolve isa t = .ok l)
    (o o' : Obj) (ho : Shared t [] o) (ho' : Shared t [] o') (hne : o ≠ o') (n : String) (hn : o.name = some n) (hn' : o'.name = some n) :
    ¬ Scope.Spec.SameKind o o' := by
  obtain ⟨asm, l1, scope, h1, -⟩ := run h
  have hf : Scope.FrameOk asm := registerAll_ok (by simp [Scope.FrameOk]) h1
  have m := (asm_iff hd hs h1 o n hn).2 ho
  have m' := (asm_iff hd hs h1 o' n hn').2 ho'
  haveI : Std.Symm fun o p : Obj => ¬ (o.name = p.name ∧ Scope.scopeType o.kind = Scope.scopeType p.kind) :=
    ⟨by rintro a b hab ⟨h1, h2⟩; exact hab ⟨h1.symm, h2.symm⟩⟩
  have := List.Pairwise.forall hf m m' hne
  intro hk
  exact this ⟨by rw [hn, hn'], Resolve.scopeType_same hk⟩

/-! ### Cycles -/

/-- An object of the specification. -/
def InTree (t : Tree) (o : Obj) : Prop := ∃ p, t.get p = some (.node o.uid o.kind o.name) ∧ o.members = []

theorem child_in {t : Tree} {l : Links} {u : Nat} {o : Obj} (hl : ∀ e ∈ l, InTree t e.2) (h : Child t l u o) : InTree t o := by
  obtain ⟨i, p, -, -, ⟨h1, h2⟩ | ⟨-, h2⟩⟩ := h
  · exact ⟨p, h1, h2⟩
  · exact hl _ (lookup_mem h2)

theorem walk_in {t : Tree} {l : Links} {o q : Obj} {path : List String} (hl : ∀ e ∈ l, InTree t e.2) (h : Walk t l o path q) (ho : InTree t o) :
    InTree t q := by
  induction h with
  | here o => exact ho
  | step o n p rest q h1 h2 _ ih =>
    apply ih
    unfold Inside at h1
    split at h1
    · obtain ⟨ty, -, h1⟩ := h1
      exact child_in hl h1
    · exact child_in hl h1

theorem resolveRef_in {t : Tree} {l : Links} {want : Obj → Bool} {path : List String} {s a : Stack} {o : Obj} (hl : ∀ e ∈ l, InTree t e.2)
    (hs : ∀ f ∈ s ++ a, ∀ o ∈ f, InTree t o) (h : resolveRef t l want path s a = .ok (some o)) : InTree t o := by
  cases path with
  | nil => cases h
  | cons n path =>
    obtain ⟨-, f, hf, c, hc, -, hw⟩ := resolveRef_sound h
    exact walk_in hl hw (hs f hf c hc)

theorem named_get {t : Tree} {o : Obj} (h : o ∈ named t) : ∃ j, t.get [j] = some (.node o.uid o.kind o.name) ∧ o.members = [] := by
  show ∃ j, t.item j = some (.node o.uid o.kind o.name) ∧ o.members = []
  induction t with
  | nil => cases h
  | unset r ih => obtain ⟨j, h⟩ := ih h; exact ⟨j + 1, h⟩
  | ref x y r ih => obtain ⟨j, h⟩ := ih h; exact ⟨j + 1, h⟩
  | node u k n s r _ ih =>
    simp only [named, List.mem_append] at h
    rcases h with h | h
    · split at h
      · cases h
      · rw [List.mem_singleton.1 h]; exact ⟨0, rfl, rfl⟩
    · obtain ⟨j, h⟩ := ih h; exact ⟨j + 1, h⟩

theorem pre_in (t : Tree) (isa : String → String → Bool) (asm : Frame) (ha : ∀ o ∈ asm, InTree t o) (kids : Tree) : ∀ (u i : Nat) (s : Stack) (l l' : Links),
    (∀ p u k n, kids.get p = some (.node u k n) → ∃ q, t.get q = some (.node u k n)) → (∀ f ∈ s, ∀ o ∈ f, InTree t o) → (∀ e ∈ l, InTree t e.2) →
    pre t isa asm u kids i s l = .ok l' → ∀ e ∈ l', InTree t e.2 := by
  induction kids with
  | nil => intro u i s l l' _ _ hl h; cases h; exact hl
  | unset r ih =>
    intro u i s l l' hk hs hl h
    refine ih u (i + 1) s l l' ?_ hs hl h
    intro p u k n hp
    cases p with
    | nil => cases hp
    | cons j p => exact hk ((j + 1) :: p) u k n (by rw [get_succ_unset]; exact hp)
  | ref x y r ih =>
    intro u i s l l' hk hs hl h
    have hk' : ∀ p u k n, r.get p = some (.node u k n) → ∃ q, t.get q = some (.node u k n) := by
      intro p u k n hp
      cases p with
      | nil => cases hp
      | cons j p => exact hk ((j + 1) :: p) u k n (by rw [get_succ_ref]; exact hp)
    simp only [pre] at h
    split at h
    · cases h
    · split at h
      · exact ih u (i + 1) s l l' hk' hs hl h
      · cases h
    · rename_i o hr
      refine ih u (i + 1) s _ l' hk' hs ?_ h
      intro e he
      rcases List.mem_append.1 he with he | he
      · exact hl e he
      · rw [List.mem_singleton.1 he]
        refine resolveRef_in hl ?_ hr
        intro f hf
        rcases List.mem_append.1 hf with hf | hf
        · exact hs f hf
        · rw [List.mem_singleton.1 hf]; exact ha
  | node v k n sub r ihs ihr =>
    intro u i s l l' hk hs hl h
    simp only [pre] at h
    split at h
    · cases h
    · rename_i f hf
      have hf' := frame_named hf
      subst hf'
      split at h
      · cases h
      · rename_i l1 hl1
        have hsub : ∀ p u k' n', sub.get p = some (.node u k' n') → ∃ q, t.get q = some (.node u k' n') := by
          intro p u k' n' hp
          cases p with
          | nil => cases hp
          | cons j p => exact hk (0 :: j :: p) u k' n' (by rw [get_zero_node _ _ _ _ _ _ (by simp)]; exact hp)
        refine ihr u (i + 1) s l1 l' ?_ hs (ihs v 0 (named sub :: s) l l1 hsub ?_ hl hl1) h
        · intro p u k' n' hp
          cases p with
          | nil => cases hp
          | cons j p => exact hk ((j + 1) :: p) u k' n' (by rw [get_succ_node]; exact hp)
        · intro g hg
          rcases List.mem_cons.1 hg with rfl | hg
          · intro o ho
            obtain ⟨j, h1, h2⟩ := named_get ho
            obtain ⟨q, hq⟩ := hsub _ _ _ _ h1
            exact ⟨q, hq, h2⟩
          · exact hs g hg

theorem again_in {t isa scope u i l l'} (hs : ∀ o ∈ scope, InTree t o) (hl : ∀ e ∈ l, InTree t e.2) (h : again t isa scope u i l = .ok l') :
    ∀ e ∈ l', InTree t e.2 := by
  unfold again at h
  split at h
  · rename_i path type _ hr
    split at h
    · rename_i o ys e hk
      cases h
      intro x hx
      rcases List.mem_append.1 hx with hx | hx
      · exact hl x hx
      · rw [List.mem_singleton.1 hx]
        cases path with
        | nil => cases hk
        | cons n path =>
          obtain ⟨-, f, hf, c, hc, -, hw⟩ := lookup_sound (q := o) (by rw [hk]; simp)
          rw [List.mem_singleton.1 hf] at hc
          exact walk_in hl hw (hs c hc)
    · cases h
    · cases h
  · cases h; exact hl

theorem second_in {t isa scope} (hs : ∀ o ∈ scope, InTree t o) {us : List Nat} : ∀ {l l'}, (∀ e ∈ l, InTree t e.2) → second t isa scope us l = .ok l' →
    ∀ e ∈ l', InTree t e.2 := by
  induction us with
  | nil => intro l l' hl h; cases h; exact hl
  | cons u us ih =>
    intro l l' hl h
    simp only [second] at h
    split at h
    · cases h
    · rename_i l1 h1
      split at h
      · cases h
      · rename_i l2 h2
        exact ih (again_in hs (again_in hs hl h1) h2) h

theorem scope_in {t : Tree} {l : Links} {f : Frame} (hl : ∀ e ∈ l, InTree t e.2) (h : Scope.registerAll [] (declared t l) = .ok f) :
    ∀ o ∈ f, InTree t o := by
  intro o ho
  rw [registerAll_eq h, List.nil_append] at ho
  obtain ⟨_, _, _, _, _, _, h⟩ := declared_sound (List.mem_filter.1 ho).1
  exact child_in hl h

theorem get_append (q : List Nat) : ∀ {t : Tree} {i : Nat} {it : Item}, q ≠ [] → t.get (q ++ [i]) = some it →
    ∃ u k n, t.get q = some (.node u k n) ∧ ∀ u0, place u0 (q ++ [i]) t = (u, i) := by
  induction q with
  | nil => intro t i it h; exact absurd rfl h
  | cons j q ih =>
    intro t i it _ h
    have e : t.get (j :: q ++ [i]) = (t.sub j).get (q ++ [i]) := by cases q <;> rfl
    rw [e] at h
    by_cases hn : ∃ u k n, t.item j = some (.node u k n)
    · obtain ⟨u, k, n, hj⟩ := hn
      cases q with
      | nil =>
        refine ⟨u, k, n, hj, ?_⟩
        intro u0
        show (t.uid j, i) = (u, i)
        unfold Tree.uid
        rw [hj]
      | cons r q =>
        obtain ⟨u', k', n', h1, h2⟩ := ih (by simp) h
        exact ⟨u', k', n', h1, fun u0 => h2 (t.uid j)⟩
    · rw [sub_of_not_node (fun u k n he => hn ⟨u, k, n, he⟩), get_nil] at h
      cases h

theorem reachable {t : Tree} (l : Links) (m : Nat) : ∀ (p : List Nat), p.length = m → ∀ {u k n}, t.get p = some (.node u k n) →
    Acyclic.Spec.Plus (Holds t l) 0 u := by
  induction m with
  | zero =>
    intro p hp u k n h
    rw [List.eq_nil_of_length_eq_zero hp] at h
    cases h
  | succ m ih =>
    intro p hp u k n h
    obtain ⟨q, i, rfl⟩ : ∃ q i, p = q ++ [i] := by
      refine ⟨p.dropLast, p.getLast (by intro he; rw [he] at hp; cases hp), ?_⟩
      rw [List.dropLast_append_getLast]
    by_cases hq : q = []
    · subst hq
      exact .one _ _ ⟨.mk u k n [], ⟨i, [i], by simp, rfl, .inl ⟨h, rfl⟩⟩, rfl⟩
    · obtain ⟨v, k', n', h1, h2⟩ := get_append q hq h
      have := ih q (by simpa using hp) h1
      exact this.tail ⟨.mk u k n [], ⟨i, q ++ [i], by simp, h2 0, .inl ⟨h, rfl⟩⟩, rfl⟩

theorem holds_from {t : Tree} {l : Links} {u v : Nat} (h : Holds t l u v) : u = 0 ∨ ∃ p k n, t.get p = some (.node u k n) := by
  obtain ⟨o, ⟨i, p, hp, hpl, h⟩, -⟩ := h
  have key : ∀ it, t.get p = some it → u = 0 ∨ ∃ p k n, t.get p = some (.node u k n) := by
    intro it hit
    obtain ⟨q, i', rfl⟩ : ∃ q i, p = q ++ [i] := ⟨p.dropLast, p.getLast hp, by rw [List.dropLast_append_getLast]⟩
    by_cases hq : q = []
    · subst hq
      cases hpl
      exact .inl rfl
    · obtain ⟨v, k', n', h1, h2⟩ := get_append q hq hit
      rw [h2 0] at hpl
      cases hpl
      exact .inr ⟨q, k', n', h1⟩
  rcases h with ⟨h, -⟩ | ⟨⟨_, _, h⟩, -⟩
  · exact key _ h
  · exact key _ h

/-- What the check of cycles follows. -/
theorem child_iff {t : Tree} {l : Links} (hd : Distinct t) (hs : Sane t) (hl : ∀ e ∈ l, InTree t e.2) (u v : Nat) :
    Acyclic.Child (fun u => ((children t l u).filter fun o => o.kind ≠ "Reference").map Obj.uid) u v ↔ Holds t l u v := by
  unfold Acyclic.Child Holds
  simp only [List.mem_map, List.mem_filter, decide_eq_true_eq]
  constructor
  · rintro ⟨o, ⟨h1, h2⟩, h3⟩
    exact ⟨o, children_sound h1 (by rintro rfl; exact h2 rfl), h3⟩
  · rintro ⟨o, h1, h2⟩
    refine ⟨o, ⟨children_complete hd h1, ?_⟩, h2⟩
    obtain ⟨p, hp, -⟩ := child_in hl h1
    exact (get_facts p hp).2 hs

theorem plus_iff {α : Type} {r r' : α → α → Prop} (h : ∀ a b, r a b ↔ r' a b) (a b : α) : Acyclic.Spec.Plus r a b ↔ Acyclic.Spec.Plus r' a b := by
  have : r = r' := by funext a b; exact propext (h a b)
  rw [this]

theorem links_in {isa : String → String → Bool} {t : Tree} {l l1 : Links} {asm scope : Frame}
    (h1 : Scope.registerAll [] (declared t []) = .ok asm) (h3 : pre t isa asm 0 t 0 [named t] [] = .ok l1)
    (h4 : Scope.registerAll [] (declared t l1) = .ok scope) {us : List Nat} (h5 : second t isa scope us l1 = .ok l) : ∀ e ∈ l, InTree t e.2 := by
  have ha := scope_in (by simp) h1
  have hl1 := pre_in t isa asm ha t 0 0 [named t] [] l1 (fun p u k n h => ⟨p, h⟩)
    (by
      intro f hf o ho
      rw [List.mem_singleton.1 hf] at ho
      obtain ⟨j, h⟩ := named_get ho
      exact ⟨[j], h⟩) (by simp) h3
  exact second_in (scope_in hl1 h4) hl1 h5

/-- C102: in a specification that is accepted no object contains itself, not even through others. -/
theorem acyclic (isa : String → String → Bool) (t : Tree) (l : Links) (hd : Distinct t) (hs : Sane t) (h : resolve isa t = .ok l) (u : Nat) :
    ¬ Acyclic.Spec.Plus (Holds t l) u u := by
  obtain ⟨asm, l1, scope, h1, h2, h3, h4, h5, h6, -⟩ := run h
  have hin := links_in h1 h3 h4 h5
  have := Acyclic.check_complete _ _ _ _ h6
  intro hc
  obtain ⟨v, hv⟩ := Acyclic.plus_first hc
  have hreach : u = 0 ∨ Acyclic.Spec.Plus (Holds t l) 0 u := by
    rcases holds_from hv with h | ⟨p, k, n, hp⟩
    · exact .inl h
    · exact .inr (reachable l _ p rfl hp)
  have e := plus_iff (child_iff hd hs hin)
  refine (this u ?_).2 ((e u u).2 hc)
  rcases hreach with h | h
  · exact .inl h
  · exact .inr ((e 0 u).2 h)

theorem size_uids (t : Tree) : (uids t).length = size t := by
  induction t with
  | nil => rfl
  | unset r ih => exact ih
  | ref x y r ih => exact ih
  | node v k n s r ihs ihr => simp [uids, size, ihs, ihr]

/-- C102: cycles are the reason for a refusal only if there are some: references that were replaced by what they mean make an object contain
itself. -/
theorem cycle_reason (isa : String → String → Bool) (t : Tree) (hd : Distinct t) (hs : Sane t) (h : resolve isa t = .error .cycle) :
    ∃ l u, Acyclic.Spec.Plus (Holds t l) u u ∧
      ∀ p n path type o, t.get p = some (.ref (n :: path) type) → l.lookup (place 0 p t) = some o →
        isa o.kind type = true ∧ ∃ c, c.name = some n ∧ Walk t l c path o ∧ ((∃ f ∈ visible [] p t, c ∈ f) ∨ Shared t l c) := by
  unfold resolve at h
  split at h
  · cases h
  · rename_i asm h1
    split at h
    · cases h
    · rename_i f h2
      have := frame_named h2
      subst this
      split at h
      · rename_i e h3
        cases h
        exfalso
        clear h2
        have : ∀ (kids : Tree) (u i : Nat) (s : Stack) (l : Links), pre t isa asm u kids i s l ≠ .error .cycle := by
          intro kids
          induction kids with
          | nil => intro u i s l h; cases h
          | unset r ih => intro u i s l h; exact ih u (i + 1) s l h
          | ref x y r ih =>
            intro u i s l h
            simp only [pre] at h
            split at h
            · cases h
            · split at h
              · exact ih _ _ _ _ h
              · cases h
            · exact ih _ _ _ _ h
          | node v k n sub r ihs ihr =>
            intro u i s l h
            simp only [pre] at h
            split at h
            · cases h
            · split at h
              · rename_i e he; cases h; exact ihs _ _ _ _ he
              · exact ihr _ _ _ _ h
        exact this _ _ _ _ _ h3
      · rename_i l1 h3
        split at h
        · cases h
        · rename_i scope h4
          split at h
          · rename_i e h5
            cases h
            exfalso
            have ha : ∀ u i l, again t isa scope u i l ≠ .error .cycle := by
              intro u i l h
              unfold again at h
              split at h
              · split at h <;> cases h
              · cases h
            have : ∀ (us : List Nat) l, second t isa scope us l ≠ .error .cycle := by
              intro us
              induction us with
              | nil => intro l h; cases h
              | cons u us ih =>
                intro l h
                simp only [second] at h
                split at h
                · rename_i e he; cases h; exact ha _ _ _ he
                · split at h
                  · rename_i e he; cases h; exact ha _ _ _ he
                  · exact ih _ h
            exact this _ _ h5
          · rename_i l2 h5
            have hin := links_in h1 h3 h4 h5
            split at h
            · split at h <;> cases h
            · rename_i hck
              have e := plus_iff (child_iff hd hs hin)
              obtain ⟨v, hv, hiff⟩ := Acyclic.check_iff_cycle
                (children := fun u => ((children t l2 u).filter fun o => o.kind ≠ "Reference").map Obj.uid) (0 :: uids t)
                (by
                  intro u _ c hc
                  obtain ⟨o, ho, rfl⟩ := (child_iff hd hs hin u c).1 hc
                  obtain ⟨p, hp, -⟩ := child_in hin ho
                  exact List.mem_cons_of_mem _ (get_facts p hp).1)
                0 (by simp) (size t + 2) (by simp [size_uids])
              cases v with
              | ok => exact absurd hv hck
              | cycle =>
                obtain ⟨u, -, hu⟩ := hiff.1 rfl
                refine ⟨l2, u, (e u u).1 hu, ?_⟩
                intro p n path type o hp ho
                exact placed_walk (placed hd h1 h3 h4 h5 p (n :: path) type hp o ho)

theorem again_tried {t isa scope u i l l'} (h : again t isa scope u i l = .ok l') {path type}
    (hr : ((find u t).bind fun sub => refAt sub i) = some (path, type)) : l'.lookup (u, i) ≠ none := by
  unfold again at h
  split at h
  · split at h
    · cases h
      rw [Ne, lookup_none]
      simp
    · cases h
    · cases h
  · rename_i hne
    cases h
    intro hl
    exact hne path type hl hr

theorem grown_lookup {t isa scope l l'} (h : Grown t isa scope l l') {k : Nat × Nat} (hk : l.lookup k ≠ none) : l'.lookup k ≠ none := by
  obtain ⟨new, rfl, -⟩ := h
  rw [Ne, lookup_none] at hk ⊢
  rw [List.map_append]
  exact fun hm => hk (fun hm' => hm (List.mem_append_left _ hm'))

theorem second_tried {t isa scope} {us : List Nat} : ∀ {l l'}, second t isa scope us l = .ok l' → ∀ u ∈ us, ∀ i < 2, ∀ path type,
    ((find u t).bind fun sub => refAt sub i) = some (path, type) → l'.lookup (u, i) ≠ none := by
  induction us with
  | nil => intro l l' _ u hu; cases hu
  | cons v us ih =>
    intro l l' h u hu i hi path type hr
    simp only [second] at h
    split at h
    · cases h
    · rename_i l1 h1
      split at h
      · cases h
      · rename_i l2 h2
        rcases List.mem_cons.1 hu with rfl | hu
        · have hi' : i = 0 ∨ i = 1 := by omega
          rcases hi' with rfl | rfl
          · exact grown_lookup (second_spec h) (grown_lookup (again_spec h2) (again_tried h1 hr))
          · exact grown_lookup (second_spec h) (again_tried h2 hr)
        · exact ih h u hu i hi path type hr

theorem again_none {t isa scope u i l n} (h : again t isa scope u i l = .error (.unknown [n])) :
    ∃ type, ((find u t).bind fun sub => refAt sub i) = some ([n], type) ∧ ∀ o ∈ scope, ¬ (o.name = some n ∧ isa o.kind type = true) := by
  unfold again at h
  split at h
  · rename_i path' type hl hr
    split at h
    · cases h
    · cases h
    · rename_i hk
      cases h
      refine ⟨type, hr, ?_⟩
      rw [lookup_single] at hk
      have := (Scope.lookup_none_iff _ _ _).1 hk
      exact fun o ho hx => this scope (by simp) o ⟨ho, hx.1, hx.2⟩
  · cases h

theorem second_unknown_none {t isa scope n} {us : List Nat} : ∀ {l}, second t isa scope us l = .error (.unknown [n]) →
    ∃ u i type, l.lookup (u, i) = none ∧ ((find u t).bind fun sub => refAt sub i) = some ([n], type) ∧
      ∀ o ∈ scope, ¬ (o.name = some n ∧ isa o.kind type = true) := by
  have mono : ∀ {l l' : Links} {k}, Grown t isa scope l l' → l'.lookup k = none → l.lookup k = none := by
    intro l l' k hg h
    cases hl : l.lookup k with
    | none => rfl
    | some o => exact absurd h (grown_lookup hg (by rw [hl]; simp))
  induction us with
  | nil => intro l h; cases h
  | cons u us ih =>
    intro l h
    simp only [second] at h
    split at h
    · rename_i e h1
      cases h
      obtain ⟨a, -⟩ := again_unknown h1
      obtain ⟨type, b, c⟩ := again_none h1
      exact ⟨u, 0, type, a, b, c⟩
    · rename_i l1 h1
      split at h
      · rename_i e h2
        cases h
        obtain ⟨a, -⟩ := again_unknown h2
        obtain ⟨type, b, c⟩ := again_none h2
        exact ⟨u, 1, type, mono (again_spec h1) a, b, c⟩
      · rename_i l2 h2
        obtain ⟨v, i, type, a, b⟩ := ih h
        exact ⟨v, i, type, mono ((again_spec h1).trans (again_spec h2)) a, b⟩

theorem ends_complete {t : Tree} {l : Links} (hd : Distinct t) (hs : Sane t) (hl : ∀ e ∈ l, InTree t e.2) {p : List Nat} (h : OfEnd t l p) :
    (place 0 p t).1 ∈ ends t l ∧ (place 0 p t).2 < 2 := by
  obtain ⟨c, o, i, ⟨j, a, n, c0, h1, h2, h3⟩, h4, h5, h6, h7, h8⟩ := h
  rw [h7]
  refine ⟨?_, h8⟩
  simp only [ends, List.mem_flatMap]
  have ha : a ≠ 0 := by
    rintro rfl
    exact (List.nodup_cons.1 hd).1 (get_facts [j] h1).1
  refine ⟨a, assemblies_iff.2 ⟨j, n, h1⟩, ?_⟩
  rw [first_complete hd ha h2]
  simp only [List.mem_flatMap, List.mem_filter, decide_eq_true_eq, List.mem_map]
  exact ⟨c, ⟨children_complete hd h3, h4⟩, o, ⟨children_complete hd h5, h6⟩, rfl⟩

theorem pre_right {isa : String → String → Bool} {t : Tree} {l1 : Links} {asm scope : Frame} (hd : Distinct t)
    (h1 : Scope.registerAll [] (declared t []) = .ok asm) (h3 : pre t isa asm 0 t 0 [named t] [] = .ok l1)
    (h4 : Scope.registerAll [] (declared t l1) = .ok scope) : Right isa t l1 := by
  refine ⟨fun p n path type o hp ho => placed_walk (placed hd h1 h3 h4 (us := []) rfl p (n :: path) type hp o ho), ?_⟩
  intro p path type hp hi hf
  cases p with
  | nil => cases hp
  | cons j p =>
    obtain ⟨new, k1, k2, k3⟩ := pre_spec t isa asm t 0 0 [named t] [] l1 h3 (keys_nodup t 0 0 hd)
    rw [List.nil_append] at k1
    subst k1
    have hk := k3 j p path type hp
    rw [placeI_zero] at hk
    rcases hk with ⟨o, m1, -⟩ | ⟨-, m2, -⟩
    · exact ⟨o, lookup_nodup (k2.nodup (keys_nodup t 0 0 hd)) m1⟩
    · rcases m2 with m2 | m2
      · exact absurd m2 hi
      · exact absurd m2 hf

/-- C102: a name is called unknown only if no visible declaration fits, nor one of an assembly; for ends of connections of assemblies,
nor one of any composition that an assembly takes by name. -/
theorem unknown_reason (isa : String → String → Bool) (t : Tree) (hd : Distinct t) (hs : Sane t) (n : String)
    (h : resolve isa t = .error (.unknown [n])) : ∃ p type, t.get p = some (.ref [n] type) ∧
      (∀ f ∈ visible [] p t, ∀ o ∈ f, ¬ (o.name = some n ∧ isa o.kind type = true)) ∧
      (∀ o, Shared t [] o → ¬ (o.name = some n ∧ isa o.kind type = true)) ∧
      ((type = "Instance" ∨ type = "Interface") → ∃ l, Right isa t l ∧
        (OfEnd t l p → ∀ o, Shared t l o → ¬ (o.name = some n ∧ isa o.kind type = true))) := by
  unfold resolve at h
  split at h
  · cases h
  · rename_i asm hasm
    split at h
    · cases h
    · rename_i f hf
      have := frame_named hf
      subst this
      have fin : ∀ (j : Nat) (p : List Nat) (type : String) (l' : Links),
          resolveRef t l' (fun o => isa o.kind type) [n] (visible [named t] p (t.sub j)) [asm] = .ok none →
          (∀ f ∈ visible [] (j :: p) t, ∀ o ∈ f, ¬ (o.name = some n ∧ isa o.kind type = true)) ∧
          ∀ o, Shared t [] o → ¬ (o.name = some n ∧ isa o.kind type = true) := by
        intro j p type l' hr
        rw [resolveRef_single] at hr
        have h7 := (Scope.resolve_unknown_iff _ _ _ _).1 hr
        refine ⟨fun f hf q hq hx => h7 f (by simp only [List.mem_append]; exact .inl hf) q ⟨hq, hx.1, hx.2⟩, ?_⟩
        intro o ho hx
        exact h7 asm (by simp) o ⟨(asm_iff hd hs hasm o n hx.1).2 ho, hx.1, hx.2⟩
      split at h
      · rename_i e hpre
        cases h
        obtain ⟨j, p, type, l', h1, h2, h3⟩ := pre_unknown t isa asm [n] t 0 0 [named t] [] hpre
        exact ⟨j :: p, type, h1, (fin j p type l' h2).1, (fin j p type l' h2).2, fun hx => absurd hx h3⟩
      · rename_i l1 hpre
        obtain ⟨new, k1, -, k3⟩ := pre_spec t isa asm t 0 0 [named t] [] l1 hpre (keys_nodup t 0 0 hd)
        rw [List.nil_append] at k1
        subst k1
        have left1 : ∀ (j : Nat) (p : List Nat) (type : String), t.get (j :: p) = some (.ref [n] type) → l1.lookup (place 0 (j :: p) t) = none →
            (∀ f ∈ visible [] (j :: p) t, ∀ o ∈ f, ¬ (o.name = some n ∧ isa o.kind type = true)) ∧
            ∀ o, Shared t [] o → ¬ (o.name = some n ∧ isa o.kind type = true) := by
          intro j p type hg hl
          have hk := k3 j p [n] type hg
          rw [placeI_zero] at hk
          rcases hk with ⟨o, m1, -⟩ | ⟨-, -, l', x, -, m⟩
          · exact absurd (List.mem_map.2 ⟨_, m1, rfl⟩) (lookup_none.1 hl)
          · exact fin j p type l' m
        split at h
        · cases h
        · rename_i scope hscope
          split at h
          · rename_i e hsec
            cases h
            obtain ⟨u, i, type, a, b, none⟩ := second_unknown_none hsec
            cases hfi : find u t with
            | none => rw [hfi] at b; cases b
            | some sub =>
              rw [hfi] at b
              obtain ⟨p, hp, -, m⟩ := find_pos hfi
              obtain ⟨m1, m2⟩ := m 0 i
              have hg : t.get (p ++ [i]) = some (.ref [n] type) := by rw [m1]; exact refAt_item.1 b
              cases hq : p ++ [i] with
              | nil => simp at hq
              | cons j q =>
                rw [hq] at hg m2
                obtain ⟨x1, x2⟩ := left1 j q type hg (by rw [m2]; exact a)
                refine ⟨j :: q, type, hg, x1, x2, fun _ => ⟨l1, pre_right hd hasm hpre hscope, ?_⟩⟩
                intro _ o ho hx
                have hin := links_in hasm hpre hscope (us := []) rfl
                have ho' := ho
                obtain ⟨_, _, _, _, _, _, hc⟩ := ho'
                obtain ⟨p', hp', -⟩ := child_in hin hc
                exact none o ((Scope.registerAll_mem hscope n o hx.1).2 (.inr (declared_complete hd ((get_facts p' hp').2 hs) ho))) hx
          · rename_i l2 hsec
            split at h
            · split at h
              · rename_i x hleft
                cases h
                obtain ⟨j, p, type, h1, h2⟩ := left_some hleft
                rw [placeI_zero] at h2
                have h3 : l1.lookup (place 0 (j :: p) t) = none := by
                  cases hl : l1.lookup (place 0 (j :: p) t) with
                  | none => rfl
                  | some o => exact absurd h2 (grown_lookup (second_spec hsec) (by rw [hl]; simp))
                obtain ⟨x1, x2⟩ := left1 j p type h1 h3
                refine ⟨j :: p, type, h1, x1, x2, fun _ => ⟨l1, pre_right hd hasm hpre hscope, ?_⟩⟩
                intro he
                exfalso
                obtain ⟨e1, e2⟩ := ends_complete hd hs (links_in hasm hpre hscope (us := []) rfl) he
                cases hu : place 0 (j :: p) t with
                | mk u i =>
                  rw [hu] at e1 e2 h2
                  rcases get_item hd (by simp) h1 hu with ⟨rfl, -⟩ | ⟨-, sub, h9, h10⟩
                  · obtain ⟨c, o, i', _, _, hc, _, h7, _⟩ := he
                    rw [hu] at h7
                    obtain ⟨p', hp', -⟩ := child_in (links_in hasm hpre hscope (us := []) rfl) hc
                    have := (get_facts p' hp').1
                    rw [← (Prod.mk.inj h7).1] at this
                    exact (List.nodup_cons.1 hd).1 this
                  · refine second_tried hsec u e1 i e2 [n] type ?_ h2
                    rw [h9]
                    exact refAt_item.2 h10
              · cases h
            · cases h

/-! ### Examples -/

/-- Classes: interfaces are of several classes. -/
def isaDemo (k type : String) : Bool := k == type || (type == "Interface" && (k == "Provides" || k == "Uses"))

/-- An assembly with everything it uses declared behind it. -/
def demo (rest : Tree) : Tree :=
  .node 1 "Assembly" none
    (.node 2 "Composition" none
      (.node 3 "Instance" (some "f") (.ref ["Foo"] "Component" .nil)
      (.node 4 "Instance" (some "g") (.ref ["Foo"] "Component" .nil)
      (.node 5 "Connection" (some "c")
        (.node 6 "ConnectionEnd" none (.ref ["f"] "Instance" (.ref ["f", "q"] "Interface" .nil))
        (.node 7 "ConnectionEnd" none (.ref ["g"] "Instance" (.ref ["g", "p"] "Interface" .nil))
        (.ref ["C"] "Connector" .nil))) .nil))) .nil)
  (.node 8 "Component" (some "Foo") (.node 9 "Provides" (some "p") .nil (.node 10 "Uses" (some "q") .nil rest))
  (.node 11 "Connector" (some "C") .nil .nil))

set_option maxRecDepth 20000 in
/-- The hypotheses of the theorems above hold for it, it is accepted, and the ends are what they should be. -/
theorem demo_accepted : Distinct (demo .nil) ∧ Sane (demo .nil) ∧ ∃ l, resolve isaDemo (demo .nil) = .ok l ∧
    (l.lookup (6, 0)).map Obj.uid = some 3 ∧ (l.lookup (6, 1)).map Obj.uid = some 10 ∧ (l.lookup (7, 0)).map Obj.uid = some 4 ∧
    (l.lookup (7, 1)).map Obj.uid = some 9 ∧ (l.lookup (3, 0)).map Obj.uid = some 8 ∧ (l.lookup (5, 2)).map Obj.uid = some 11 := by
  refine ⟨by unfold Distinct; decide, ?_, _, rfl, rfl, rfl, rfl, rfl, rfl, rfl⟩
  simp [demo, Sane]

set_option maxRecDepth 20000 in
/-- **Disagreement with C102.** If the component takes its composition by name, which is allowed, the tool fails with an internal error. -/
theorem composition_by_name_asserts :
    resolve isaDemo (demo (.ref ["Bar"] "Composition" .nil)) = .error (.scope .assertion) := rfl

/-- An assembly that uses an instance of another, which takes its composition by name. -/
def demoNamed : Tree :=
  .node 1 "Assembly" none
    (.node 2 "Composition" none
      (.node 5 "Connection" (some "c") (.node 6 "ConnectionEnd" none (.ref ["f"] "Instance" (.ref ["f", "p"] "Interface" .nil)) .nil) .nil) .nil)
  (.node 7 "Assembly" none (.ref ["K"] "Composition" .nil)
  (.node 8 "Composition" (some "K") (.node 9 "Instance" (some "f") (.ref ["Foo"] "Component" .nil) .nil)
  (.node 10 "Component" (some "Foo") (.node 11 "Provides" (some "p") .nil .nil) .nil)))

set_option maxRecDepth 20000 in
/-- It is found in the second pass. -/
theorem demo_named : Distinct demoNamed ∧ ∃ l, resolve isaDemo demoNamed = .ok l ∧
    (l.lookup (6, 0)).map Obj.uid = some 9 ∧ (l.lookup (6, 1)).map Obj.uid = some 11 :=
  ⟨by unfold Distinct; decide, _, rfl, rfl, rfl⟩

/-- Compositions in compositions, with two instances `a`: the one further in is declared behind the connection that uses it. -/
def demoMixed : Tree :=
  .node 1 "Assembly" none
    (.node 2 "Composition" none
      (.node 3 "Instance" (some "a") (.ref ["T1"] "Component" .nil)
      (.node 4 "Instance" (some "y")
        (.node 5 "Component" none
          (.node 6 "Composition" none
            (.node 7 "Instance" (some "x")
              (.node 8 "Component" none
                (.node 9 "Composition" none
                  (.node 10 "Connection" (some "c")
                    (.node 11 "ConnectionEnd" none (.ref ["a"] "Instance" (.ref ["a", "p"] "Interface" .nil)) .nil) .nil) .nil) .nil)
            (.node 12 "Instance" (some "a") (.ref ["T2"] "Component" .nil) .nil)) .nil) .nil) .nil)) .nil)
  (.node 20 "Component" (some "T1") (.node 21 "Provides" (some "p") .nil .nil)
  (.node 30 "Component" (some "T2") (.node 31 "Provides" (some "p") .nil .nil) .nil))

set_option maxRecDepth 20000 in
/-- **Disagreement with C102.** The end of a connection can be given the inner instance and the interface of the outer one. -/
theorem mixed_end : Distinct demoMixed ∧ ∃ l, resolve isaDemo demoMixed = .ok l ∧
    (l.lookup (11, 0)).map Obj.uid = some 12 ∧ (l.lookup (12, 0)).map Obj.uid = some 30 ∧ (l.lookup (11, 1)).map Obj.uid = some 21 := by
  exact ⟨by unfold Distinct; decide, _, rfl, rfl, rfl, rfl⟩

end Verif.Forward
