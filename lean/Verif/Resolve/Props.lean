import Verif.Resolve.Spec
import Verif.Scope.Props
import Mathlib.Tactic.Tauto

/-!
# Properties: resolving all references of a specification (C100)
-/

namespace Verif.Resolve

open Scope (Obj Frame Stack openScope closeScope register resolveRef)

/-- All the named objects among the items. -/
def frame : Kids → Frame
  | .nil => []
  | .unset r => frame r
  | .ref _ _ r => frame r
  | .link _ r => frame r
  | .node u k n s r => (if n = none then [] else [objOf u k n s]) ++ frame r

theorem register_frame {f f' : Frame} {o : Obj} (h : Scope.registerFrame f o = .ok f') :
    f' = f ++ (if o.name = none then [] else [o]) := by
  unfold Scope.registerFrame at h
  split at h
  · cases h
  · split at h
    · rename_i hn; cases h; simp [hn]
    · rename_i n hn
      split at h
      · cases h
      · cases h; simp [hn]

theorem register_stack {f : Frame} {s s' : Stack} {o : Obj} (h : register (f :: s) o = .ok s') :
    s' = (f ++ (if o.name = none then [] else [o])) :: s := by
  unfold register at h
  simp only at h
  split at h
  · cases h
  · rename_i f' hf
    cases h
    rw [register_frame hf]

theorem shared_iff (gk k : String) : isShared gk k = true ↔ gk = "Assembly" ∧ k ∈ ["Instance", "Group", "Connection"] := by
  simp [isShared]
  tauto

/-- What one run of the traversal does. -/
structure Ran (isa : String → String → Bool) (gk pk : String) (kids kids' : Kids) (f : Frame) (s : Stack) (a : Frame) : Prop where
  refs : ∀ j p path type, kids.get (j :: p) = some (.ref path type) → ∃ o, kids'.get (j :: p) = some (.link o) ∧
    resolveRef (fun o => isa o.kind type) path (visible ((f ++ kids'.before j) :: s) p (kids'.sub j))
      [a ++ sharedBefore gk pk (j :: p) kids'] = .ok (some o)
  others : ∀ p, (∀ path type, kids.get p ≠ some (.ref path type)) → kids'.get p = kids.get p

theorem get_zero_node (u k n s r) (p : List Nat) (hp : p ≠ []) : (Kids.node u k n s r).get (0 :: p) = s.get p := by
  cases p with
  | nil => exact absurd rfl hp
  | cons q p => rfl

theorem get_succ_node (u k n s r) (j : Nat) (p : List Nat) : (Kids.node u k n s r).get ((j + 1) :: p) = r.get (j :: p) := by
  cases p <;> rfl

theorem get_succ_unset (r) (j : Nat) (p : List Nat) : (Kids.unset r).get ((j + 1) :: p) = r.get (j :: p) := by
  cases p <;> rfl

theorem get_succ_link (o r) (j : Nat) (p : List Nat) : (Kids.link o r).get ((j + 1) :: p) = r.get (j :: p) := by
  cases p <;> rfl

theorem get_succ_ref (x t r) (j : Nat) (p : List Nat) : (Kids.ref x t r).get ((j + 1) :: p) = r.get (j :: p) := by
  cases p <;> rfl

theorem get_nil (p : List Nat) : Kids.nil.get p = none := by
  induction p with
  | nil => rfl
  | cons j p ih =>
    cases p with
    | nil => rfl
    | cons q p => exact ih

theorem post_ran (isa : String → String → Bool) (kids : Kids) : ∀ (gk pk : String) (f : Frame) (s : Stack) (a : Frame) (kids' : Kids) (s' : Stack) (a' : Frame),
    post isa gk pk kids (f :: s) a = .ok (kids', s', a') →
    s' = (f ++ frame kids') :: s ∧ a' = a ++ shared gk pk kids' ∧ Ran isa gk pk kids kids' f s a := by
  induction kids with
  | nil =>
    intro gk pk f s a kids' s' a' h
    cases h
    refine ⟨by simp [frame], by simp [shared], ⟨?_, fun _ _ => rfl⟩⟩
    intro j p path type h
    rw [get_nil] at h; cases h
  | unset rest ih =>
    intro gk pk f s a kids' s' a' h
    simp only [post] at h
    split at h
    · cases h
    · rename_i r s1 a1 hr
      cases h
      obtain ⟨h1, h2, h3, h4⟩ := ih _ _ _ _ _ _ _ _ hr
      refine ⟨h1, h2, ⟨?_, ?_⟩⟩
      · intro j p path type hg
        cases j with
        | zero => cases p with
          | nil => cases hg
          | cons q p => change Kids.nil.get (q :: p) = _ at hg; rw [get_nil] at hg; cases hg
        | succ j =>
          rw [get_succ_unset] at hg ⊢
          exact h3 j p path type hg
      · intro p hp
        cases p with
        | nil => rfl
        | cons j p =>
          cases j with
          | zero => cases p <;> rfl
          | succ j => rw [get_succ_unset] at hp ⊢; rw [get_succ_unset]; exact h4 _ (by simpa only [get_succ_unset] using hp)
  | link o rest ih =>
    intro gk pk f s a kids' s' a' h
    simp only [post] at h
    split at h
    · cases h
    · rename_i r s1 a1 hr
      cases h
      obtain ⟨h1, h2, h3, h4⟩ := ih _ _ _ _ _ _ _ _ hr
      refine ⟨h1, h2, ⟨?_, ?_⟩⟩
      · intro j p path type hg
        cases j with
        | zero => cases p with
          | nil => cases hg
          | cons q p => change Kids.nil.get (q :: p) = _ at hg; rw [get_nil] at hg; cases hg
        | succ j =>
          rw [get_succ_link] at hg ⊢
          exact h3 j p path type hg
      · intro p hp
        cases p with
        | nil => rfl
        | cons j p =>
          cases j with
          | zero => cases p <;> rfl
          | succ j => rw [get_succ_link, get_succ_link]; exact h4 _ (by simpa only [get_succ_link] using hp)
  | ref path0 type0 rest ih =>
    intro gk pk f s a kids' s' a' h
    simp only [post, openScope, closeScope] at h
    split at h
    · cases h
    · cases h
    · rename_i o ho
      split at h
      · cases h
      · rename_i r s1 a1 hr
        cases h
        obtain ⟨h1, h2, h3, h4⟩ := ih _ _ _ _ _ _ _ _ hr
        refine ⟨h1, h2, ⟨?_, ?_⟩⟩
        · intro j p path type hg
          cases j with
          | zero => cases p with
            | nil =>
              cases hg
              refine ⟨o, rfl, ?_⟩
              simp only [visible, Kids.before, List.append_nil, sharedBefore, Kids.take, shared]
              exact ho
            | cons q p => change Kids.nil.get (q :: p) = _ at hg; rw [get_nil] at hg; cases hg
          | succ j =>
            rw [get_succ_ref] at hg
            rw [get_succ_link]
            exact h3 j p path type hg
        · intro p hp
          cases p with
          | nil => rfl
          | cons j p =>
            cases j with
            | zero =>
              cases p with
              | nil => exact absurd rfl (hp path0 type0)
              | cons q p => rfl
            | succ j => rw [get_succ_link, get_succ_ref]; exact h4 _ (by simpa only [get_succ_ref] using hp)
  | node u k n sub rest ihs ihr =>
    intro gk pk f s a kids' s' a' h
    simp only [post, openScope] at h
    split at h
    · cases h
    · rename_i sub' s1 a1 hsub
      obtain ⟨g1, g2, g3, g4⟩ := ihs _ _ _ _ _ _ _ _ hsub
      subst g1
      simp only [closeScope] at h
      split at h
      · cases h
      · rename_i s2 hreg
        have hs2 := register_stack hreg
        split at h
        · cases h
        · rename_i a2 ha2
          have hn : (objOf u k n sub').name = n := rfl
          have ha2' : a2 = a1 ++ (if gk = "Assembly" ∧ k ∈ ["Instance", "Group", "Connection"] ∧ n ≠ none then [objOf u k n sub'] else []) := by
            by_cases hsh : isShared gk k = true
            · rw [if_pos hsh] at ha2
              rw [register_frame ha2, hn]
              have := (shared_iff gk k).1 hsh
              by_cases hnn : n = none
              · simp [hnn]
              · rw [if_neg hnn, if_pos ⟨this.1, this.2, hnn⟩]
            · rw [if_neg hsh] at ha2
              cases ha2
              have : ¬ (gk = "Assembly" ∧ k ∈ ["Instance", "Group", "Connection"] ∧ n ≠ none) :=
                fun hc => hsh ((shared_iff gk k).2 ⟨hc.1, hc.2.1⟩)
              rw [if_neg this, List.append_nil]
          split at h
          · cases h
          · rename_i r s3 a3 hr
            cases h
            subst hs2
            obtain ⟨h1, h2, h3, h4⟩ := ihr _ _ _ _ _ _ _ _ hr
            rw [hn] at h1 h3
            refine ⟨?_, ?_, ⟨?_, ?_⟩⟩
            · rw [h1]; simp [frame]
            · rw [h2, ha2', g2]; simp only [shared, List.append_assoc]
            · intro j p path type hg
              cases j with
              | zero => cases p with
                | nil => cases hg
                | cons q p =>
                  rw [get_zero_node _ _ _ _ _ _ (by simp)] at hg ⊢
                  obtain ⟨o, ho1, ho2⟩ := g3 q p path type hg
                  refine ⟨o, ho1, ?_⟩
                  simp only [Kids.before, List.append_nil, Kids.sub, visible, sharedBefore, Kids.take, shared, List.nil_append] at ho2 ⊢
                  exact ho2
              | succ j =>
                rw [get_succ_node] at hg ⊢
                obtain ⟨o, ho1, ho2⟩ := h3 j p path type hg
                refine ⟨o, ho1, ?_⟩
                rw [ha2', g2] at ho2
                simp only [Kids.before, Kids.sub, sharedBefore, Kids.take, shared, Kids.kind, Kids.item, List.append_assoc] at ho2 ⊢
                exact ho2
            · intro p hp
              cases p with
              | nil => rfl
              | cons j p =>
                cases j with
                | zero =>
                  cases p with
                  | nil => rfl
                  | cons q p =>
                    rw [get_zero_node _ _ _ _ _ _ (by simp), get_zero_node _ _ _ _ _ _ (by simp)]
                    exact g4 _ (by simpa only [get_zero_node _ _ _ _ _ _ (show q :: p ≠ [] by simp)] using hp)
                | succ j => rw [get_succ_node, get_succ_node]; exact h4 _ (by simpa only [get_succ_node] using hp)

theorem resolve_ran {isa : String → String → Bool} {items r : Kids} (h : resolve isa items = .ok r) :
    Ran isa "" "LiftedAST" items r [] [] [] := by
  unfold resolve at h
  split at h
  · cases h
  · rename_i r' s a hp
    cases h
    exact (post_ran isa items _ _ _ _ _ _ _ _ hp).2.2

/-- C100: no reference is left, and nothing but references is changed. -/
theorem nothing_else_changes (isa : String → String → Bool) (items r : Kids) (h : resolve isa items = .ok r) (p : List Nat) :
    (∀ path type, r.get p ≠ some (.ref path type)) ∧
    (∀ path type, items.get p = some (.ref path type) → ∃ o, r.get p = some (.link o)) ∧
    ((∀ path type, items.get p ≠ some (.ref path type)) → r.get p = items.get p) := by
  obtain ⟨h1, h2⟩ := resolve_ran h
  have key : ∀ path type, items.get p = some (.ref path type) → ∃ o, r.get p = some (.link o) := by
    intro path type hg
    cases p with
    | nil => cases hg
    | cons j p =>
      obtain ⟨o, ho, _⟩ := h1 j p path type hg
      exact ⟨o, ho⟩
  refine ⟨?_, key, h2 p⟩
  intro path type hr
  by_cases hx : ∃ path type, items.get p = some (.ref path type)
  · obtain ⟨x, t, hx⟩ := hx
    obtain ⟨o, ho⟩ := key x t hx
    rw [ho] at hr; cases hr
  · have := h2 p (fun x t he => hx ⟨x, t, he⟩)
    rw [this] at hr
    exact hx ⟨path, type, hr⟩

/-- C100: a reference of one part is replaced by the innermost declaration of a right class that comes before it, or, if there is
none, by one of an assembly. -/
theorem reference_resolved (isa : String → String → Bool) (items r : Kids) (h : resolve isa items = .ok r) (p : List Nat) (n type : String)
    (hp : items.get p = some (.ref [n] type)) :
    ∃ o, r.get p = some (.link o) ∧ Means isa (visible [] p r) (sharedBefore "" "LiftedAST" p r) n type o := by
  obtain ⟨h1, -⟩ := resolve_ran h
  cases p with
  | nil => cases hp
  | cons j p =>
    obtain ⟨o, ho, hr⟩ := h1 j p [n] type hp
    refine ⟨o, ho, ?_⟩
    simp only [List.nil_append] at hr
    rcases Scope.resolve_prefers_context _ n _ _ o hr with hc | ⟨hc1, inner, f, outer, hf, hd, _⟩
    · exact .inl hc
    · refine .inr ⟨fun f hf p hp hx => hc1 f hf p ⟨hp, hx.1, hx.2⟩, ?_⟩
      cases inner with
      | nil => simp only [List.nil_append, List.cons.injEq] at hf; rw [hf.1]; exact hd
      | cons x xs => simp at hf

/-- The body of the loop in `lookup`. -/
def body (want : Obj → Bool) (path : List String) (c : Obj) : Scope.Yield :=
  match path with
  | [] => (if want c then [c] else [], none)
  | next :: tail =>
    match Scope.within c with
    | .error e => ([], some e)
    | .ok f =>
      let r := Scope.lookup want (next :: tail) [f]
      (r.1.filter want, r.2)

theorem lookup_eq (want : Obj → Bool) (n : String) (path : List String) (s : Stack) :
    Scope.lookup want (n :: path) s = Scope.forEach (Scope.candidates s n) (body want path) := by
  cases path <;> rfl

theorem forEach_sound {xs : List Obj} {b : Obj → Scope.Yield} {q : Obj} (h : q ∈ (Scope.forEach xs b).1) : ∃ x ∈ xs, q ∈ (b x).1 := by
  induction xs with
  | nil => cases h
  | cons x xs ih =>
    simp only [Scope.forEach] at h
    cases hb : b x with
    | mk ys e =>
      rw [hb] at h
      cases e with
      | some e => exact ⟨x, by simp, by rw [hb]; exact h⟩
      | none =>
        simp only [List.mem_append] at h
        rcases h with h | h
        · exact ⟨x, by simp, by rw [hb]; exact h⟩
        · obtain ⟨y, hy, hq⟩ := ih h
          exact ⟨y, by simp [hy], hq⟩

theorem forEach_head {xs : List Obj} {b : Obj → Scope.Yield} {o : Obj} {ys : List Obj} {e : Option Scope.Err}
    (h : Scope.forEach xs b = (o :: ys, e)) : ∃ pre c rest, xs = pre ++ c :: rest ∧ (∀ x ∈ pre, b x = ([], none)) ∧ o ∈ (b c).1 := by
  induction xs with
  | nil => cases h
  | cons x xs ih =>
    simp only [Scope.forEach] at h
    cases hb : b x with
    | mk zs e' =>
      rw [hb] at h
      cases e' with
      | some e' =>
        simp only [Prod.mk.injEq] at h
        exact ⟨[], x, xs, rfl, by simp, by rw [hb, h.1]; simp⟩
      | none =>
        simp only [Prod.mk.injEq] at h
        cases zs with
        | cons z zs =>
          simp only [List.cons_append, List.cons.injEq] at h
          exact ⟨[], x, xs, rfl, by simp, by rw [hb, h.1.1]; simp⟩
        | nil =>
          obtain ⟨pre, c, rest, h1, h2, h3⟩ := ih (Prod.ext h.1 h.2)
          refine ⟨x :: pre, c, rest, by rw [h1]; rfl, ?_, h3⟩
          intro y hy
          rcases List.mem_cons.1 hy with rfl | hy
          · exact hb
          · exact h2 y hy

theorem body_sound {want : Obj → Bool} {path : List String} {c q : Obj} (h : q ∈ (body want path c).1) :
    want q = true ∧ Scope.Spec.Walk c path q := by
  induction path generalizing c with
  | nil =>
    simp only [body] at h
    split at h
    · rename_i hw
      rw [List.mem_singleton] at h
      subst h
      exact ⟨hw, .here _⟩
    · cases h
  | cons m path ih =>
    simp only [body] at h
    split at h
    · cases h
    · rename_i f hf
      simp only [List.mem_filter] at h
      rw [lookup_eq] at h
      obtain ⟨x, hx, hq⟩ := forEach_sound h.1
      obtain ⟨h1, h2⟩ := ih hq
      simp only [Scope.candidates, List.flatMap_cons, List.flatMap_nil, List.append_nil, List.mem_filter, beq_iff_eq] at hx
      have := (Scope.registerAll_mem hf m x hx.2).1 hx.1
      simp at this
      exact ⟨h1, .step c m x path q this hx.2 h2⟩

theorem body_complete {want : Obj → Bool} {path : List String} {c : Obj} (h : body want path c = ([], none)) (q : Obj) (hw : want q = true) :
    ¬ Scope.Spec.Walk c path q := by
  intro hwalk
  cases path with
  | nil =>
    cases hwalk
    simp [body, hw] at h
  | cons m path =>
    simp only [body] at h
    split at h
    · simp at h
    · rename_i f hf
      simp only [Prod.mk.injEq] at h
      have hl := (Scope.lookup_qualified want m path [f] _ (Prod.ext rfl h.2) q).2
      cases hwalk with
      | step _ _ p _ _ hp hpn hpw =>
        have hq := hl ⟨hw, f, by simp, p, (Scope.registerAll_mem hf m p hpn).2 (.inr hp), hpn, hpw⟩
        have : q ∈ (Scope.lookup want (m :: path) [f]).1.filter want := List.mem_filter.2 ⟨hq, hw⟩
        rw [h.1] at this
        cases this

theorem candidates_split {s : Stack} {n : String} {pre : List Obj} {c : Obj} {rest : List Obj}
    (h : Scope.candidates s n = pre ++ c :: rest) : ∃ inner f outer, s = inner ++ f :: outer ∧ c ∈ f ∧ c.name = some n ∧
      ∀ g ∈ inner, ∀ x ∈ g, x.name = some n → x ∈ pre := by
  induction s generalizing pre with
  | nil => simp [Scope.candidates] at h
  | cons f s ih =>
    rw [Scope.candidates_cons] at h
    by_cases hl : pre.length < (f.filter fun o => o.name == some n).length
    · refine ⟨[], f, s, rfl, ?_, ?_, by simp⟩ <;>
      · have hc : c ∈ f.filter fun o => o.name == some n := by
          have h1 := congrArg (fun l => l[pre.length]?) h
          simp only [List.getElem?_append_left hl] at h1
          rw [List.getElem?_append_right (Nat.le_refl _)] at h1
          simp at h1
          exact List.mem_of_getElem? h1
        simp only [List.mem_filter, beq_iff_eq] at hc
        first | exact hc.1 | exact hc.2
    · obtain ⟨x, hx1, hx2⟩ : ∃ x, pre = (f.filter fun o => o.name == some n) ++ x ∧ Scope.candidates s n = x ++ c :: rest := by
        refine ⟨pre.drop (f.filter fun o => o.name == some n).length, ?_, ?_⟩
        · have h1 := congrArg (fun l => l.take (f.filter fun o => o.name == some n).length) h
          simp only [List.take_left] at h1
          rw [List.take_append_of_le_length (by omega)] at h1
          have h2 := List.take_append_drop (f.filter fun o => o.name == some n).length pre
          rw [← h1] at h2
          exact h2.symm
        · have h1 := congrArg (fun l => l.drop (f.filter fun o => o.name == some n).length) h
          simp only [List.drop_left] at h1
          rw [List.drop_append_of_le_length (by omega)] at h1
          exact h1
      obtain ⟨inner, g, outer, h1, h2, h3, h4⟩ := ih hx2
      refine ⟨f :: inner, g, outer, by rw [h1]; rfl, h2, h3, ?_⟩
      intro g' hg' y hy hyn
      rw [hx1, List.mem_append]
      rcases List.mem_cons.1 hg' with rfl | hg'
      · exact .inl (List.mem_filter.2 ⟨hy, by simp [hyn]⟩)
      · exact .inr (h4 g' hg' y hy hyn)

theorem lookup_first {want : Obj → Bool} {n : String} {path : List String} {s : Stack} {o : Obj} {ys : List Obj} {e : Option Scope.Err}
    (h : Scope.lookup want (n :: path) s = (o :: ys, e)) :
    want o = true ∧ ∃ inner f outer, s = inner ++ f :: outer ∧ (∃ c ∈ f, c.name = some n ∧ Scope.Spec.Walk c path o) ∧
      ∀ g ∈ inner, ∀ c ∈ g, c.name = some n → ∀ q, want q = true → ¬ Scope.Spec.Walk c path q := by
  rw [lookup_eq] at h
  obtain ⟨pre, c, rest, h1, h2, h3⟩ := forEach_head h
  obtain ⟨inner, f, outer, k1, k2, k3, k4⟩ := candidates_split h1
  obtain ⟨hw, hwalk⟩ := body_sound h3
  exact ⟨hw, inner, f, outer, k1, ⟨c, k2, k3, hwalk⟩, fun g hg x hx hxn q hq => body_complete (h2 x (k4 g hg x hx hxn)) q hq⟩

/-- C100: a reference of several parts is replaced by an object of a right class that is reached from a declaration that can be seen,
through its members; in no scope further in is there such a declaration. -/
theorem qualified_resolved (isa : String → String → Bool) (items r : Kids) (h : resolve isa items = .ok r) (p : List Nat) (n : String)
    (path : List String) (type : String) (hp : items.get p = some (.ref (n :: path) type)) :
    ∃ o, r.get p = some (.link o) ∧ isa o.kind type = true ∧
      ∃ inner f outer, visible [] p r ++ [sharedBefore "" "LiftedAST" p r] = inner ++ f :: outer ∧
        (∃ c ∈ f, c.name = some n ∧ Scope.Spec.Walk c path o) ∧
        ∀ g ∈ inner, ∀ c ∈ g, c.name = some n → ∀ q, isa q.kind type = true → ¬ Scope.Spec.Walk c path q := by
  obtain ⟨h1, -⟩ := resolve_ran h
  cases p with
  | nil => cases hp
  | cons j p =>
    obtain ⟨o, ho, hr⟩ := h1 j p (n :: path) type hp
    refine ⟨o, ho, ?_⟩
    simp only [List.nil_append] at hr
    have hv : visible ([r.before j]) p (r.sub j) = visible [] (j :: p) r := rfl
    rw [hv] at hr
    generalize visible [] (j :: p) r = vis at hr ⊢
    generalize sharedBefore "" "LiftedAST" (j :: p) r = asm at hr ⊢
    unfold resolveRef at hr
    split at hr
    · rename_i o' ys e hl
      simp only [Except.ok.injEq, Option.some.injEq] at hr
      subst hr
      obtain ⟨hw, inner, f, outer, k1, k2, k3⟩ := lookup_first hl
      exact ⟨hw, inner, f, outer ++ [asm], by rw [k1]; simp, k2, k3⟩
    · cases hr
    · rename_i hl
      split at hr
      · rename_i o' ys e hl2
        simp only [Except.ok.injEq, Option.some.injEq] at hr
        subst hr
        obtain ⟨hw, inner, f, outer, k1, k2, k3⟩ := lookup_first hl2
        cases inner with
        | cons x xs => simp at k1
        | nil =>
          simp only [List.nil_append, List.cons.injEq] at k1
          refine ⟨hw, vis, f, [], by rw [k1.1], k2, ?_⟩
          intro g hg c hc hcn q hq hwalk
          have := (Scope.lookup_qualified _ n path vis [] hl q).2 ⟨hq, g, hg, c, hc, hcn, hwalk⟩
          cases this
      · cases hr
      · cases hr

/-! ### Duplicates -/

/-- No level of the tree has two named objects of one sort. -/
def Levels : Kids → Prop
  | .nil => True
  | .unset r => Levels r
  | .ref _ _ r => Levels r
  | .link _ r => Levels r
  | .node _ _ _ s r => Scope.FrameOk (frame s) ∧ Levels s ∧ Levels r

theorem post_levels (isa : String → String → Bool) (kids : Kids) : ∀ (gk pk : String) (f : Frame) (s : Stack) (a : Frame) (kids' : Kids) (s' : Stack) (a' : Frame),
    post isa gk pk kids (f :: s) a = .ok (kids', s', a') → Scope.FrameOk f → Scope.FrameOk a →
    Scope.FrameOk (f ++ frame kids') ∧ Scope.FrameOk a' ∧ Levels kids' := by
  induction kids with
  | nil => intro gk pk f s a kids' s' a' h hf ha; cases h; exact ⟨by simpa [frame] using hf, ha, trivial⟩
  | unset rest ih =>
    intro gk pk f s a kids' s' a' h hf ha
    simp only [post] at h
    split at h
    · cases h
    · rename_i r s1 a1 hr
      cases h
      have hx := ih _ _ _ _ _ _ _ _ hr hf ha
      exact hx
  | link o rest ih =>
    intro gk pk f s a kids' s' a' h hf ha
    simp only [post] at h
    split at h
    · cases h
    · rename_i r s1 a1 hr
      cases h
      have hx := ih _ _ _ _ _ _ _ _ hr hf ha
      exact hx
  | ref path0 type0 rest ih =>
    intro gk pk f s a kids' s' a' h hf ha
    simp only [post, openScope, closeScope] at h
    split at h
    · cases h
    · cases h
    · split at h
      · cases h
      · rename_i r s1 a1 hr
        cases h
        have hx := ih _ _ _ _ _ _ _ _ hr hf ha
        exact hx
  | node u k n sub rest ihs ihr =>
    intro gk pk f s a kids' s' a' h hf ha
    simp only [post, openScope] at h
    split at h
    · cases h
    · rename_i sub' s1 a1 hsub
      obtain ⟨g1, g2, g3⟩ := ihs _ _ _ _ _ _ _ _ hsub (by simp [Scope.FrameOk]) ha
      rw [(post_ran isa sub _ _ _ _ _ _ _ _ hsub).1] at h
      simp only [closeScope] at h
      split at h
      · cases h
      · rename_i s2 hreg
        have hs2 := register_stack hreg
        have hf2 : Scope.FrameOk (f ++ if (objOf u k n sub').name = none then [] else [objOf u k n sub']) := by
          unfold register at hreg
          simp only at hreg
          split at hreg
          · cases hreg
          · rename_i f' hf'
            rw [← register_frame hf']
            exact Scope.registerFrame_ok hf hf'
        split at h
        · cases h
        · rename_i a2 ha2
          have ha2' : Scope.FrameOk a2 := by
            split at ha2
            · exact Scope.registerFrame_ok g2 ha2
            · cases ha2; exact g2
          split at h
          · cases h
          · rename_i r s3 a3 hr
            cases h
            subst hs2
            obtain ⟨h1, h2, h3⟩ := ihr _ _ _ _ _ _ _ _ hr hf2 ha2'
            refine ⟨?_, h2, ⟨by simpa using g1, g3, h3⟩⟩
            have hn : (objOf u k n sub').name = n := rfl
            rw [hn] at h1
            simpa [frame] using h1

theorem frame_item {kids : Kids} {j u k n} (h : kids.item j = some (.node u k (some n))) :
    objOf u k (some n) (kids.sub j) ∈ frame kids := by
  induction kids generalizing j with
  | nil => cases h
  | unset r ih => cases j with
    | zero => cases h
    | succ j => exact ih h
  | link o r ih => cases j with
    | zero => cases h
    | succ j => exact ih h
  | ref x t r ih => cases j with
    | zero => cases h
    | succ j => exact ih h
  | node u' k' n' s r _ ih => cases j with
    | zero => cases h; simp [frame, Kids.sub]
    | succ j =>
      simp only [frame, List.mem_append]
      exact .inr (ih h)

theorem frame_items {kids : Kids} {j i u k n u' k' n'} (h : kids.item j = some (.node u k (some n)))
    (h' : kids.item i = some (.node u' k' (some n'))) (hj : j < i) :
    [objOf u k (some n) (kids.sub j), objOf u' k' (some n') (kids.sub i)].Sublist (frame kids) := by
  induction kids generalizing j i with
  | nil => cases h
  | unset r ih => cases j with
    | zero => cases h
    | succ j => cases i with
      | zero => omega
      | succ i => exact ih h h' (by omega)
  | link o r ih => cases j with
    | zero => cases h
    | succ j => cases i with
      | zero => omega
      | succ i => exact ih h h' (by omega)
  | ref x t r ih => cases j with
    | zero => cases h
    | succ j => cases i with
      | zero => omega
      | succ i => exact ih h h' (by omega)
  | node u1 k1 n1 s r _ ih => cases i with
    | zero => omega
    | succ i => cases j with
      | zero =>
        cases h
        simp only [frame, Kids.sub, reduceCtorEq, if_false, List.singleton_append]
        exact List.Sublist.cons_cons _ (List.singleton_sublist.2 (frame_item h'))
      | succ j =>
        exact (ih h h' (by omega)).trans (List.sublist_append_right _ _)

theorem item_level {kids : Kids} {j u k n} (h : kids.item j = some (.node u k n)) (hl : Levels kids) :
    Scope.FrameOk (frame (kids.sub j)) ∧ Levels (kids.sub j) := by
  induction kids generalizing j with
  | nil => cases h
  | unset r ih => cases j with
    | zero => cases h
    | succ j => exact ih h hl
  | link o r ih => cases j with
    | zero => cases h
    | succ j => exact ih h hl
  | ref x t r ih => cases j with
    | zero => cases h
    | succ j => exact ih h hl
  | node u' k' n' s r _ ih => cases j with
    | zero => exact ⟨hl.1, hl.2.1⟩
    | succ j => exact ih h hl.2.2

theorem sub_of_not_node {kids : Kids} {j : Nat} (h : ∀ u k n, kids.item j ≠ some (.node u k n)) : kids.sub j = .nil := by
  induction kids generalizing j with
  | nil => cases j <;> rfl
  | unset r ih => cases j with
    | zero => rfl
    | succ j => exact ih h
  | link o r ih => cases j with
    | zero => rfl
    | succ j => exact ih h
  | ref x t r ih => cases j with
    | zero => rfl
    | succ j => exact ih h
  | node u' k' n' s r _ ih => cases j with
    | zero => exact absurd rfl (h u' k' n')
    | succ j => exact ih h

theorem level_at (p : List Nat) : ∀ {kids : Kids}, Scope.FrameOk (frame kids) → Levels kids → ∀ {j i u k n u' k' n'},
    kids.get (p ++ [j]) = some (.node u k (some n)) → kids.get (p ++ [i]) = some (.node u' k' (some n')) → j < i →
    ¬ (n = n' ∧ Scope.scopeType k = Scope.scopeType k') := by
  induction p with
  | nil =>
    intro kids hf hl j i u k n u' k' n' h h' hj
    have hs := frame_items h h' hj
    have := List.Pairwise.sublist hs hf
    simp only [List.pairwise_cons] at this
    intro hx
    exact this.1 (objOf u' k' (some n') (kids.sub i)) (by simp) ⟨congrArg some hx.1, hx.2⟩
  | cons q p ih =>
    intro kids hf hl j i u k n u' k' n' h h' hj
    have e : ∀ x, kids.get (q :: p ++ [x]) = (kids.sub q).get (p ++ [x]) := by intro x; cases p <;> rfl
    rw [e] at h h'
    by_cases hn : ∃ u k n, kids.item q = some (.node u k n)
    · obtain ⟨u1, k1, n1, hq⟩ := hn
      obtain ⟨h1, h2⟩ := item_level hq hl
      exact ih h1 h2 h h' hj
    · rw [sub_of_not_node (fun u k n he => hn ⟨u, k, n, he⟩), get_nil] at h
      cases h

theorem scopeType_same {k k' : String} (h : k = k' ∨ ((k = "Group" ∨ k = "Instance") ∧ (k' = "Group" ∨ k' = "Instance"))) :
    Scope.scopeType k = Scope.scopeType k' := by
  rcases h with h | ⟨h, h'⟩
  · rw [h]
  · unfold Scope.scopeType; rw [if_pos h, if_pos h']

/-- C100: a specification that is accepted does not declare two things of one sort under one name in one place. -/
theorem siblings_differ (isa : String → String → Bool) (items r : Kids) (h : resolve isa items = .ok r) (p : List Nat) (j i : Nat)
    (hne : j ≠ i) (u u' : Nat) (k k' : String) (n : String) (hj : items.get (p ++ [j]) = some (.node u k (some n)))
    (hi : items.get (p ++ [i]) = some (.node u' k' (some n))) :
    k ≠ k' ∧ ¬ ((k = "Group" ∨ k = "Instance") ∧ (k' = "Group" ∨ k' = "Instance")) := by
  have hl : Scope.FrameOk (frame r) ∧ Levels r := by
    have h' := h
    unfold resolve at h'
    split at h'
    · cases h'
    · rename_i r' s a hp
      cases h'
      have := post_levels isa items _ _ _ _ _ _ _ _ hp (by simp [Scope.FrameOk]) (by simp [Scope.FrameOk])
      exact ⟨by simpa using this.1, this.2.2⟩
  have e := fun q => (nothing_else_changes isa items r h q).2.2
  rw [← e _ (by rw [hj]; intro _ _ hc; cases hc)] at hj
  rw [← e _ (by rw [hi]; intro _ _ hc; cases hc)] at hi
  have key : ¬ (Scope.scopeType k = Scope.scopeType k') := by
    rcases Nat.lt_or_gt_of_ne hne with hlt | hlt
    · exact fun hs => level_at p hl.1 hl.2 hj hi hlt ⟨rfl, hs⟩
    · exact fun hs => level_at p hl.1 hl.2 hi hj hlt ⟨rfl, hs.symm⟩
  exact ⟨fun hk => key (scopeType_same (.inl hk)), fun hk => key (scopeType_same (.inr hk))⟩

/-! ### Two assemblies -/

theorem shared_item {gk pk : String} {kids : Kids} {j u k n} (h : kids.item j = some (.node u k n)) :
    (shared pk k (kids.sub j) ++ if gk = "Assembly" ∧ k ∈ ["Instance", "Group", "Connection"] ∧ n ≠ none then [objOf u k n (kids.sub j)] else []).Sublist
      (shared gk pk kids) := by
  induction kids generalizing j with
  | nil => cases h
  | unset r ih => cases j with
    | zero => cases h
    | succ j => exact ih h
  | link o r ih => cases j with
    | zero => cases h
    | succ j => exact ih h
  | ref x t r ih => cases j with
    | zero => cases h
    | succ j => exact ih h
  | node u' k' n' s r _ ih => cases j with
    | zero => cases h; exact List.sublist_append_left _ _
    | succ j => exact (ih h).trans (List.sublist_append_right _ _)

theorem shared_items {gk pk : String} {kids : Kids} {j i u k n u' k' n'} (h : kids.item j = some (.node u k n))
    (h' : kids.item i = some (.node u' k' n')) (hj : j < i) :
    ((shared pk k (kids.sub j) ++ if gk = "Assembly" ∧ k ∈ ["Instance", "Group", "Connection"] ∧ n ≠ none then [objOf u k n (kids.sub j)] else []) ++
     (shared pk k' (kids.sub i) ++ if gk = "Assembly" ∧ k' ∈ ["Instance", "Group", "Connection"] ∧ n' ≠ none then [objOf u' k' n' (kids.sub i)] else [])).Sublist
      (shared gk pk kids) := by
  induction kids generalizing j i with
  | nil => cases h
  | unset r ih => cases j with
    | zero => cases h
    | succ j => cases i with
      | zero => omega
      | succ i => exact ih h h' (by omega)
  | link o r ih => cases j with
    | zero => cases h
    | succ j => cases i with
      | zero => omega
      | succ i => exact ih h h' (by omega)
  | ref x t r ih => cases j with
    | zero => cases h
    | succ j => cases i with
      | zero => omega
      | succ i => exact ih h h' (by omega)
  | node u1 k1 n1 s r _ ih => cases i with
    | zero => omega
    | succ i => cases j with
      | zero =>
        cases h
        exact List.Sublist.append (List.Sublist.refl _) (shared_item (kids := r) (j := i) h')
      | succ j => exact (ih h h' (by omega)).trans (List.sublist_append_right _ _)

theorem declared_pair {items : Kids} {i c j i' c' j' u k n u' k' n'} (h : Declared items i c j u k n) (h' : Declared items i' c' j' u' k' n')
    (hlt : i < i' ∨ (i = i' ∧ (c < c' ∨ (c = c' ∧ j < j')))) :
    ∃ s s', [objOf u k (some n) s, objOf u' k' (some n') s'].Sublist (shared "" "LiftedAST" items) := by
  obtain ⟨⟨v1, m1, h1⟩, ⟨v2, m2, h2⟩, h3, hk⟩ := h
  obtain ⟨⟨v1', m1', h1'⟩, ⟨v2', m2', h2'⟩, h3', hk'⟩ := h'
  have a1 : ∀ x y (it : Item), items.get [x, y] = some it → (items.sub x).item y = some it := fun x y it hx => hx
  have a2 : ∀ x y z (it : Item), items.get [x, y, z] = some it → ((items.sub x).sub y).item z = some it := fun x y z it hx => hx
  have h1 : items.item i = _ := h1
  have h1' : items.item i' = _ := h1'
  have h2 := a1 _ _ _ h2
  have h2' := a1 _ _ _ h2'
  have h3 := a2 _ _ _ _ h3
  have h3' := a2 _ _ _ _ h3'
  have one : ∀ {i c j u k n v1 m1 v2 m2}, items.item i = some (.node v1 "Assembly" m1) → (items.sub i).item c = some (.node v2 "Composition" m2) →
      ((items.sub i).sub c).item j = some (.node u k (some n)) → k ∈ ["Instance", "Group", "Connection"] →
      [objOf u k (some n) (((items.sub i).sub c).sub j)].Sublist (shared "Assembly" "Composition" ((items.sub i).sub c)) := by
    intro i c j u k n v1 m1 v2 m2 _ _ h3 hk
    have := shared_item (gk := "Assembly") (pk := "Composition") h3
    rw [if_pos ⟨rfl, hk, by simp⟩] at this
    exact (List.sublist_append_right _ _).trans this
  refine ⟨((items.sub i).sub c).sub j, ((items.sub i').sub c').sub j', ?_⟩
  have o1 := one h1 h2 h3 hk
  have o2 := one h1' h2' h3' hk'
  have up : ∀ {i c v2 m2}, (items.sub i).item c = some (.node v2 "Composition" m2) →
      (shared "Assembly" "Composition" ((items.sub i).sub c)).Sublist (shared "LiftedAST" "Assembly" (items.sub i)) :=
    fun h2 => (List.sublist_append_left _ _).trans (shared_item (gk := "LiftedAST") (pk := "Assembly") h2)
  rcases hlt with hlt | ⟨rfl, hlt | ⟨rfl, hlt⟩⟩
  · have := shared_items (gk := "") (pk := "LiftedAST") h1 h1' hlt
    refine List.Sublist.trans ?_ this
    exact List.Sublist.append (l₁ := [_]) (r₁ := [_]) ((o1.trans (up h2)).trans (List.sublist_append_left _ _))
      ((o2.trans (up h2')).trans (List.sublist_append_left _ _))
  · refine List.Sublist.trans ?_ ((List.sublist_append_left _ _).trans (shared_item (gk := "") (pk := "LiftedAST") h1))
    refine List.Sublist.trans ?_ (shared_items (gk := "LiftedAST") (pk := "Assembly") h2 h2' hlt)
    exact List.Sublist.append (l₁ := [_]) (r₁ := [_]) (o1.trans (List.sublist_append_left _ _)) (o2.trans (List.sublist_append_left _ _))
  · refine List.Sublist.trans ?_ ((List.sublist_append_left _ _).trans (shared_item (gk := "") (pk := "LiftedAST") h1))
    refine List.Sublist.trans ?_ (up h2)
    refine List.Sublist.trans ?_ (shared_items (gk := "Assembly") (pk := "Composition") h3 h3' hlt)
    rw [if_pos ⟨rfl, hk, by simp⟩, if_pos ⟨rfl, hk', by simp⟩]
    exact List.Sublist.append (l₁ := [_]) (r₁ := [_]) (List.sublist_append_right _ _) (List.sublist_append_right _ _)

/-- C100: nor do two assemblies of one specification declare two things of one sort under one name. -/
theorem assemblies_differ (isa : String → String → Bool) (items r : Kids) (h : resolve isa items = .ok r) (i c j i' c' j' : Nat)
    (hne : (i, c, j) ≠ (i', c', j')) (u u' : Nat) (k k' n : String) (hj : Declared items i c j u k n) (hi : Declared items i' c' j' u' k' n) :
    k ≠ k' ∧ ¬ ((k = "Group" ∨ k = "Instance") ∧ (k' = "Group" ∨ k' = "Instance")) := by
  have hl : Scope.FrameOk (shared "" "LiftedAST" r) := by
    have h' := h
    unfold resolve at h'
    split at h'
    · cases h'
    · rename_i r' s a hp
      cases h'
      have h1 := (post_levels isa items _ _ _ _ _ _ _ _ hp (by simp [Scope.FrameOk]) (by simp [Scope.FrameOk])).2.1
      rw [(post_ran isa items _ _ _ _ _ _ _ _ hp).2.1] at h1
      simpa using h1
  have e := fun q => (nothing_else_changes isa items r h q).2.2
  have conv : ∀ {i c j u k}, Declared items i c j u k n → Declared r i c j u k n := by
    rintro i c j u k ⟨⟨v, m, h1⟩, ⟨v', m', h2⟩, h3, h4⟩
    refine ⟨⟨v, m, ?_⟩, ⟨v', m', ?_⟩, ?_, h4⟩
    · rw [e _ (by rw [h1]; intro _ _ hc; cases hc)]; exact h1
    · rw [e _ (by rw [h2]; intro _ _ hc; cases hc)]; exact h2
    · rw [e _ (by rw [h3]; intro _ _ hc; cases hc)]; exact h3
  have hj := conv hj
  have hi := conv hi
  have go : ∀ {i c j i' c' j' u k u' k'}, Declared r i c j u k n → Declared r i' c' j' u' k' n →
      (i < i' ∨ (i = i' ∧ (c < c' ∨ (c = c' ∧ j < j')))) → ¬ (Scope.scopeType k = Scope.scopeType k') := by
    intro i c j i' c' j' u k u' k' hj hi hlt hs
    obtain ⟨s, s', hsub⟩ := declared_pair hj hi hlt
    have := List.Pairwise.sublist hsub hl
    simp only [List.pairwise_cons] at this
    exact this.1 (objOf u' k' (some n) s') (by simp) ⟨rfl, hs⟩
  have key : ¬ (Scope.scopeType k = Scope.scopeType k') := by
    have : (i < i' ∨ (i = i' ∧ (c < c' ∨ (c = c' ∧ j < j')))) ∨ (i' < i ∨ (i' = i ∧ (c' < c ∨ (c' = c ∧ j' < j)))) := by
      simp only [ne_eq, Prod.mk.injEq] at hne
      omega
    rcases this with hlt | hlt
    · exact go hj hi hlt
    · exact fun hs => go hi hj hlt hs.symm
  exact ⟨fun hk => key (scopeType_same (.inl hk)), fun hk => key (scopeType_same (.inr hk))⟩

/-! ### Unknown references -/

/-- What a lookup of one part sees of an object. -/
def sig (o : Obj) : String × Option String := (o.kind, o.name)

theorem post_frame_sig (isa : String → String → Bool) (kids : Kids) : ∀ (gk pk : String) (f : Frame) (s : Stack) (a : Frame) (kids' : Kids) (s' : Stack) (a' : Frame),
    post isa gk pk kids (f :: s) a = .ok (kids', s', a') →
    (frame kids').map sig = (frame kids).map sig ∧ (shared gk pk kids').map sig = (shared gk pk kids).map sig := by
  induction kids with
  | nil => intro gk pk f s a kids' s' a' h; cases h; exact ⟨rfl, rfl⟩
  | unset rest ih =>
    intro gk pk f s a kids' s' a' h
    simp only [post] at h
    split at h
    · cases h
    · rename_i r s1 a1 hr
      cases h
      have hx := ih _ _ _ _ _ _ _ _ hr
      exact hx
  | link o rest ih =>
    intro gk pk f s a kids' s' a' h
    simp only [post] at h
    split at h
    · cases h
    · rename_i r s1 a1 hr
      cases h
      have hx := ih _ _ _ _ _ _ _ _ hr
      exact hx
  | ref path0 type0 rest ih =>
    intro gk pk f s a kids' s' a' h
    simp only [post, openScope, closeScope] at h
    split at h
    · cases h
    · cases h
    · split at h
      · cases h
      · rename_i r s1 a1 hr
        cases h
        have hx := ih _ _ _ _ _ _ _ _ hr
        exact hx
  | node u k n sub rest ihs ihr =>
    intro gk pk f s a kids' s' a' h
    simp only [post, openScope] at h
    split at h
    · cases h
    · rename_i sub' s1 a1 hsub
      obtain ⟨g1, g2⟩ := ihs _ _ _ _ _ _ _ _ hsub
      rw [(post_ran isa sub _ _ _ _ _ _ _ _ hsub).1] at h
      simp only [closeScope] at h
      split at h
      · cases h
      · rename_i s2 hreg
        have hs2 := register_stack hreg
        split at h
        · cases h
        · split at h
          · cases h
          · rename_i r s3 a3 hr
            cases h
            subst hs2
            obtain ⟨h1, h2⟩ := ihr _ _ _ _ _ _ _ _ hr
            constructor
            · simp only [frame, List.map_append, h1]
              split <;> rfl
            · simp only [shared, List.map_append, h2, g2]
              split <;> rfl

theorem visible_sig {s s' : Stack} (h : s.map (List.map sig) = s'.map (List.map sig)) (p : List Nat) (kids : Kids) :
    (visible s p kids).map (List.map sig) = (visible s' p kids).map (List.map sig) := by
  induction p generalizing s s' kids with
  | nil => exact h
  | cons j p ih =>
    simp only [visible]
    exact ih (by simp [h]) _

theorem post_unknown (isa : String → String → Bool) (path : List String) (kids : Kids) : ∀ (gk pk : String) (f : Frame) (s : Stack) (a : Frame),
    post isa gk pk kids (f :: s) a = .error (.unknown path) →
    ∃ j p type stk asm, kids.get (j :: p) = some (.ref path type) ∧
      stk.map (List.map sig) = (visible ((f ++ kids.before j) :: s) p (kids.sub j)).map (List.map sig) ∧
      List.map sig asm = List.map sig (a ++ sharedBefore gk pk (j :: p) kids) ∧
      resolveRef (fun o => isa o.kind type) path stk [asm] = .ok none := by
  induction kids with
  | nil => intro gk pk f s a h; cases h
  | unset rest ih =>
    intro gk pk f s a h
    simp only [post] at h
    split at h
    · rename_i hr
      cases h
      obtain ⟨j, p, type, stk, asm, h1, h2, h3, h4⟩ := ih _ _ _ _ _ hr
      exact ⟨j + 1, p, type, stk, asm, by rw [get_succ_unset]; exact h1, h2, h3, h4⟩
    · cases h
  | link o rest ih =>
    intro gk pk f s a h
    simp only [post] at h
    split at h
    · rename_i hr
      cases h
      obtain ⟨j, p, type, stk, asm, h1, h2, h3, h4⟩ := ih _ _ _ _ _ hr
      exact ⟨j + 1, p, type, stk, asm, by rw [get_succ_link]; exact h1, h2, h3, h4⟩
    · cases h
  | ref path0 type0 rest ih =>
    intro gk pk f s a h
    simp only [post, openScope, closeScope] at h
    split at h
    · cases h
    · rename_i hr
      cases h
      refine ⟨0, [], type0, f :: s, a, rfl, ?_, ?_, hr⟩
      · simp [visible, Kids.before]
      · simp [sharedBefore, Kids.take, shared]
    · split at h
      · rename_i hr
        cases h
        obtain ⟨j, p, type, stk, asm, h1, h2, h3, h4⟩ := ih _ _ _ _ _ hr
        exact ⟨j + 1, p, type, stk, asm, by rw [get_succ_ref]; exact h1, h2, h3, h4⟩
      · cases h
  | node u k n sub rest ihs ihr =>
    intro gk pk f s a h
    simp only [post, openScope] at h
    split at h
    · rename_i hr
      cases h
      obtain ⟨j, p, type, stk, asm, h1, h2, h3, h4⟩ := ihs _ _ _ _ _ hr
      refine ⟨0, j :: p, type, stk, asm, by rw [get_zero_node _ _ _ _ _ _ (by simp)]; exact h1, ?_, ?_, h4⟩
      · rw [h2]; simp [visible, Kids.before, Kids.sub]
      · rw [h3]; simp [sharedBefore, Kids.take, shared, Kids.kind, Kids.item, Kids.sub]
    · rename_i sub' s1 a1 hsub
      have hsig := (post_frame_sig isa sub _ _ _ _ _ _ _ _ hsub).2
      obtain ⟨g1, g2, -⟩ := post_ran isa sub _ _ _ _ _ _ _ _ hsub
      subst g1
      simp only [closeScope] at h
      split at h
      · cases h
      · rename_i s2 hreg
        have hs2 := register_stack hreg
        split at h
        · cases h
        · rename_i a2 ha2
          have hn : (objOf u k n sub').name = n := rfl
          have hos : ∀ x y, sig (objOf u k n x) = sig (objOf u k n y) := fun _ _ => rfl
          have ha2' : a2.map sig = a.map sig ++ (shared pk k sub).map sig ++
              (if gk = "Assembly" ∧ k ∈ ["Instance", "Group", "Connection"] ∧ n ≠ none then [objOf u k n sub] else []).map sig := by
            rw [← hsig, ← List.map_append, ← g2]
            by_cases hsh : isShared gk k = true
            · rw [if_pos hsh] at ha2
              rw [register_frame ha2, hn]
              have := (shared_iff gk k).1 hsh
              by_cases hnn : n = none
              · simp [hnn]
              · rw [if_neg hnn, if_pos ⟨this.1, this.2, hnn⟩, List.map_append]; rfl
            · rw [if_neg hsh] at ha2
              cases ha2
              have : ¬ (gk = "Assembly" ∧ k ∈ ["Instance", "Group", "Connection"] ∧ n ≠ none) :=
                fun hc => hsh ((shared_iff gk k).2 ⟨hc.1, hc.2.1⟩)
              rw [if_neg this]; simp
          split at h
          · rename_i hr
            cases h
            subst hs2
            obtain ⟨j, p, type, stk, asm, h1, h2, h3, h4⟩ := ihr _ _ _ _ _ hr
            refine ⟨j + 1, p, type, stk, asm, by rw [get_succ_node]; exact h1, ?_, ?_, h4⟩
            · rw [h2, hn]
              refine visible_sig ?_ _ _
              simp only [Kids.before, List.map_cons, List.map_append, List.append_assoc]
              split <;> rfl
            · rw [h3, List.map_append, ha2']
              simp only [sharedBefore, Kids.take, shared, Kids.kind, Kids.item, Kids.sub, List.append_assoc, List.map_append]
          · cases h

/-- C100: when a reference of one part is called unknown, there is such a reference, and nothing of that name and a right class is
declared before it on any level around it, or in an assembly. -/
theorem unknown_reason (isa : String → String → Bool) (items : Kids) (n : String) (h : resolve isa items = .error (.unknown [n])) :
    ∃ p type, items.get p = some (.ref [n] type) ∧
      ∀ f ∈ visible [] p items ++ [sharedBefore "" "LiftedAST" p items], ∀ o ∈ f, ¬ (o.name = some n ∧ isa o.kind type = true) := by
  unfold resolve at h
  split at h
  · rename_i hp
    cases h
    obtain ⟨j, p, type, stk, asm, h1, h2, h3, h4⟩ := post_unknown isa _ _ _ _ _ _ _ hp
    refine ⟨j :: p, type, h1, ?_⟩
    rw [Scope.resolve_unknown_iff] at h4
    intro f hf o ho hx
    have hmem : List.map sig f ∈ (stk ++ [asm]).map (List.map sig) := by
      rw [List.map_append, h2, List.map_singleton, h3]
      have := List.mem_map_of_mem (f := List.map sig) hf
      simpa [visible] using this
    obtain ⟨g, hg, hgs⟩ := List.mem_map.1 hmem
    have : sig o ∈ List.map sig g := by rw [hgs]; exact List.mem_map_of_mem ho
    obtain ⟨q, hq, hqs⟩ := List.mem_map.1 this
    simp only [sig, Prod.mk.injEq] at hqs
    exact h4 g hg q ⟨hq, by rw [hqs.2]; exact hx.1, by simp only [hqs.1]; exact hx.2⟩
  · cases h

/-- The tree without its references. -/
def shape : Kids → Kids
  | .nil => .nil
  | .unset r => .unset (shape r)
  | .ref _ _ r => .unset (shape r)
  | .link _ r => .unset (shape r)
  | .node u k n s r => .node u k n (shape s) (shape r)

theorem post_shape (isa : String → String → Bool) (kids : Kids) : ∀ (gk pk : String) (f : Frame) (s : Stack) (a : Frame) (kids' : Kids) (s' : Stack) (a' : Frame),
    post isa gk pk kids (f :: s) a = .ok (kids', s', a') → shape kids' = shape kids := by
  induction kids with
  | nil => intro gk pk f s a kids' s' a' h; cases h; rfl
  | unset rest ih =>
    intro gk pk f s a kids' s' a' h
    simp only [post] at h
    split at h
    · cases h
    · rename_i r s1 a1 hr
      cases h
      simp only [shape, ih _ _ _ _ _ _ _ _ hr]
  | link o rest ih =>
    intro gk pk f s a kids' s' a' h
    simp only [post] at h
    split at h
    · cases h
    · rename_i r s1 a1 hr
      cases h
      simp only [shape, ih _ _ _ _ _ _ _ _ hr]
  | ref path0 type0 rest ih =>
    intro gk pk f s a kids' s' a' h
    simp only [post, openScope, closeScope] at h
    split at h
    · cases h
    · cases h
    · split at h
      · cases h
      · rename_i r s1 a1 hr
        cases h
        simp only [shape, ih _ _ _ _ _ _ _ _ hr]
  | node u k n sub rest ihs ihr =>
    intro gk pk f s a kids' s' a' h
    simp only [post, openScope] at h
    split at h
    · cases h
    · rename_i sub' s1 a1 hsub
      have hs := ihs _ _ _ _ _ _ _ _ hsub
      rw [(post_ran isa sub _ _ _ _ _ _ _ _ hsub).1] at h
      simp only [closeScope] at h
      split at h
      · cases h
      · rename_i s2 hreg
        have hs2 := register_stack hreg
        split at h
        · cases h
        · split at h
          · cases h
          · rename_i r s3 a3 hr
            cases h
            subst hs2
            simp only [shape, hs, ihr _ _ _ _ _ _ _ _ hr]

theorem shape_before (kids : Kids) (j : Nat) : ((shape kids).before j).map sig = (kids.before j).map sig := by
  induction kids generalizing j with
  | nil => cases j <;> rfl
  | unset r ih => cases j with
    | zero => rfl
    | succ j => exact ih j
  | link o r ih => cases j with
    | zero => rfl
    | succ j => exact ih j
  | ref x t r ih => cases j with
    | zero => rfl
    | succ j => exact ih j
  | node u k n s r _ ih => cases j with
    | zero => rfl
    | succ j =>
      simp only [shape, Kids.before, List.map_append, ih]
      split <;> rfl

theorem shape_sub (kids : Kids) (j : Nat) : (shape kids).sub j = shape (kids.sub j) := by
  induction kids generalizing j with
  | nil => cases j <;> rfl
  | unset r ih => cases j with
    | zero => rfl
    | succ j => exact ih j
  | link o r ih => cases j with
    | zero => rfl
    | succ j => exact ih j
  | ref x t r ih => cases j with
    | zero => rfl
    | succ j => exact ih j
  | node u k n s r _ ih => cases j with
    | zero => rfl
    | succ j => exact ih j

theorem shape_take (kids : Kids) (j : Nat) : (shape kids).take j = shape (kids.take j) := by
  induction kids generalizing j with
  | nil => cases j <;> rfl
  | unset r ih => cases j with
    | zero => rfl
    | succ j => simp only [shape, Kids.take, ih]
  | link o r ih => cases j with
    | zero => rfl
    | succ j => simp only [shape, Kids.take, ih]
  | ref x t r ih => cases j with
    | zero => rfl
    | succ j => simp only [shape, Kids.take, ih]
  | node u k n s r _ ih => cases j with
    | zero => rfl
    | succ j => simp only [shape, Kids.take, ih]

theorem shape_kind (kids : Kids) (j : Nat) : (shape kids).kind j = kids.kind j := by
  induction kids generalizing j with
  | nil => cases j <;> rfl
  | unset r ih => cases j with
    | zero => rfl
    | succ j => exact ih j
  | link o r ih => cases j with
    | zero => rfl
    | succ j => exact ih j
  | ref x t r ih => cases j with
    | zero => rfl
    | succ j => exact ih j
  | node u k n s r _ ih => cases j with
    | zero => rfl
    | succ j => exact ih j

theorem shape_shared (kids : Kids) (gk pk : String) : (shared gk pk (shape kids)).map sig = (shared gk pk kids).map sig := by
  induction kids generalizing gk pk with
  | nil => rfl
  | unset r ih => exact ih gk pk
  | link o r ih => exact ih gk pk
  | ref x t r ih => exact ih gk pk
  | node u k n s r ihs ihr =>
    simp only [shape, shared, List.map_append, ihs, ihr]
    split <;> rfl

theorem shape_visible (p : List Nat) (s : Stack) (kids : Kids) : (visible s p (shape kids)).map (List.map sig) = (visible s p kids).map (List.map sig) := by
  induction p generalizing s kids with
  | nil => rfl
  | cons j p ih =>
    simp only [visible, shape_sub]
    rw [ih]
    exact visible_sig (by simp [shape_before]) _ _

theorem shape_sharedBefore (p : List Nat) (gk pk : String) (kids : Kids) :
    (sharedBefore gk pk p (shape kids)).map sig = (sharedBefore gk pk p kids).map sig := by
  induction p generalizing gk pk kids with
  | nil => rfl
  | cons j p ih => simp only [sharedBefore, List.map_append, shape_sub, shape_take, shape_kind, shape_shared, ih]

theorem resolve_shape {isa : String → String → Bool} {items r : Kids} (h : resolve isa items = .ok r) : shape r = shape items := by
  unfold resolve at h
  split at h
  · cases h
  · rename_i hp
    cases h
    exact post_shape isa items _ _ _ _ _ _ _ _ hp

/-- C100: and a reference of which this holds makes the specification fail. -/
theorem unknown_rejected (isa : String → String → Bool) (items : Kids) (n type : String) (p : List Nat) (hp : items.get p = some (.ref [n] type))
    (hv : ∀ f ∈ visible [] p items ++ [sharedBefore "" "LiftedAST" p items], ∀ o ∈ f, ¬ (o.name = some n ∧ isa o.kind type = true)) :
    ∀ r, resolve isa items ≠ .ok r := by
  intro r hr
  obtain ⟨o, -, hm⟩ := reference_resolved isa items r hr p n type hp
  have hs := resolve_shape hr
  have e : (visible [] p r ++ [sharedBefore "" "LiftedAST" p r]).map (List.map sig) =
      (visible [] p items ++ [sharedBefore "" "LiftedAST" p items]).map (List.map sig) := by
    simp only [List.map_append, List.map_cons, List.map_nil]
    rw [← shape_visible p [] r, ← shape_visible p [] items, ← shape_sharedBefore p _ _ r, ← shape_sharedBefore p _ _ items, hs]
  have hex : ∃ f ∈ visible [] p r ++ [sharedBefore "" "LiftedAST" p r], o ∈ f ∧ o.name = some n ∧ isa o.kind type = true := by
    rcases hm with ⟨inner, f, outer, hf, hd, -⟩ | ⟨-, h1, h2, h3⟩
    · exact ⟨f, by rw [hf]; simp, hd⟩
    · exact ⟨_, by simp, h1, h2, h3⟩
  obtain ⟨f, hf, ho, hon, hok⟩ := hex
  have hmem := List.mem_map_of_mem (f := List.map sig) hf
  rw [e] at hmem
  obtain ⟨g, hg, hgs⟩ := List.mem_map.1 hmem
  have : sig o ∈ List.map sig g := by rw [hgs]; exact List.mem_map_of_mem ho
  obtain ⟨q, hq, hqs⟩ := List.mem_map.1 this
  simp only [sig, Prod.mk.injEq] at hqs
  exact hv g hg q hq ⟨by rw [hqs.2]; exact hon, by rw [hqs.1]; exact hok⟩

/-! ### No internal errors -/

theorem Clean.member {o m : Obj} (h : Clean o) (hm : m ∈ o.members) : Clean m := by
  cases h with
  | mk _ _ h => exact h m hm

theorem Clean.kind {o : Obj} (h : Clean o) : o.kind ≠ "Reference" := by
  cases h with
  | mk _ h _ => exact h

theorem registerFrame_clean {f f' : Frame} {o : Obj} (h : Scope.registerFrame f o = .ok f') (hf : ∀ x ∈ f, Clean x) (ho : Clean o) :
    ∀ x ∈ f', Clean x := by
  rw [register_frame h]
  intro x hx
  rcases List.mem_append.1 hx with hx | hx
  · exact hf x hx
  · split at hx
    · cases hx
    · rw [List.mem_singleton.1 hx]; exact ho

theorem registerFrame_assert {f : Frame} {o : Obj} (ho : Clean o) : Scope.registerFrame f o ≠ .error .assertion := by
  unfold Scope.registerFrame
  rw [if_neg ho.kind]
  intro h
  split at h
  · cases h
  · split at h <;> cases h

theorem registerAll_clean {os : List Obj} : ∀ {f : Frame}, (∀ x ∈ f, Clean x) → (∀ x ∈ os, Clean x) →
    Scope.registerAll f os ≠ .error .assertion ∧ ∀ f', Scope.registerAll f os = .ok f' → ∀ x ∈ f', Clean x := by
  induction os with
  | nil => intro f hf _; exact ⟨by intro h; (cases h), by intro f' h; cases h; exact hf⟩
  | cons o os ih =>
    intro f hf ho
    simp only [Scope.registerAll]
    cases hr : Scope.registerFrame f o with
    | error e =>
      refine ⟨?_, by intro f' h; cases h⟩
      intro h
      cases h
      exact registerFrame_assert (ho o (by simp)) hr
    | ok f1 => exact ih (registerFrame_clean hr hf (ho o (by simp))) (fun x hx => ho x (by simp [hx]))

theorem lookup_clean (want : Obj → Bool) (path : List String) : ∀ (n : String) (s : Stack), (∀ f ∈ s, ∀ o ∈ f, Clean o) →
    (Scope.lookup want (n :: path) s).2 ≠ some .assertion ∧ ∀ q ∈ (Scope.lookup want (n :: path) s).1, Clean q := by
  have each : ∀ (b : Obj → Scope.Yield) (xs : List Obj), (∀ x ∈ xs, (b x).2 ≠ some .assertion ∧ ∀ q ∈ (b x).1, Clean q) →
      (Scope.forEach xs b).2 ≠ some .assertion ∧ ∀ q ∈ (Scope.forEach xs b).1, Clean q := by
    intro b xs
    induction xs with
    | nil => intro _; exact ⟨(by intro h; cases h), by intro q h; cases h⟩
    | cons x xs ih =>
      intro hx
      obtain ⟨i1, i2⟩ := ih (fun y hy => hx y (by simp [hy]))
      have := hx x (by simp)
      simp only [Scope.forEach]
      cases hb : b x with
      | mk ys e =>
        rw [hb] at this
        cases e with
        | some e => exact this
        | none =>
          refine ⟨i1, ?_⟩
          intro q hq
          rcases List.mem_append.1 hq with hq | hq
          · exact this.2 q hq
          · exact i2 q hq
  induction path with
  | nil =>
    intro n s hs
    rw [lookup_eq]
    apply each
    intro x hx
    simp only [Scope.candidates, List.mem_flatMap, List.mem_filter] at hx
    obtain ⟨f, hf, hx, _⟩ := hx
    refine ⟨(by intro h; cases h), ?_⟩
    intro q hq
    simp only [body] at hq
    split at hq
    · rw [List.mem_singleton.1 hq]; exact hs f hf x hx
    · cases hq
  | cons m path ih =>
    intro n s hs
    rw [lookup_eq]
    apply each
    intro x hx
    simp only [Scope.candidates, List.mem_flatMap, List.mem_filter] at hx
    obtain ⟨f, hf, hx, _⟩ := hx
    have hc := hs f hf x hx
    obtain ⟨r1, r2⟩ := registerAll_clean (f := []) (os := x.members) (by simp) (fun y hy => hc.member hy)
    simp only [body]
    cases hw : Scope.within x with
    | error e =>
      refine ⟨?_, by intro q h; cases h⟩
      intro h
      cases h
      exact r1 hw
    | ok g =>
      obtain ⟨i1, i2⟩ := ih m [g] (by
        intro f' hf' o ho
        rw [List.mem_singleton.1 hf'] at ho
        exact r2 g hw o ho)
      exact ⟨i1, fun q hq => i2 q (List.mem_filter.1 hq).1⟩

theorem resolveRef_clean {want : Obj → Bool} {path : List String} {s : Stack} {a : Frame} (hp : path ≠ []) (hs : ∀ f ∈ s, ∀ o ∈ f, Clean o)
    (ha : ∀ o ∈ a, Clean o) : resolveRef want path s [a] ≠ .error .assertion ∧ ∀ o, resolveRef want path s [a] = .ok (some o) → Clean o := by
  cases path with
  | nil => exact absurd rfl hp
  | cons n path =>
    obtain ⟨h1, h2⟩ := lookup_clean want path n s hs
    obtain ⟨h3, h4⟩ := lookup_clean want path n [a] (by intro f hf; rw [List.mem_singleton.1 hf]; exact ha)
    unfold resolveRef
    split
    · rename_i o ys e he
      rw [he] at h2
      exact ⟨(by intro h; cases h), by intro o' h; cases h; exact h2 _ (by simp)⟩
    · rename_i e he
      rw [he] at h1
      exact ⟨(by intro h; cases h; exact h1 rfl), by intro o' h; cases h⟩
    · split
      · rename_i o ys e he
        rw [he] at h4
        exact ⟨(by intro h; cases h), by intro o' h; cases h; exact h4 _ (by simp)⟩
      · rename_i e he
        rw [he] at h3
        exact ⟨(by intro h; cases h; exact h3 rfl), by intro o' h; cases h⟩
      · exact ⟨(by intro h; cases h), by intro o' h; cases h⟩

theorem members_clean {kids : Kids} (hs : Sane kids) (hn : NoRefs kids) : ∀ m ∈ members kids, Clean m := by
  induction kids with
  | nil => intro m h; cases h
  | unset r ih => exact ih hs hn
  | link o r ih =>
    intro m hm
    rcases List.mem_cons.1 hm with rfl | hm
    · exact hs.1
    · exact ih hs.2 hn m hm
  | ref x t r ih => exact hn.elim
  | node u k n s r ihs ihr =>
    intro m hm
    rcases List.mem_cons.1 hm with rfl | hm
    · refine .mk _ hs.1 ?_
      intro m hm
      have hm : m ∈ (if k = "Instance" then (members s).flatMap Obj.members else members s) := hm
      split at hm
      · obtain ⟨x, hx, hm⟩ := List.mem_flatMap.1 hm
        exact (ihs hs.2.1 hn.1 x hx).member hm
      · exact ihs hs.2.1 hn.1 m hm
    · exact ihr hs.2.2 hn.2 m hm

theorem post_clean (isa : String → String → Bool) (kids : Kids) : ∀ (gk pk : String) (f : Frame) (s : Stack) (a : Frame), Sane kids →
    (∀ g ∈ f :: s, ∀ o ∈ g, Clean o) → (∀ o ∈ a, Clean o) →
    post isa gk pk kids (f :: s) a ≠ .error (.scope .assertion) ∧
    ∀ kids' s' a', post isa gk pk kids (f :: s) a = .ok (kids', s', a') →
      Sane kids' ∧ NoRefs kids' ∧ (∀ g ∈ s', ∀ o ∈ g, Clean o) ∧ ∀ o ∈ a', Clean o := by
  induction kids with
  | nil =>
    intro gk pk f s a _ hs ha
    refine ⟨(by intro h; cases h), ?_⟩
    intro kids' s' a' h
    cases h
    exact ⟨trivial, trivial, hs, ha⟩
  | unset rest ih =>
    intro gk pk f s a hsane hs ha
    obtain ⟨i1, i2⟩ := ih gk pk f s a hsane hs ha
    simp only [post]
    cases hp : post isa gk pk rest (f :: s) a with
    | error e => rw [hp] at i1; exact ⟨i1, by intro _ _ _ h; cases h⟩
    | ok t =>
      obtain ⟨r, s1, a1⟩ := t
      refine ⟨(by intro h; cases h), ?_⟩
      intro kids' s' a' h
      cases h
      have hx := i2 _ _ _ hp
      exact hx
  | link o rest ih =>
    intro gk pk f s a hsane hs ha
    obtain ⟨i1, i2⟩ := ih gk pk f s a hsane.2 hs ha
    simp only [post]
    cases hp : post isa gk pk rest (f :: s) a with
    | error e => rw [hp] at i1; exact ⟨i1, by intro _ _ _ h; cases h⟩
    | ok t =>
      obtain ⟨r, s1, a1⟩ := t
      refine ⟨(by intro h; cases h), ?_⟩
      intro kids' s' a' h
      cases h
      obtain ⟨k1, k2⟩ := i2 _ _ _ hp
      exact ⟨⟨hsane.1, k1⟩, k2⟩
  | ref path0 type0 rest ih =>
    intro gk pk f s a hsane hs ha
    obtain ⟨i1, i2⟩ := ih gk pk f s a hsane.2 hs ha
    obtain ⟨r1, r2⟩ := resolveRef_clean (want := fun o => isa o.kind type0) hsane.1 hs ha
    simp only [post, openScope, closeScope]
    cases hr : resolveRef (fun o => isa o.kind type0) path0 (f :: s) [a] with
    | error e => rw [hr] at r1; exact ⟨(by intro h; cases h; exact r1 rfl), by intro _ _ _ h; cases h⟩
    | ok x =>
      cases x with
      | none => exact ⟨(by intro h; cases h), by intro _ _ _ h; cases h⟩
      | some o =>
        simp only
        cases hp : post isa gk pk rest (f :: s) a with
        | error e => rw [hp] at i1; exact ⟨i1, by intro _ _ _ h; cases h⟩
        | ok t =>
          obtain ⟨r, s1, a1⟩ := t
          refine ⟨(by intro h; cases h), ?_⟩
          intro kids' s' a' h
          cases h
          obtain ⟨k1, k2⟩ := i2 _ _ _ hp
          exact ⟨⟨r2 o hr, k1⟩, k2⟩
  | node u k n sub rest ihs ihr =>
    intro gk pk f s a hsane hs ha
    obtain ⟨i1, i2⟩ := ihs pk k [] (f :: s) a hsane.2.1 (by
      intro g hg
      rcases List.mem_cons.1 hg with rfl | hg
      · simp
      · exact hs g hg) ha
    simp only [post, openScope]
    cases hp : post isa pk k sub ([] :: f :: s) a with
    | error e => rw [hp] at i1; exact ⟨i1, by intro _ _ _ h; cases h⟩
    | ok t =>
      obtain ⟨sub', s1, a1⟩ := t
      obtain ⟨k1, k2, -, k4⟩ := i2 _ _ _ hp
      have hs1 := (post_ran isa sub _ _ _ _ _ _ _ _ hp).1
      subst hs1
      simp only [closeScope]
      have hobj : Clean (objOf u k n sub') := by
        have := members_clean (kids := .node u k n sub' .nil) ⟨hsane.1, k1, trivial⟩ ⟨k2, trivial⟩ (objOf u k n sub') (by simp [members, objOf])
        exact this
      have hreg : register (f :: s) (objOf u k n sub') ≠ .error .assertion := by
        unfold register
        simp only
        cases hrf : Scope.registerFrame f (objOf u k n sub') with
        | error e => intro h; cases h; exact registerFrame_assert hobj hrf
        | ok f' => intro h; cases h
      cases hr : register (f :: s) (objOf u k n sub') with
      | error e => rw [hr] at hreg; exact ⟨(by intro h; cases h; exact hreg rfl), by intro _ _ _ h; cases h⟩
      | ok s2 =>
        have hs2 := register_stack hr
        simp only
        have hfc : ∀ g ∈ s2, ∀ o ∈ g, Clean o := by
          rw [hs2]
          intro g hg o ho
          rcases List.mem_cons.1 hg with rfl | hg
          · rcases List.mem_append.1 ho with ho | ho
            · exact hs f (by simp) o ho
            · split at ho
              · cases ho
              · rw [List.mem_singleton.1 ho]; exact hobj
          · exact hs g (by simp [hg]) o ho
        have hac : (if isShared gk k then Scope.registerFrame a1 (objOf u k n sub') else .ok a1) ≠ .error .assertion ∧
            ∀ a2, (if isShared gk k then Scope.registerFrame a1 (objOf u k n sub') else .ok a1) = .ok a2 → ∀ o ∈ a2, Clean o := by
          by_cases hsh : isShared gk k = true
          · rw [if_pos hsh]
            exact ⟨registerFrame_assert hobj, fun a2 h => registerFrame_clean h k4 hobj⟩
          · rw [if_neg hsh]
            exact ⟨(by intro h; cases h), by intro a2 h; cases h; exact k4⟩
        generalize hgen : (if isShared gk k then Scope.registerFrame a1 (objOf u k n sub') else .ok a1) = x at hac
        cases x with
        | error e => exact ⟨(by intro h; cases h; exact hac.1 rfl), by intro _ _ _ h; cases h⟩
        | ok a2 =>
          simp only
          subst hs2
          obtain ⟨j1, j2⟩ := ihr gk pk _ s a2 hsane.2.2 hfc (hac.2 a2 rfl)
          split
          · rename_i hp2
            rw [hp2] at j1
            exact ⟨j1, by intro _ _ _ h; cases h⟩
          · rename_i r s3 a3 hp2
            refine ⟨(by intro h; cases h), ?_⟩
            intro kids' s' a' h
            cases h
            obtain ⟨m1, m2, m3⟩ := j2 _ _ _ hp2
            exact ⟨⟨hsane.1, k1, m1⟩, ⟨k2, m2⟩, m3⟩

/-- C100: resolving never fails an assertion, for any tree of real objects whose references have names. -/
theorem never_asserts (isa : String → String → Bool) (items : Kids) (h : Sane items) : resolve isa items ≠ .error (.scope .assertion) := by
  obtain ⟨h1, -⟩ := post_clean isa items "" "LiftedAST" [] [] [] h (by simp) (by simp)
  unfold resolve
  split
  · rename_i e hp
    intro he
    cases he
    exact h1 hp
  · intro he; cases he

/-! ### Members -/

/-- C100: the members of an instance are those of its type, also when the type was a reference. -/
theorem instance_members (u : Nat) (n : Option String) (type : Obj) : (objOf u "Instance" n (.link type .nil)).members = type.members := by
  simp [objOf, members, Obj.members]

/-- C100: the members of anything else are what is in it, in order. -/
theorem other_members (u : Nat) (k : String) (n : Option String) (sub : Kids) (hk : k ≠ "Instance") (hn : NoRefs sub) (o : Obj) :
    o ∈ (objOf u k n sub).members ↔ ∃ j, sub.item j = some (.link o) ∨ ∃ v k' n', sub.item j = some (.node v k' n') ∧ o = objOf v k' n' (sub.sub j) := by
  have : (objOf u k n sub).members = members sub := by
    show (if k = "Instance" then _ else _) = _
    rw [if_neg hk]
  rw [this]
  clear this
  induction sub with
  | nil => simp [members, Kids.item]
  | unset r ih =>
    have ih := ih hn
    simp only [members, ih]
    constructor
    · rintro ⟨j, h⟩; exact ⟨j + 1, h⟩
    · rintro ⟨j, h⟩
      cases j with
      | zero => rcases h with h | ⟨_, _, _, h, _⟩ <;> cases h
      | succ j => exact ⟨j, h⟩
  | ref x t r ih => exact hn.elim
  | link q r ih =>
    have ih := ih hn
    simp only [members, List.mem_cons, ih]
    constructor
    · rintro (rfl | ⟨j, h⟩)
      · exact ⟨0, .inl rfl⟩
      · exact ⟨j + 1, h⟩
    · rintro ⟨j, h⟩
      cases j with
      | zero =>
        rcases h with h | ⟨_, _, _, h, _⟩
        · cases h; exact .inl rfl
        · cases h
      | succ j => exact .inr ⟨j, h⟩
  | node v k' n' s r _ ih =>
    have ih := ih hn.2
    simp only [members, List.mem_cons, ih]
    constructor
    · rintro (rfl | ⟨j, h⟩)
      · exact ⟨0, .inr ⟨_, _, _, rfl, rfl⟩⟩
      · exact ⟨j + 1, h⟩
    · rintro ⟨j, h⟩
      cases j with
      | zero =>
        rcases h with h | ⟨_, _, _, h, h'⟩
        · cases h
        · cases h; exact .inl h'
      | succ j => exact .inr ⟨j, h⟩

/-! ### Examples -/

/-- Classes of the example. -/
def isaDemo (k t : String) : Bool := k = t ∨ (t = "Interface" ∧ k ∈ ["Provides", "Uses"])

/-- `procedure P {}  component A { provides P p; }` -/
def decls (rest : Kids) : Kids :=
  .node 1 "Procedure" (some "P") .nil (.node 2 "Component" (some "A") (.node 3 "Provides" (some "p") (.ref ["P"] "Procedure" .nil) .nil) rest)

/-- `assembly { composition { component A a; } }  assembly { composition { connection c(from a.p); } }` -/
def demo : Kids :=
  decls (.node 4 "Assembly" none (.node 5 "Composition" none (.node 6 "Instance" (some "a") (.ref ["A"] "Component" .nil) .nil) .nil)
    (.node 7 "Assembly" none (.node 8 "Composition" none (.node 9 "Connection" (some "c")
      (.node 10 "ConnectionEnd" none (.ref ["a"] "Instance" (.ref ["a", "p"] "Interface" .nil)) .nil) .nil) .nil) .nil))

/-- The same with a composition of its own for the first assembly: `composition F { component A a; } assembly { composition F; }`. -/
def demo' : Kids :=
  decls (.node 5 "Composition" (some "F") (.node 6 "Instance" (some "a") (.ref ["A"] "Component" .nil) .nil)
    (.node 4 "Assembly" none (.ref ["F"] "Composition" .nil)
    (.node 7 "Assembly" none (.node 8 "Composition" none (.node 9 "Connection" (some "c")
      (.node 10 "ConnectionEnd" none (.ref ["a"] "Instance" (.ref ["a", "p"] "Interface" .nil)) .nil) .nil) .nil) .nil)))

/-- The kind and name of what is referred to. -/
def target : Option Item → Option (Nat × String)
  | some (.link o) => some (o.uid, o.kind)
  | _ => none

example : ∃ r, resolve isaDemo demo = .ok r ∧ target (r.get [1, 0, 0]) = some (1, "Procedure") ∧ target (r.get [2, 0, 0, 0]) = some (2, "Component") ∧
    target (r.get [3, 0, 0, 0, 0]) = some (6, "Instance") ∧ target (r.get [3, 0, 0, 0, 1]) = some (3, "Provides") := by
  refine ⟨_, rfl, ?_, ?_, ?_, ?_⟩ <;> rfl

example : Sane demo := by simp [demo, decls, Sane]

example : Declared demo 2 0 0 6 "Instance" "a" ∧ Declared demo 3 0 0 9 "Connection" "c" := by
  refine ⟨⟨⟨4, none, rfl⟩, ⟨5, none, rfl⟩, rfl, by decide⟩, ⟨⟨7, none, rfl⟩, ⟨8, none, rfl⟩, rfl, by decide⟩⟩

/-- A reference to what is declared later is unknown. -/
example : resolve isaDemo (.node 2 "Component" (some "A") (.node 3 "Provides" (some "p") (.ref ["P"] "Procedure" .nil) .nil)
    (.node 1 "Procedure" (some "P") .nil .nil)) = .error (.unknown ["P"]) := by rfl

/-- Two components with one name. -/
example : resolve isaDemo (.node 2 "Component" (some "A") .nil (.node 3 "Component" (some "A") .nil .nil)) = .error (.scope (.duplicate "A")) := by rfl

/-- **Disagreement with C100.** An instance of an assembly is not found from another assembly when the first takes its composition
by name. -/
theorem composition_by_name_hidden :
    (∃ r, resolve isaDemo demo = .ok r) ∧ resolve isaDemo demo' = .error (.unknown ["a"]) :=
  ⟨⟨_, rfl⟩, rfl⟩

end Verif.Resolve
