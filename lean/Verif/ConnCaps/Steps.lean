import Verif.ConnCaps.Spec
import Verif.Context.Props
import Verif.Badges.Props
import Mathlib.Tactic.ByContra
import Mathlib.Tactic.Tauto

/-!
# Lemmas: the allocations of the templates, one after the other
-/

namespace Verif.ConnCaps
open Verif.Context

/-- The key of the store. -/
abbrev capKey (n : Text) : Text := n ++ ['_', 'c', 'a', 'p']

/-- An allocation is for this capability. -/
def Same (sp : Nat) (l n : Text) (j : Nat × Op) : Bool := j.1 = sp ∧ j.2.label = l ∧ j.2.cap = n

theorem same_iff (sp : Nat) (l n : Text) (j : Nat × Op) : Same sp l n j = true ↔ j.1 = sp ∧ j.2.label = l ∧ j.2.cap = n := by
  simp [Same]

/-- The rights that were asked for. -/
def rightsOf (sp : Nat) (l n : Text) : List (Nat × Op) → Rights
  | [] => noRights
  | j :: js => if Same sp l n j then j.2.want.union (rightsOf sp l n js) else rightsOf sp l n js

/-- The badge that was set last. -/
def lastBadge (sp : Nat) (l n : Text) (js : List (Nat × Op)) : Option Nat :=
  js.foldl (fun b j => if Same sp l n j then (match j.2.badge with | none => b | some x => some x) else b) none

theorem rightsOf_append (sp : Nat) (l n : Text) (a b : List (Nat × Op)) :
    rightsOf sp l n (a ++ b) = (rightsOf sp l n a).union (rightsOf sp l n b) := by
  induction a with
  | nil => exact (none_union _).symm
  | cons j a ih =>
    simp only [List.cons_append, rightsOf]
    split
    · rw [ih, union_assoc]
    · exact ih

theorem rightsOf_iff (sp : Nat) (l n : Text) (js : List (Nat × Op)) (r : Rights → Bool)
    (hr : r = Rights.read ∨ r = Rights.write ∨ r = Rights.grant ∨ r = Rights.grantreply) :
    r (rightsOf sp l n js) = true ↔ ∃ op, (sp, op) ∈ js ∧ op.label = l ∧ op.cap = n ∧ r op.want = true := by
  have hu : ∀ a b : Rights, r (a.union b) = (r a || r b) := by
    intro a b; rcases hr with rfl | rfl | rfl | rfl <;> rfl
  have h0 : r noRights = false := by rcases hr with rfl | rfl | rfl | rfl <;> rfl
  induction js with
  | nil => simp [rightsOf, h0]
  | cons j js ih =>
    obtain ⟨sp', op'⟩ := j
    simp only [rightsOf]
    split
    · rename_i hs
      rw [same_iff] at hs
      obtain ⟨rfl, hl, hn⟩ := hs
      rw [hu, Bool.or_eq_true]
      refine Iff.trans (or_congr Iff.rfl ih) ?_
      constructor
      · rintro (h | ⟨op, h1, h2⟩)
        · exact ⟨op', by simp, hl, hn, h⟩
        · exact ⟨op, by simp [h1], h2⟩
      · rintro ⟨op, h1, h2, h3, h4⟩
        rcases List.mem_cons.mp h1 with e | h1
        · cases e; exact .inl h4
        · exact .inr ⟨op, h1, h2, h3, h4⟩
    · rename_i hs
      rw [same_iff] at hs
      refine Iff.trans ih ?_
      constructor
      · rintro ⟨op, h1, h2⟩; exact ⟨op, by simp [h1], h2⟩
      · rintro ⟨op, h1, h2, h3, h4⟩
        rcases List.mem_cons.mp h1 with e | h1
        · cases e; exact absurd ⟨rfl, h2, h3⟩ hs
        · exact ⟨op, h1, h2, h3, h4⟩

theorem rightsOf_none (sp : Nat) (l n : Text) (js : List (Nat × Op)) (h : ∀ j ∈ js, Same sp l n j = false) :
    rightsOf sp l n js = noRights := by
  induction js with
  | nil => rfl
  | cons j js ih =>
    simp only [rightsOf, h j (by simp), Bool.false_eq_true, if_false]
    exact ih (fun j hj => h j (by simp [hj]))

/-- Allocations for the same capability are for the same object. -/
def Coherent (js : List (Nat × Op)) : Prop :=
  ∀ a ∈ js, ∀ b ∈ js, a.1 = b.1 → a.2.label = b.2.label → a.2.cap = b.2.cap → a.2.obj = b.2.obj

/-- What is in the slot of an allocation. -/
def Content (s : St) (sp : Nat) (slot : Nat) (l : Text) (r : Rights) : Option Text → Prop
  | none => (s.core.cnodes sp)[slot]? = some none
  | some n => ∃ o, (fullName l n, o) ∈ s.core.objects ∧ (s.core.cnodes sp)[slot]? = some (some ⟨o, r⟩)

/-- The invariant. -/
structure Inv (js : List (Nat × Op)) (s : St) : Prop where
  cap : CapInv s.core
  obj : ObjInv s.core
  back : ∀ sp l k slot, s.core.capStore sp l k = some slot → ∃ op, (sp, op) ∈ js ∧ op.label = l ∧ k = capKey op.cap
  plain : ∀ sp i, (∀ l k, s.core.capStore sp l k ≠ some i) → s.badge sp i = none
  full : ∀ (sp i : Nat) c, (s.core.cnodes sp)[i]? = some c → ∃ l k, s.core.capStore sp l k = some i
  cont : ∀ sp op, (sp, op) ∈ js → ∃ slot, s.core.capStore sp op.label (capKey op.cap) = some slot ∧
    Content s sp slot op.label (rightsOf sp op.label op.cap js) op.obj ∧
    s.badge sp slot = lastBadge sp op.label op.cap js

theorem inv_start : Inv [] start := by
  refine ⟨start_inv, start_objInv, ?_, ?_, ?_, ?_⟩
  · intro sp l k slot h; simp [start, Context.start] at h
  · intro sp i _; rfl
  · intro sp i c h; simp [start, Context.start] at h
  · intro sp op h; cases h

/-- One allocation. -/
theorem doOp_spec (js : List (Nat × Op)) (s : St) (sp : Nat) (op : Op) (h : Inv js s) (hc : Coherent (js ++ [(sp, op)])) :
    ∃ s' slot, doOp s sp op = .ok (s', slot) ∧ Inv (js ++ [(sp, op)]) s' ∧
      s'.core.capStore sp op.label (capKey op.cap) = some slot ∧
      (∀ sp l k x, s.core.capStore sp l k = some x → s'.core.capStore sp l k = some x) ∧
      (∀ p ∈ s.core.objects, p ∈ s'.core.objects) := by
  -- the object
  obtain ⟨core, obj, hobj, hoi, hcs, hcn, hmono, hname⟩ : ∃ core obj,
      makeObj s.core op = (core, obj) ∧ ObjInv core ∧ core.capStore = s.core.capStore ∧ core.cnodes = s.core.cnodes ∧
      (∀ p ∈ s.core.objects, p ∈ core.objects) ∧
      ((op.obj = none ∧ obj = none) ∨ ∃ n o, op.obj = some n ∧ obj = some o ∧ (fullName op.label n, o) ∈ core.objects) := by
    unfold makeObj
    cases hop : op.obj with
    | none => exact ⟨s.core, none, rfl, h.obj, rfl, rfl, fun _ hp => hp, .inl ⟨rfl, rfl⟩⟩
    | some n =>
      obtain ⟨a1, a2, a3⟩ := allocObj_spec s.core op.label n h.obj
      obtain ⟨b1, b2⟩ := allocObj_capStore s.core op.label n
      exact ⟨(allocObj s.core op.label n).1, some (allocObj s.core op.label n).2, rfl, a1, b1, b2, a3,
        .inr ⟨n, _, rfl, rfl, a2⟩⟩
  have hci : CapInv core := ⟨by rw [hcs, hcn]; exact h.cap.bound, by rw [hcs]; exact h.cap.inj⟩
  -- an earlier allocation of the same capability
  have hearlier : ∀ x, s.core.capStore sp op.label (capKey op.cap) = some x →
      ∃ op', (sp, op') ∈ js ∧ op'.label = op.label ∧ op'.cap = op.cap ∧ op'.obj = op.obj := by
    intro x hx
    obtain ⟨op', h1, h2, h3⟩ := h.back _ _ _ _ hx
    have h4 : op'.cap = op.cap := (key_inj h3).symm
    exact ⟨op', h1, h2, h4, hc (sp, op') (by simp [h1]) (sp, op) (by simp) rfl h2 h4⟩
  have hok : ∃ r, allocCap core sp op.label op.cap obj op.want = .ok r := by
    rw [(allocCap_cases core sp op.label op.cap obj op.want hci.bound).1]
    rintro ⟨h1, x, h2, h3⟩
    rw [hcs] at h2
    rw [hcn] at h3
    obtain ⟨op', e1, e2, e3, e4⟩ := hearlier x h2
    obtain ⟨slot, f1, f2, _⟩ := h.cont sp op' e1
    rw [e2, e3, h2] at f1
    cases f1
    rcases hname with ⟨_, e⟩ | ⟨n, o, e, _, _⟩
    · rw [e] at h1; cases h1
    · rw [e4, e] at f2
      obtain ⟨o', _, f3⟩ := f2
      rw [h3] at f3; cases f3
  obtain ⟨⟨core', slot⟩, hr⟩ := hok
  obtain ⟨c1, c2, c3, c4, c5, c6, c7, c8⟩ := allocCap_spec core core' sp op.label op.cap obj op.want slot hci hr
  obtain ⟨d1, d2, d3⟩ := allocCap_objects core core' sp op.label op.cap obj op.want slot hr
  rw [hcs] at c3 c4 c6 c7 c8
  rw [hcn] at c5 c7 c8
  have hslotnew : s.core.capStore sp op.label (capKey op.cap) = none ∨ s.core.capStore sp op.label (capKey op.cap) = some slot := by
    cases hst : s.core.capStore sp op.label (capKey op.cap) with
    | none => exact .inl rfl
    | some x =>
      have := c3 _ _ _ _ hst
      rw [c2] at this
      cases this
      exact .inr rfl
  refine ⟨⟨core', match op.badge with
      | none => s.badge
      | some b => fun sp' i => if sp' = sp ∧ i = slot then some b else s.badge sp' i⟩, slot, ?_, ?_, c2, c3, ?_⟩
  · unfold doOp
    rw [hobj]
    simp only [hr]
    cases op.badge <;> rfl
  · refine ⟨c1, ?_, ?_, ?_, ?_, ?_⟩
    · exact ⟨by rw [d1, d2]; exact hoi.below, by rw [d1]; exact hoi.names, by rw [d1]; exact hoi.objs, by rw [d1, d3]; exact hoi.store⟩
    · intro sp' l k x hx
      rcases c4 _ _ _ _ hx with hx | ⟨rfl, rfl, rfl⟩
      · obtain ⟨op', h1, h2⟩ := h.back _ _ _ _ hx
        exact ⟨op', by simp [h1], h2⟩
      · exact ⟨op, by simp, rfl, rfl⟩
    · intro sp' i hi
      have h1 := h.plain sp' i (fun l k hk => hi l k (c3 _ _ _ _ hk))
      cases hb : op.badge with
      | none => exact h1
      | some b =>
        simp only
        rw [if_neg]
        · exact h1
        · rintro ⟨rfl, rfl⟩
          exact hi _ _ c2
    · intro sp' i c hi
      by_cases hs : sp' = sp ∧ i = slot
      · obtain ⟨rfl, rfl⟩ := hs
        exact ⟨_, _, c2⟩
      · simp only [c5 sp' i hs] at hi
        obtain ⟨l, k, hk⟩ := h.full sp' i c hi
        exact ⟨l, k, c3 _ _ _ _ hk⟩
    · intro sp' op' hm
      by_cases hs : sp' = sp ∧ op'.label = op.label ∧ op'.cap = op.cap
      · obtain ⟨rfl, hl, hn⟩ := hs
        have hobj' : op'.obj = op.obj := hc (sp', op') hm (sp', op) (by simp) rfl hl hn
        have hsame : Same sp' op.label op.cap (sp', op) = true := by simp [Same]
        rw [hl, hn, hobj']
        refine ⟨slot, c2, ?_, ?_⟩
        · rw [rightsOf_append]
          simp only [rightsOf, hsame, if_true, union_none]
          rcases hslotnew with hnew | hold
          · have c6 := c6 hnew
            -- no earlier allocation
            have hno : rightsOf sp' op.label op.cap js = noRights := by
              refine rightsOf_none sp' op.label op.cap js ?_
              intro j hj
              by_contra hx
              rw [Bool.not_eq_false, same_iff] at hx
              obtain ⟨s1, s2, s3⟩ := hx
              obtain ⟨x, hx, _⟩ := h.cont j.1 j.2 hj
              rw [s1, s2, s3, hnew] at hx
              cases hx
            rw [hno, none_union]
            rcases hname with ⟨e1, e2⟩ | ⟨n, o, e1, e2, e3⟩
            · rw [e1]; rw [e2] at c6; exact c6
            · rw [e1]
              rw [e2] at c6
              exact ⟨o, by rw [d1]; exact e3, c6⟩
          · have c7 := c7 hold
            obtain ⟨opx, e1, e2, e3, e4⟩ := hearlier slot hold
            obtain ⟨x, f1, f2, _⟩ := h.cont sp' opx e1
            rw [e2, e3, hold] at f1
            cases f1
            rw [e2, e3, e4] at f2
            rcases hname with ⟨g1, g2⟩ | ⟨n, o, g1, g2, g3⟩
            · rw [g1] at f2 ⊢
              rw [g2] at c7
              simp only [Option.isSome_none, Bool.false_eq_true, if_false] at c7
              simp only [Content] at f2 ⊢
              rw [c7, f2]
            · rw [g1] at f2 ⊢
              rw [g2] at c7
              simp only [Option.isSome_some, if_true] at c7
              obtain ⟨o', k1, k2⟩ := f2
              refine ⟨o', by rw [d1]; exact hmono _ k1, ?_⟩
              rw [c7, k2]
              rfl
        · -- the badge
          unfold lastBadge
          rw [List.foldl_append]
          simp only [List.foldl_cons, List.foldl_nil, hsame, if_true]
          cases hb : op.badge with
          | some b => simp
          | none =>
            simp only
            rcases hslotnew with hnew | hold
            · -- a new slot has no badge: no earlier one
              have hno : ∀ j ∈ js, Same sp' op.label op.cap j = false := by
                intro j hj
                by_contra hx
                rw [Bool.not_eq_false, same_iff] at hx
                obtain ⟨s1, s2, s3⟩ := hx
                obtain ⟨x, hx, _⟩ := h.cont j.1 j.2 hj
                rw [s1, s2, s3, hnew] at hx
                cases hx
              have hz : s.badge sp' slot = none := by
                refine h.plain sp' slot (fun l k hk => ?_)
                obtain ⟨e1, e2⟩ := c1.inj _ _ _ _ _ _ (c3 _ _ _ _ hk) c2
                rw [e1, e2, hnew] at hk
                cases hk
              rw [hz]
              have hfold : ∀ (l : List (Nat × Op)) (b : Option Nat), (∀ j ∈ l, Same sp' op.label op.cap j = false) →
                  l.foldl (fun b j => if Same sp' op.label op.cap j then (match j.2.badge with | none => b | some x => some x) else b) b = b := by
                intro l
                induction l with
                | nil => intro b _; rfl
                | cons j l ih =>
                  intro b hl
                  simp only [List.foldl_cons, hl j (by simp), Bool.false_eq_true, if_false]
                  exact ih b (fun j hj => hl j (by simp [hj]))
              exact (hfold js none hno).symm
            · obtain ⟨opx, e1, e2, e3, e4⟩ := hearlier slot hold
              obtain ⟨x, f1, _, f3⟩ := h.cont sp' opx e1
              rw [e2, e3] at f1 f3
              rw [hold] at f1
              cases f1
              exact f3
      · have hm' : (sp', op') ∈ js := by
          rcases List.mem_append.mp hm with hm | hm
          · exact hm
          · rw [List.mem_singleton] at hm; cases hm; exact absurd ⟨rfl, rfl, rfl⟩ hs
        obtain ⟨x, f1, f2, f3⟩ := h.cont sp' op' hm'
        have hne : ¬ (sp' = sp ∧ x = slot) := by
          rintro ⟨rfl, rfl⟩
          obtain ⟨e1, e2⟩ := c1.inj _ _ _ _ _ _ (c3 _ _ _ _ f1) c2
          exact hs ⟨rfl, e1, key_inj e2⟩
        have hsame : Same sp' op'.label op'.cap (sp, op) = false := by
          by_contra hx
          rw [Bool.not_eq_false, same_iff] at hx
          exact hs ⟨hx.1.symm, hx.2.1.symm, hx.2.2.symm⟩
        refine ⟨x, c3 _ _ _ _ f1, ?_, ?_⟩
        · rw [rightsOf_append]
          simp only [rightsOf, hsame, Bool.false_eq_true, if_false, union_none]
          cases hop : op'.obj with
          | none =>
            rw [hop] at f2
            simp only [Content] at f2 ⊢
            rw [c5 sp' x hne, f2]
          | some n =>
            rw [hop] at f2
            obtain ⟨o, k1, k2⟩ := f2
            exact ⟨o, by rw [d1]; exact hmono _ k1, by rw [c5 sp' x hne, k2]⟩
        · unfold lastBadge
          rw [List.foldl_append]
          simp only [List.foldl_cons, List.foldl_nil, hsame, Bool.false_eq_true, if_false]
          cases hb : op.badge with
          | none => exact f3
          | some b =>
            simp only
            rw [if_neg hne]
            exact f3
  · intro p hp
    simp only [d1]
    exact hmono p hp

theorem Coherent.mono {a b : List (Nat × Op)} (h : Coherent b) (hs : ∀ x ∈ a, x ∈ b) : Coherent a :=
  fun x hx y hy => h x (hs x hx) y (hs y hy)

/-- The allocations of a template. -/
theorem doOps_spec (sp : Nat) : ∀ (l : List Op) (js : List (Nat × Op)) (s : St), Inv js s →
    Coherent (js ++ l.map (fun o => (sp, o))) →
    ∃ s' slots, doOps sp s l = .ok (s', slots) ∧ Inv (js ++ l.map (fun o => (sp, o))) s' ∧ slots.length = l.length ∧
      (∀ (j : Nat) op slot, l[j]? = some op → slots[j]? = some slot →
        s'.core.capStore sp op.label (capKey op.cap) = some slot) ∧
      (∀ sp l k x, s.core.capStore sp l k = some x → s'.core.capStore sp l k = some x) := by
  intro l
  induction l with
  | nil =>
    intro js s h _
    refine ⟨s, [], rfl, by simpa using h, rfl, by simp, fun _ _ _ _ h => h⟩
  | cons op l ih =>
    intro js s h hc
    obtain ⟨s1, slot, h1, h2, h3, h4, _⟩ := doOp_spec js s sp op h (hc.mono (by
      intro x hx
      rcases List.mem_append.mp hx with hx | hx
      · simp [hx]
      · rw [List.mem_singleton] at hx; simp [hx]))
    obtain ⟨s2, slots, g1, g2, g3, g4, g5⟩ := ih (js ++ [(sp, op)]) s1 h2 (by simpa using hc)
    refine ⟨s2, slot :: slots, by simp only [doOps, h1, g1], by simpa using g2, by simp [g3], ?_,
      fun _ _ _ _ hx => g5 _ _ _ _ (h4 _ _ _ _ hx)⟩
    intro j op' slot' hj hj'
    cases j with
    | zero =>
      simp only [List.getElem?_cons_zero, Option.some.injEq] at hj hj'
      subst hj; subst hj'
      exact g5 _ _ _ _ h3
    | succ j => exact g4 j op' slot' (by simpa using hj) (by simpa using hj')

/-- The allocations of all items. -/
def jobs (rt : Bool) (items : List Item) : List (Nat × Op) :=
  items.flatMap (fun it => (ops rt it).map (fun o => (it.me.space, o)))

theorem mem_jobs (rt : Bool) (items : List Item) (sp : Nat) (op : Op) :
    (sp, op) ∈ jobs rt items ↔ ∃ it ∈ items, it.me.space = sp ∧ op ∈ ops rt it := by
  simp only [jobs, List.mem_flatMap, List.mem_map, Prod.mk.injEq]
  constructor
  · rintro ⟨it, h1, o, h2, h3, rfl⟩; exact ⟨it, h1, h3, h2⟩
  · rintro ⟨it, h1, h2, h3⟩; exact ⟨it, h1, op, h3, h2, rfl⟩

/-- All items. -/
theorem render_spec (rt : Bool) : ∀ (items : List Item) (js : List (Nat × Op)) (s : St), Inv js s →
    Coherent (js ++ jobs rt items) →
    ∃ s' slots, render rt s items = .ok (s', slots) ∧ Inv (js ++ jobs rt items) s' ∧ slots.length = items.length ∧
      (∀ (k : Nat) it, items[k]? = some it → ∃ l : List Nat, slots[k]? = some l ∧ l.length = (ops rt it).length ∧
        ∀ (j : Nat) op slot, (ops rt it)[j]? = some op → l[j]? = some slot →
          s'.core.capStore it.me.space op.label (capKey op.cap) = some slot) ∧
      (∀ sp l k x, s.core.capStore sp l k = some x → s'.core.capStore sp l k = some x) := by
  intro items
  induction items with
  | nil =>
    intro js s h _
    refine ⟨s, [], rfl, by simpa [jobs] using h, rfl, by simp, fun _ _ _ _ h => h⟩
  | cons it items ih =>
    intro js s h hc
    have hj : jobs rt (it :: items) = (ops rt it).map (fun o => (it.me.space, o)) ++ jobs rt items := by simp [jobs]
    rw [hj] at hc ⊢
    rw [← List.append_assoc] at hc ⊢
    obtain ⟨s1, sl, h1, h2, h3, h4, h5⟩ := doOps_spec it.me.space (ops rt it) js s h (hc.mono (by
      intro x hx; exact List.mem_append_left _ hx))
    obtain ⟨s2, slots, g1, g2, g3, g4, g5⟩ := ih _ s1 h2 hc
    refine ⟨s2, sl :: slots, by simp only [render, h1, g1], g2, by simp [g3], ?_,
      fun _ _ _ _ hx => g5 _ _ _ _ (h5 _ _ _ _ hx)⟩
    intro k it' hk
    cases k with
    | zero =>
      simp only [List.getElem?_cons_zero, Option.some.injEq] at hk
      subst hk
      exact ⟨sl, rfl, h3, fun j op slot hj hj' => g5 _ _ _ _ (h4 j op slot hj hj')⟩
    | succ k =>
      obtain ⟨l, e1, e2, e3⟩ := g4 k it' (by simpa using hk)
      exact ⟨l, by simpa using e1, e2, e3⟩

/-! ## The allocations of the templates -/

/-- The object to which a capability name belongs. -/
def objFor (rt : Bool) (k : Kind) (cap : Text) : Option Text :=
  match k with
  | .rpc => if cap = tBuffer then some tBuffer else if cap = tReply then (if rt then some tReply else none) else some tEp
  | _ => some cap

theorem ep_ne_buffer (t : Text) : tEp ++ ['_'] ++ t ≠ tBuffer := by
  intro h; simp [tEp, tBuffer] at h

theorem ep_ne_reply (t : Text) : tEp ++ ['_'] ++ t ≠ tReply := by
  intro h; simp [tEp, tReply] at h

theorem ops_facts (rt : Bool) (it : Item) (op : Op) (h : op ∈ ops rt it) :
    op.label = it.conn.name ∧ op.obj = objFor rt it.conn.kind op.cap := by
  obtain ⟨⟨name, kind, srcs, dsts⟩, side, me⟩ := it
  have hr : tReply ≠ tBuffer := by decide
  cases side <;> cases kind <;> simp only [ops, srcOps, dstOps, alloc] at h
  · rcases List.mem_append.mp h with h | h
    · split at h
      · rw [List.mem_singleton] at h; subst h; exact ⟨rfl, by simp [objFor]⟩
      · cases h
    · rw [List.mem_singleton] at h; subst h
      exact ⟨rfl, by simp only [objFor, if_neg (ep_ne_buffer me.iface), if_neg (ep_ne_reply me.iface)]⟩
  · obtain ⟨i, _, rfl⟩ := List.mem_map.mp h; exact ⟨rfl, rfl⟩
  · obtain ⟨i, _, rfl⟩ := List.mem_map.mp h; exact ⟨rfl, rfl⟩
  · rw [List.mem_singleton] at h; subst h; exact ⟨rfl, rfl⟩
  · rw [List.mem_singleton] at h; subst h; exact ⟨rfl, rfl⟩
  · rcases List.mem_append.mp h with h | h
    · rw [List.mem_singleton] at h; subst h
      exact ⟨rfl, by simp only [objFor, if_neg (ep_ne_buffer me.iface), if_neg (ep_ne_reply me.iface)]⟩
    · split at h
      · rename_i e
        rw [List.mem_singleton] at h; subst h
        exact ⟨rfl, by simp only [objFor, if_neg hr, e, if_true]⟩
      · rename_i e
        split at h
        · rw [List.mem_singleton] at h; subst h
          refine ⟨rfl, ?_⟩
          simp only [objFor, if_neg hr, if_true]
          rw [if_neg e]
        · cases h
  · simp only [List.mem_cons, List.not_mem_nil, or_false] at h
    rcases h with rfl | rfl | rfl <;> exact ⟨rfl, rfl⟩
  · simp only [List.mem_cons, List.not_mem_nil, or_false] at h
    rcases h with rfl | rfl | rfl <;> exact ⟨rfl, rfl⟩
  · rw [List.mem_singleton] at h; subst h; exact ⟨rfl, rfl⟩
  · rw [List.mem_singleton] at h; subst h; exact ⟨rfl, rfl⟩

theorem coherent_jobs (rt : Bool) (items : List Item) (hp : Proper items) : Coherent (jobs rt items) := by
  rintro ⟨sa, oa⟩ ha ⟨sb, ob⟩ hb _ hl hcap
  obtain ⟨ia, a1, _, a2⟩ := (mem_jobs _ _ _ _).mp ha
  obtain ⟨ib, b1, _, b2⟩ := (mem_jobs _ _ _ _).mp hb
  obtain ⟨a3, a4⟩ := ops_facts rt ia oa a2
  obtain ⟨b3, b4⟩ := ops_facts rt ib ob b2
  simp only at hl hcap ⊢
  have hconn : ia.conn = ib.conn := hp.names ia a1 ib b1 (by rw [← a3, ← b3, hl])
  rw [a4, b4, hconn, hcap]

/-- What the state after rendering is, for a proper list of items. -/
theorem rendered (rt : Bool) (items : List Item) (hp : Proper items) : ∃ s slots, render rt start items = .ok (s, slots) ∧
    Inv (jobs rt items) s ∧ slots.length = items.length ∧
    (∀ it j slot, Uses items slots it j slot → ∃ op, (ops rt it)[j]? = some op ∧
      s.core.capStore it.me.space op.label (capKey op.cap) = some slot) ∧
    (∀ it j op, it ∈ items → (ops rt it)[j]? = some op → ∃ slot, Uses items slots it j slot) := by
  obtain ⟨s, slots, h1, h2, h3, h4, _⟩ := render_spec rt items [] start inv_start (by simpa using coherent_jobs rt items hp)
  refine ⟨s, slots, h1, by simpa using h2, h3, ?_, ?_⟩
  · rintro it j slot ⟨k, l, u1, u2, u3⟩
    obtain ⟨l', e1, e2, e3⟩ := h4 k it u1
    rw [u2] at e1
    cases e1
    have hlt : j < l.length := (List.getElem?_eq_some_iff.mp u3).1
    rw [e2] at hlt
    exact ⟨(ops rt it)[j], List.getElem?_eq_getElem hlt, e3 j _ slot (List.getElem?_eq_getElem hlt) u3⟩
  · intro it j op hm hj
    obtain ⟨k, hk, rfl⟩ := List.getElem_of_mem hm
    have hk' : items[k]? = some items[k] := List.getElem?_eq_getElem hk
    obtain ⟨l', e1, e2, e3⟩ := h4 k _ hk'
    have hlt : j < (ops rt items[k]).length := (List.getElem?_eq_some_iff.mp hj).1
    rw [← e2] at hlt
    exact ⟨l'[j], k, l', hk', e1, List.getElem?_eq_getElem hlt⟩

end Verif.ConnCaps
