import Verif.FaultCaps.Spec
import Verif.Context.Props
import Mathlib.Tactic.ByContra
import Mathlib.Tactic.Tauto

/-!
# Lemmas: allocations and the loops over threads
-/

namespace Verif.FaultCaps
open Verif.Context

theorem upgrade_self (w : Rights) : upgrade w w = w := by
  rw [upgrade_union, union_self]

/-- A new capability. -/
theorem allocCap_new (s : Context.St) (sp : Nat) (l n : Text) (o : Nat) (w : Rights) (h : s.capStore sp l (capKey n) = none) :
    allocCap s sp l n (some o) w = .ok ({ s with
      capStore := fun i l' k => if i = sp ∧ l' = l ∧ k = capKey n then some (s.cnodes sp).length else s.capStore i l' k
      cnodes := fun i => if i = sp then s.cnodes i ++ [some ⟨o, w⟩] else s.cnodes i }, (s.cnodes sp).length) := by
  simp only [allocCap, h, slotAlloc, Option.map_some, if_true]
  rw [List.getElem?_append_right (Nat.le_refl _)]
  simp only [Nat.sub_self, List.getElem?_cons_zero, upgrade_self]
  congr 3
  funext i
  by_cases hi : i = sp
  · subst hi
    simp only [if_true]
    rw [List.set_append_right _ _ (Nat.le_refl _)]
    simp
  · simp [hi]

/-- A capability that exists, with the same rights. -/
theorem allocCap_old (s : Context.St) (sp : Nat) (l n : Text) (o : Nat) (w : Rights) (x o' : Nat) (h : s.capStore sp l (capKey n) = some x)
    (hc : (s.cnodes sp)[x]? = some (some ⟨o', w⟩)) : allocCap s sp l n (some o) w = .ok (s, x) := by
  simp only [allocCap, h, hc, upgrade_self]
  have : (fun i => if i = sp then (s.cnodes i).set x (some ⟨o', w⟩) else s.cnodes i) = s.cnodes := by
    funext i
    by_cases hi : i = sp
    · subst hi
      simp only [if_true]
      obtain ⟨hlt, hg⟩ := List.getElem?_eq_some_iff.mp hc
      rw [← hg]
      exact List.set_getElem_self hlt
    · simp [hi]
  rw [this]

theorem Sound.capInv {s : Context.St} (h : Sound s) : CapInv s := ⟨h.bound, h.inj⟩
theorem Sound.objInv {s : Context.St} (h : Sound s) : ObjInv s := ⟨h.below, h.names, h.objs, h.store⟩

theorem sound_start : Sound Context.start := by
  refine ⟨?_, ?_, ?_, ?_, ?_, ?_, ?_⟩ <;> simp [Context.start]

theorem sound_obj {s : Context.St} (h : Sound s) (l n : Text) : Sound (allocObj s l n).1 := by
  obtain ⟨a1, a2, a3⟩ := allocObj_spec s l n h.objInv
  obtain ⟨b1, b2⟩ := allocObj_capStore s l n
  refine ⟨by rw [b1, b2]; exact h.bound, by rw [b1]; exact h.inj, a1.below, a1.names, a1.objs, a1.store, ?_⟩
  rw [b2]
  intro sp i c hc
  obtain ⟨n, hn⟩ := h.caps sp i c hc
  exact ⟨n, a3 _ hn⟩

/-- The state after a new capability. -/
abbrev withCap (s : Context.St) (sp : Nat) (l n : Text) (o : Nat) (w : Rights) : Context.St :=
  { s with
    capStore := fun i l' k => if i = sp ∧ l' = l ∧ k = capKey n then some (s.cnodes sp).length else s.capStore i l' k
    cnodes := fun i => if i = sp then s.cnodes i ++ [some ⟨o, w⟩] else s.cnodes i }

theorem withCap_old (s : Context.St) (sp : Nat) (l n : Text) (o : Nat) (w : Rights) (sp' i : Nat) (c : Option Cap)
    (h : (s.cnodes sp')[i]? = some c) : ((withCap s sp l n o w).cnodes sp')[i]? = some c := by
  simp only [withCap]
  split
  · rw [List.getElem?_append_left (by obtain ⟨hl, _⟩ := List.getElem?_eq_some_iff.mp h; exact hl)]; exact h
  · exact h

theorem withCap_new (s : Context.St) (sp : Nat) (l n : Text) (o : Nat) (w : Rights) :
    ((withCap s sp l n o w).cnodes sp)[(s.cnodes sp).length]? = some (some ⟨o, w⟩) := by
  simp [withCap]

theorem sound_cap {s : Context.St} (h : Sound s) (sp : Nat) (l n : Text) (o : Nat) (w : Rights) (hn : ∃ m, (m, o) ∈ s.objects) :
    Sound (withCap s sp l n o w) := by
  refine ⟨?_, ?_, h.below, h.names, h.objs, h.store, ?_⟩
  · intro sp' l' k slot hs
    simp only [withCap] at hs ⊢
    split at hs
    · rename_i e
      cases hs
      rw [e.1]
      simp
    · have := h.bound _ _ _ _ hs
      split
      · simp; omega
      · exact this
  · intro sp' l1 k1 l2 k2 slot h1 h2
    simp only [withCap] at h1 h2
    split at h1 <;> split at h2
    · rename_i e1 e2
      exact ⟨e1.2.1.trans e2.2.1.symm, e1.2.2.trans e2.2.2.symm⟩
    · rename_i e1 e2
      cases h1
      have := h.bound _ _ _ _ h2
      rw [e1.1] at this
      exact absurd this (Nat.lt_irrefl _)
    · rename_i e1 e2
      cases h2
      have := h.bound _ _ _ _ h1
      rw [e2.1] at this
      exact absurd this (Nat.lt_irrefl _)
    · exact h.inj _ _ _ _ _ _ h1 h2
  · intro sp' i c hc
    simp only [withCap] at hc
    split at hc
    · rename_i e
      subst e
      by_cases hi : i < (s.cnodes sp').length
      · rw [List.getElem?_append_left hi] at hc
        exact h.caps _ _ _ hc
      · rw [List.getElem?_append_right (by omega)] at hc
        rcases Nat.eq_zero_or_pos (i - (s.cnodes sp').length) with e | e
        · rw [e] at hc
          simp only [List.getElem?_cons_zero, Option.some.injEq] at hc
          cases hc
          exact hn
        · rw [List.getElem?_eq_none (by simp; omega)] at hc
          cases hc
    · exact h.caps _ _ _ hc

/-- The names of objects are unique. -/
theorem name_unique {s : Context.St} (h : Sound s) {n m : Text} {o : Nat} (h1 : (n, o) ∈ s.objects) (h2 : (m, o) ∈ s.objects) : n = m :=
  congrArg Prod.fst (List.inj_on_of_nodup_map h.objs h1 h2 rfl)

theorem obj_unique {s : Context.St} (h : Sound s) {n : Text} {o p : Nat} (h1 : (n, o) ∈ s.objects) (h2 : (n, p) ∈ s.objects) : o = p :=
  congrArg Prod.snd (List.inj_on_of_nodup_map h.names h1 h2 rfl)

theorem nameOf_eq {s : Context.St} (h : Sound s) {n : Text} {o : Nat} (h1 : (n, o) ∈ s.objects) : nameOf s o = some n := by
  unfold nameOf
  cases hf : s.objects.find? (fun p => p.2 = o) with
  | none =>
    have := List.find?_eq_none.mp hf _ h1
    simp at this
  | some p =>
    have hm := List.mem_of_find?_eq_some hf
    have hp := List.find?_some hf
    simp only [decide_eq_true_eq] at hp
    obtain ⟨n', o'⟩ := p
    simp only at hp
    subst hp
    simp only [Option.map_some, Option.some.injEq]
    exact name_unique h hm h1

theorem fullName_inj {l a b : Text} (h : fullName l a = fullName l b) : a = b := by
  unfold fullName at h
  exact List.append_cancel_left h

/-! ## One thread -/

/-- What a step leaves alone: slots in use and their badges, objects, TCBs, and the faults of all but one object. -/
structure Frame (s s' : St) (space : Nat) (o : Nat) : Prop where
  objects : ∀ p ∈ s.core.objects, p ∈ s'.core.objects
  cnodes : ∀ (sp i : Nat) c, (s.core.cnodes sp)[i]? = some c → (s'.core.cnodes sp)[i]? = some c
  badge : ∀ sp i, i < (s.core.cnodes sp).length → s'.badge sp i = s.badge sp i
  caps : ∀ sp l k x, s.core.capStore sp l k = some x → s'.core.capStore sp l k = some x
  tcb : ∀ x, s.tcb x = true → s'.tcb x = true
  fault : ∀ x, x ≠ o → s'.fault x = s.fault x

theorem tcb_key_ne {n m : Text} (hn : Plain n) : capKey (tFaultEp_ ++ n) ≠ capKey (m ++ tTcb) := by
  intro e
  obtain ⟨a, c, rfl, hc⟩ := hn
  have := congrArg List.getLast? (key_inj e)
  rw [← List.append_assoc, List.getLast?_append] at this
  simp [tTcb] at this
  exact hc this

theorem thread_spec (s : St) (space : Nat) (inst n : Text) (handled : Option Nat) (hs : Sound s.core) (hp : Plain n)
    (h1 : s.core.capStore space inst (capKey (n ++ tTcb)) = none)
    (h2 : s.core.capStore space inst (capKey (tFaultEp_ ++ n)) = none)
    (hep : ∀ ep, handled = some ep → ∃ m, (m, ep) ∈ s.core.objects) :
    ∃ s' o t, thread s space inst handled n = .ok s' ∧ Sound s'.core ∧ Frame s s' space o ∧
      Named s' o (fullName inst (n ++ tTcb)) ∧ s'.core.capStore space inst (capKey (n ++ tTcb)) = some t ∧
      HasCap s' space t o ∧ s'.tcb o = true ∧
      (∀ ep, handled = some ep → Reaches s' space o ep t) ∧
      (handled = none → s'.fault = s.fault) ∧
      (∀ x, s'.tcb x = true → x = o ∨ s.tcb x = true) ∧
      (∀ k, k ≠ capKey (n ++ tTcb) → k ≠ capKey (tFaultEp_ ++ n) → s'.core.capStore space inst k = s.core.capStore space inst k) := by
  obtain ⟨a1, a2, a3⟩ := allocObj_spec s.core inst (n ++ tTcb) hs.objInv
  obtain ⟨b1, b2⟩ := allocObj_capStore s.core inst (n ++ tTcb)
  have hs1 := sound_obj hs inst (n ++ tTcb)
  unfold thread
  generalize allocObj s.core inst (n ++ tTcb) = r at a1 a2 a3 b1 b2 hs1 ⊢
  obtain ⟨core, o⟩ := r
  simp only at a1 a2 a3 b1 b2 hs1 ⊢
  have hnew : core.capStore space inst (capKey (n ++ tTcb)) = none := by rw [b1]; exact h1
  rw [allocCap_new core space inst (n ++ tTcb) o tcbRights hnew]
  simp only
  have hs2 := sound_cap hs1 space inst (n ++ tTcb) o tcbRights ⟨_, a2⟩
  cases handled with
  | none =>
    refine ⟨_, o, (core.cnodes space).length, rfl, hs2, ⟨a3, ?_, fun _ _ _ => rfl, ?_, ?_, fun _ _ => rfl⟩, a2, ?_, ⟨tcbRights, ?_⟩, ?_, ?_, fun _ => rfl, ?_, ?_⟩
    · intro sp i c hc
      exact withCap_old core space inst (n ++ tTcb) o tcbRights sp i c (by rw [b2]; exact hc)
    · intro sp l k x hx
      simp only
      split
      · rename_i e; obtain ⟨rfl, rfl, rfl⟩ := e; rw [h1] at hx; cases hx
      · rw [b1]; exact hx
    · intro x hx; simp [hx]
    · simp
    · exact withCap_new core space inst (n ++ tTcb) o tcbRights
    · simp
    · intro ep he; cases he
    · intro x hx; simpa using hx
    · intro k hk _
      simp only [true_and]
      rw [if_neg hk, b1]
  | some ep =>
    unfold giveFaultEp
    simp only
    have hne : capKey (tFaultEp_ ++ n) ≠ capKey (n ++ tTcb) := tcb_key_ne hp
    have hnew2 : (withCap core space inst (n ++ tTcb) o tcbRights).capStore space inst (capKey (tFaultEp_ ++ n)) = none := by
      simp only [withCap, true_and]
      rw [if_neg hne, b1]; exact h2
    rw [allocCap_new (withCap core space inst (n ++ tTcb) o tcbRights) space inst (tFaultEp_ ++ n) ep faultRights hnew2]
    obtain ⟨m, hm⟩ := hep ep rfl
    have hs3 := sound_cap hs2 space inst (tFaultEp_ ++ n) ep faultRights ⟨m, a3 _ hm⟩
    have hlen : ((withCap core space inst (n ++ tTcb) o tcbRights).cnodes space).length = (core.cnodes space).length + 1 := by simp [withCap]
    refine ⟨_, o, (core.cnodes space).length, rfl, hs3, ⟨a3, ?_, ?_, ?_, ?_, ?_⟩, a2, ?_, ⟨tcbRights, ?_⟩, ?_, ?_, ?_, ?_, ?_⟩
    · intro sp i c hc
      exact withCap_old _ space inst (tFaultEp_ ++ n) ep faultRights sp i c
        (withCap_old core space inst (n ++ tTcb) o tcbRights sp i c (by rw [b2]; exact hc))
    · intro sp i hi
      simp only
      rw [if_neg]
      rintro ⟨e1, e2, _⟩
      rw [e2, e1] at hi
      have := hi.trans_eq (congrArg (fun f => (f space).length) b2.symm)
      simp only [if_true, List.length_append, List.length_cons, List.length_nil] at this
      omega
    · intro sp l k x hx
      simp only
      split
      · rename_i e; obtain ⟨rfl, rfl, rfl⟩ := e; rw [h2] at hx; cases hx
      · split
        · rename_i e; obtain ⟨rfl, rfl, rfl⟩ := e; rw [h1] at hx; cases hx
        · rw [b1]; exact hx
    · intro x hx; simp [hx]
    · intro x hx; simp [hx]
    · have hne' := hne.symm
      simp only [true_and]
      rw [if_neg hne', if_pos trivial]
    · exact withCap_old _ space inst (tFaultEp_ ++ n) ep faultRights space _ _
        (withCap_new core space inst (n ++ tTcb) o tcbRights)
    · simp
    · intro ep' he
      cases he
      refine ⟨((withCap core space inst (n ++ tTcb) o tcbRights).cnodes space).length, faultRights, by simp, ?_, rfl, .inr rfl, ?_⟩
      · exact withCap_new (withCap core space inst (n ++ tTcb) o tcbRights) space inst (tFaultEp_ ++ n) ep faultRights
      · simp only [true_and]
        rw [if_pos]
        rw [if_neg hne, b1]
        exact h2
    · intro he; cases he
    · intro x hx; simpa using hx
    · intro k hk hk'
      simp only [true_and]
      rw [if_neg hk', if_neg hk, b1]

/-! ## All threads -/

/-- A thread of a component as it should be; `handled` if its faults go to an endpoint. -/
def Wired (s : St) (space : Nat) (inst : Text) (handled : Option Nat) (n : Text) : Prop :=
  ∃ o t, Named s o (fullName inst (n ++ tTcb)) ∧ s.core.capStore space inst (capKey (n ++ tTcb)) = some t ∧ HasCap s space t o ∧
    s.tcb o = true ∧ ∀ ep, handled = some ep → Reaches s space o ep t

theorem reaches_frame {s s' : St} {space o x ep b : Nat} (h : Frame s s' space x) (hne : o ≠ x) (hr : Reaches s space o ep b) :
    Reaches s' space o ep b := by
  obtain ⟨f, r, a1, a2, a3, a4, a5⟩ := hr
  refine ⟨f, r, by rw [h.fault o hne]; exact a1, h.cnodes _ _ _ a2, a3, a4, ?_⟩
  obtain ⟨hl, _⟩ := List.getElem?_eq_some_iff.mp a2
  rw [h.badge space f hl]; exact a5

theorem wired_frame {s s' : St} {space : Nat} {inst : Text} {handled : Option Nat} {n m : Text} {x : Nat} (hs : Sound s'.core)
    (h : Frame s s' space x) (hx : Named s' x (fullName inst (m ++ tTcb))) (hne : n ≠ m) (hw : Wired s space inst handled n) :
    Wired s' space inst handled n := by
  obtain ⟨o, t, a1, a2, ⟨r, a3⟩, a4, a5⟩ := hw
  have hox : o ≠ x := by
    rintro rfl
    have := fullName_inj (name_unique hs (h.objects _ a1) hx)
    exact hne (List.append_cancel_right this)
  exact ⟨o, t, h.objects _ a1, h.caps _ _ _ _ a2, ⟨r, h.cnodes _ _ _ a3⟩, h.tcb _ a4, fun ep he => reaches_frame h hox (a5 ep he)⟩

/-- Keys of other threads. -/
theorem key_others {n m : Text} (hn : Plain n) (hm : Plain m) (hne : n ≠ m) :
    capKey (m ++ tTcb) ≠ capKey (n ++ tTcb) ∧ capKey (m ++ tTcb) ≠ capKey (tFaultEp_ ++ n) ∧
    capKey (tFaultEp_ ++ m) ≠ capKey (n ++ tTcb) ∧ capKey (tFaultEp_ ++ m) ≠ capKey (tFaultEp_ ++ n) := by
  refine ⟨?_, (tcb_key_ne hn).symm, tcb_key_ne hm, ?_⟩
  · intro e
    exact hne (List.append_cancel_right (key_inj e)).symm
  · intro e
    exact hne (List.append_cancel_left (key_inj e)).symm

theorem handler_key {n : Text} (hn : n ≠ ['_', 'f', 'a', 'u', 'l', 't', '_', 'h', 'a', 'n', 'd', 'l', 'e', 'r']) :
    capKey tHandler ≠ capKey (n ++ tTcb) ∧ capKey tHandler ≠ capKey (tFaultEp_ ++ n) := by
  constructor
  · intro e
    have := congrArg List.getLast? (key_inj e)
    rw [List.getLast?_append] at this
    simp [tTcb, tHandler] at this
  · intro e
    have := key_inj e
    exact hn (List.append_cancel_left (as := tFaultEp_) (show tFaultEp_ ++ ['_', 'f', 'a', 'u', 'l', 't', '_', 'h', 'a', 'n', 'd', 'l', 'e', 'r'] = _ from this)).symm

/-- The name that the fault handler's own capability stands for. -/
def notHandler (n : Text) : Prop := n ≠ ['_', 'f', 'a', 'u', 'l', 't', '_', 'h', 'a', 'n', 'd', 'l', 'e', 'r']

theorem threadLoop_spec (space : Nat) (inst : Text) (handled : Option Nat) :
    ∀ (names : List Text) (s : St), Sound s.core → names.Nodup → (∀ n ∈ names, Plain n ∧ notHandler n) → Fresh s.core space inst names →
      (∀ ep, handled = some ep → ∃ m, (m, ep) ∈ s.core.objects) →
      ∃ s', threadLoop space inst handled s names = .ok s' ∧ Sound s'.core ∧
        (∀ p ∈ s.core.objects, p ∈ s'.core.objects) ∧
        (∀ n ∈ names.dropLast, Wired s' space inst handled n) ∧ (∀ n ∈ names, Wired s' space inst none n) ∧
        s'.core.capStore space inst (capKey tHandler) = none ∧
        (∀ m, (∀ n ∈ names, m ≠ n) → Plain m → Wired s space inst handled m → Wired s' space inst handled m) ∧
        (∀ m, (∀ n ∈ names, m ≠ n) → Plain m → Wired s space inst none m → Wired s' space inst none m) ∧
        (∀ x, s'.tcb x = true → s.tcb x = true ∨ ∃ n ∈ names, Named s' x (fullName inst (n ++ tTcb))) ∧
        (∀ x, (∀ n ∈ names.dropLast, ¬ Named s' x (fullName inst (n ++ tTcb))) → s'.fault x = s.fault x) ∧
        (handled = none → s'.fault = s.fault) := by
  intro names
  induction names with
  | nil =>
    intro s hs _ _ hf _
    exact ⟨s, rfl, hs, fun _ h => h, by simp, by simp, hf.2, fun _ _ _ h => h, fun _ _ _ h => h, fun _ h => .inl h, fun _ _ => rfl, fun _ => rfl⟩
  | cons n rest ih =>
    intro s hs hd hp hf hep
    obtain ⟨hpn, hhn⟩ := hp n (by simp)
    obtain ⟨f1, f2⟩ := hf.1 n (by simp)
    cases rest with
    | nil =>
      obtain ⟨s', o, t, e1, e2, e3, e4, e5, e6, e7, e8, e9, e10, e11⟩ := thread_spec s space inst n none hs hpn f1 f2 (fun ep h => by cases h)
      refine ⟨s', by simp only [threadLoop]; exact e1, e2, e3.objects, by simp, ?_, ?_, ?_, ?_, ?_, ?_, fun _ => e9 rfl⟩
      · intro m hm
        simp only [List.mem_singleton] at hm
        subst hm
        exact ⟨o, t, e4, e5, e6, e7, e8⟩
      · rw [e11 _ (handler_key hhn).1 (handler_key hhn).2]; exact hf.2
      · intro m hm _ hw; exact wired_frame e2 e3 e4 (hm n (by simp)) hw
      · intro m hm _ hw; exact wired_frame e2 e3 e4 (hm n (by simp)) hw
      · intro x hx
        rcases e10 x hx with rfl | h
        · exact .inr ⟨n, by simp, e4⟩
        · exact .inl h
      · intro x _; rw [e9 rfl]
    | cons m rest =>
      obtain ⟨s1, o, t, e1, e2, e3, e4, e5, e6, e7, e8, e9, e10, e11⟩ := thread_spec s space inst n handled hs hpn f1 f2 hep
      have hd' := List.nodup_cons.mp hd
      have hfr : Fresh s1.core space inst (m :: rest) := by
        refine ⟨?_, ?_⟩
        · intro q hq
          have hne : n ≠ q := by rintro rfl; exact hd'.1 hq
          obtain ⟨k1, k2, k3, k4⟩ := key_others hpn (hp q (by simp at hq ⊢; tauto)).1 hne
          obtain ⟨g1, g2⟩ := hf.1 q (by simp at hq ⊢; tauto)
          exact ⟨by rw [e11 _ k1 k2]; exact g1, by rw [e11 _ k3 k4]; exact g2⟩
        · rw [e11 _ (handler_key hhn).1 (handler_key hhn).2]; exact hf.2
      obtain ⟨s2, i1, i2, i3, i4, i5, i6, i7, i8, i9, i10, i11⟩ := ih s1 e2 hd'.2 (fun q hq => hp q (by simp at hq ⊢; tauto)) hfr
        (fun ep he => by obtain ⟨x, hx⟩ := hep ep he; exact ⟨x, e3.objects _ hx⟩)
      have hnr : ∀ q ∈ m :: rest, n ≠ q := by rintro q hq rfl; exact hd'.1 hq
      refine ⟨s2, by simp only [threadLoop, e1]; exact i1, i2, fun p hp => i3 _ (e3.objects _ hp), ?_, ?_, i6, ?_, ?_, ?_, ?_, ?_⟩
      · intro q hq
        rw [List.dropLast_cons_of_ne_nil (by simp)] at hq
        rcases List.mem_cons.mp hq with rfl | hq
        · exact i7 _ hnr hpn ⟨o, t, e4, e5, e6, e7, e8⟩
        · exact i4 q hq
      · intro q hq
        rcases List.mem_cons.mp hq with rfl | hq
        · exact i8 _ hnr hpn ⟨o, t, e4, e5, e6, e7, fun ep he => by cases he⟩
        · exact i5 q hq
      · intro q hq hqp hw
        exact i7 q (fun x hx => hq x (by simp at hx ⊢; tauto)) hqp (wired_frame e2 e3 e4 (hq n (by simp)) hw)
      · intro q hq hqp hw
        exact i8 q (fun x hx => hq x (by simp at hx ⊢; tauto)) hqp (wired_frame e2 e3 e4 (hq n (by simp)) hw)
      · intro x hx
        rcases i9 x hx with h | ⟨q, hq, h⟩
        · rcases e10 x h with rfl | h
          · exact .inr ⟨n, by simp, i3 _ e4⟩
          · exact .inl h
        · exact .inr ⟨q, by simp at hq ⊢; tauto, h⟩
      · intro x hx
        rw [List.dropLast_cons_of_ne_nil (by simp)] at hx
        rw [i10 x (fun q hq => hx q (by simp [hq]))]
        refine e3.fault x ?_
        rintro rfl
        exact hx n (by simp) (i3 _ e4)
      · intro he
        rw [i11 he, e9 he]

end Verif.FaultCaps
