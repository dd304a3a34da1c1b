import Verif.FaultCaps.Steps

/-!
# Lemmas: the loops of the debugger's templates
-/

namespace Verif.FaultCaps
open Verif.Context

theorem mem_threadCaps {s : St} (hs : Sound s.core) (space : Nat) (x : Nat × Nat × Text) :
    x ∈ threadCaps s space ↔ HasCap s space x.1 x.2.1 ∧ s.tcb x.2.1 = true ∧ Named s x.2.1 x.2.2 := by
  obtain ⟨t, o, m⟩ := x
  unfold threadCaps
  rw [List.mem_filterMap]
  constructor
  · rintro ⟨⟨c, i⟩, hm, hx⟩
    simp only at hx
    rw [List.mem_zipIdx_iff_getElem?] at hm
    simp only at hm
    cases c with
    | none => simp at hx
    | some c =>
      simp only at hx
      split at hx
      · rename_i htcb
        simp only [Option.some.injEq, Prod.mk.injEq] at hx
        obtain ⟨rfl, rfl, rfl⟩ := hx
        obtain ⟨n, hn⟩ := hs.caps _ _ _ hm
        refine ⟨⟨c.rights, hm⟩, htcb, ?_⟩
        simp only [nameOf_eq hs hn, Option.getD_some]
        exact hn
      · cases hx
  · rintro ⟨⟨r, h1⟩, h2, h3⟩
    refine ⟨(some ⟨o, r⟩, t), ?_, ?_⟩
    · rw [List.mem_zipIdx_iff_getElem?]; exact h1
    · simp only at h2 h3
      simp only [h2, if_true, nameOf_eq hs h3, Option.getD_some]

/-- The state of the loop: what has been done for the names in the store. -/
structure GInv (space : Nat) (inst conn : Text) (ep : Nat) (s0 : St) (done : List (Nat × Nat × Text)) (s : St) : Prop where
  sound : Sound s.core
  objects : s.core.objects = s0.core.objects
  tcb : s.tcb = s0.tcb
  cnodes : ∀ (sp i : Nat) c, (s0.core.cnodes sp)[i]? = some c → (s.core.cnodes sp)[i]? = some c
  badge : ∀ sp i, i < (s0.core.cnodes sp).length → s.badge sp i = s0.badge sp i
  stored : ∀ m x, s.core.capStore space conn (capKey (m ++ t_FaultEp)) = some x →
    (s0.core.cnodes space).length ≤ x ∧ (s.core.cnodes space)[x]? = some (some ⟨ep, faultRights⟩) ∧
    ∃ t o, (t, o, m) ∈ done ∧ s.badge space x = some t ∧ s.fault o = some x
  did : ∀ t o m, (t, o, m) ∈ done → m ≠ inst ++ t_tcb_Delegate → ∃ x, s.core.capStore space conn (capKey (m ++ t_FaultEp)) = some x
  rest : ∀ o, (∀ t m, (t, o, m) ∈ done → m = inst ++ t_tcb_Delegate) → s.fault o = s0.fault o
  keys : ∀ sp l k, (∀ m, ¬ (sp = space ∧ l = conn ∧ k = capKey (m ++ t_FaultEp))) → s.core.capStore sp l k = s0.core.capStore sp l k

theorem gdbLoop_spec (space : Nat) (inst conn : Text) (ep : Nat) (s0 : St) (hep : ∃ m, (m, ep) ∈ s0.core.objects) :
    ∀ (l done : List (Nat × Nat × Text)) (s : St), GInv space inst conn ep s0 done s →
      (∀ x ∈ done ++ l, (x.2.2, x.2.1) ∈ s0.core.objects) →
      ∃ s', gdbLoop space inst conn ep s l = .ok s' ∧ GInv space inst conn ep s0 (done ++ l) s' := by
  intro l
  induction l with
  | nil => intro done s h _; exact ⟨s, rfl, by simpa using h⟩
  | cons x l ih =>
    intro done s h hn
    obtain ⟨t, o, m⟩ := x
    have hstep : ∃ s', gdbThread space inst conn ep s (t, o, m) = .ok s' ∧ GInv space inst conn ep s0 (done ++ [(t, o, m)]) s' := by
      unfold gdbThread
      simp only
      by_cases hd : m = inst ++ t_tcb_Delegate
      · rw [if_pos hd]
        refine ⟨s, rfl, h.sound, h.objects, h.tcb, h.cnodes, h.badge, ?_, ?_, ?_, h.keys⟩
        · intro m' x' hx
          obtain ⟨a1, a2, t', o', a3, a4⟩ := h.stored m' x' hx
          exact ⟨a1, a2, t', o', by simp [a3], a4⟩
        · intro t' o' m' hm hne
          rcases List.mem_append.mp hm with hm | hm
          · exact h.did t' o' m' hm hne
          · simp only [List.mem_singleton, Prod.mk.injEq] at hm
            obtain ⟨_, _, rfl⟩ := hm
            exact absurd hd hne
        · intro o' ho
          exact h.rest o' (fun t' m' hm => ho t' m' (by simp [hm]))
      · rw [if_neg hd]
        -- objects in the lists have one name
        have huniq : ∀ t' o' m', (t', o', m') ∈ done → (m' = m ↔ o' = o) := by
          intro t' o' m' hm
          have e1 : (m', o') ∈ s0.core.objects := hn (t', o', m') (by simp [hm])
          have e2 : (m, o) ∈ s0.core.objects := hn (t, o, m) (by simp)
          rw [← h.objects] at e1 e2
          exact ⟨fun e => by rw [e] at e1; exact obj_unique h.sound e1 e2, fun e => by rw [e] at e1; exact name_unique h.sound e1 e2⟩
        cases hst : s.core.capStore space conn (capKey (m ++ t_FaultEp)) with
        | none =>
          rw [allocCap_new _ _ _ _ _ _ hst]
          obtain ⟨q, hq⟩ := hep
          have hs' := sound_cap h.sound space conn (m ++ t_FaultEp) ep faultRights ⟨q, by rw [h.objects]; exact hq⟩
          have hlen : (s0.core.cnodes space).length ≤ (s.core.cnodes space).length := by
            by_contra hc
            have hlt : (s.core.cnodes space).length < (s0.core.cnodes space).length := by omega
            have := h.cnodes space _ _ (List.getElem?_eq_getElem hlt)
            rw [List.getElem?_eq_none (Nat.le_refl _)] at this
            cases this
          refine ⟨_, rfl, hs', h.objects, h.tcb, ?_, ?_, ?_, ?_, ?_, ?_⟩
          · intro sp i c hc
            exact withCap_old s.core space conn (m ++ t_FaultEp) ep faultRights sp i c (h.cnodes sp i c hc)
          · intro sp i hi
            simp only
            rw [if_neg]
            · exact h.badge sp i hi
            · rintro ⟨rfl, rfl⟩; omega
          · intro m' x' hx
            simp only [true_and] at hx
            split at hx
            · rename_i e
              cases hx
              have e' : m' = m := List.append_cancel_right (key_inj e)
              subst e'
              refine ⟨hlen, withCap_new s.core space conn (m' ++ t_FaultEp) ep faultRights, t, o, by simp, by simp, by simp⟩
            · rename_i e
              obtain ⟨a1, a2, t', o', a3, a4, a5⟩ := h.stored m' x' hx
              have hlt : x' < (s.core.cnodes space).length := h.sound.bound _ _ _ _ hx
              refine ⟨a1, withCap_old s.core space conn (m ++ t_FaultEp) ep faultRights space x' _ a2, t', o', by simp [a3], ?_, ?_⟩
              · simp only; rw [if_neg (by rintro ⟨_, rfl⟩; omega)]; exact a4
              · simp only
                rw [if_neg]
                · exact a5
                · intro e2
                  have e3 := (huniq t' o' m' a3).mpr e2
                  subst e3
                  exact e rfl
          · intro t' o' m' hm hne
            simp only [true_and]
            by_cases e : capKey (m' ++ t_FaultEp) = capKey (m ++ t_FaultEp)
            · exact ⟨_, if_pos e⟩
            · rw [if_neg e]
              rcases List.mem_append.mp hm with hm | hm
              · exact h.did t' o' m' hm hne
              · simp only [List.mem_singleton, Prod.mk.injEq] at hm
                obtain ⟨_, _, rfl⟩ := hm
                exact absurd rfl e
          · intro o' ho
            simp only
            rw [if_neg]
            · exact h.rest o' (fun t' m' hm => ho t' m' (by simp [hm]))
            · rintro rfl
              exact hd (ho t m (by simp))
          · intro sp l' k hk
            simp only
            rw [if_neg (hk m)]
            exact h.keys sp l' k hk
        | some x =>
          obtain ⟨a1, a2, t1, o1, a3, a4, a5⟩ := h.stored m x hst
          rw [allocCap_old _ _ _ _ _ _ x ep hst a2]
          refine ⟨_, rfl, h.sound, h.objects, h.tcb, h.cnodes, ?_, ?_, ?_, ?_, h.keys⟩
          · intro sp i hi
            simp only
            rw [if_neg]
            · exact h.badge sp i hi
            · rintro ⟨rfl, rfl⟩; omega
          · intro m' x' hx
            simp only at hx
            by_cases e : m' = m
            · subst e
              rw [hst] at hx
              cases hx
              exact ⟨a1, a2, t, o, by simp, by simp, by simp⟩
            · obtain ⟨b1, b2, t', o', b3, b4, b5⟩ := h.stored m' x' hx
              refine ⟨b1, b2, t', o', by simp [b3], ?_, ?_⟩
              · simp only
                rw [if_neg]
                · exact b4
                · rintro ⟨_, rfl⟩
                  exact e (List.append_cancel_right (key_inj (h.sound.inj _ _ _ _ _ _ hx hst).2))
              · simp only
                rw [if_neg]
                · exact b5
                · intro e2; exact e ((huniq t' o' m' b3).mpr e2)
          · intro t' o' m' hm hne
            rcases List.mem_append.mp hm with hm | hm
            · exact h.did t' o' m' hm hne
            · simp only [List.mem_singleton, Prod.mk.injEq] at hm
              obtain ⟨_, _, rfl⟩ := hm
              exact ⟨x, hst⟩
          · intro o' ho
            simp only
            rw [if_neg]
            · exact h.rest o' (fun t' m' hm => ho t' m' (by simp [hm]))
            · rintro rfl
              exact hd (ho t m (by simp))
    obtain ⟨s1, e1, e2⟩ := hstep
    obtain ⟨s2, f1, f2⟩ := ih (done ++ [(t, o, m)]) s1 e2 (by simpa using hn)
    refine ⟨s2, by simp only [gdbLoop, e1]; exact f1, by simpa using f2⟩

/-- The loop over the threads that the handler of memory faults is for. -/
theorem memLoop_spec (space mem : Nat) : ∀ (l : List (Nat × Nat × Text)) (s : St),
    (l.foldl (memThread space mem) s).core = s.core ∧ (l.foldl (memThread space mem) s).tcb = s.tcb ∧
    (∀ o, (∃ t m, (t, o, m) ∈ l ∧ tDelegate <:+: m) → (l.foldl (memThread space mem) s).fault o = some mem) ∧
    (∀ o, (∀ t m, (t, o, m) ∈ l → ¬ tDelegate <:+: m) → (l.foldl (memThread space mem) s).fault o = s.fault o) ∧
    (∀ sp i, ¬ (sp = space ∧ i = mem) → (l.foldl (memThread space mem) s).badge sp i = s.badge sp i) ∧
    ((∃ t o m, (t, o, m) ∈ l ∧ tDelegate <:+: m) →
      ∃ t o m, (t, o, m) ∈ l ∧ tDelegate <:+: m ∧ (l.foldl (memThread space mem) s).badge space mem = some t) := by
  intro l
  induction l with
  | nil => intro s; exact ⟨rfl, rfl, by simp, by simp, by simp, by simp⟩
  | cons x l ih =>
    intro s
    obtain ⟨t, o, m⟩ := x
    obtain ⟨a1, a2, a3, a4, a5, a6⟩ := ih (memThread space mem s (t, o, m))
    simp only [List.foldl_cons]
    have hc : (memThread space mem s (t, o, m)).core = s.core ∧ (memThread space mem s (t, o, m)).tcb = s.tcb := by
      unfold memThread; split <;> exact ⟨rfl, rfl⟩
    have hrest : ∀ o', (∀ t' m', (t', o', m') ∈ l → ¬ tDelegate <:+: m') → (∃ t m, (t, o', m) ∈ l ∧ tDelegate <:+: m) ∨
        (List.foldl (memThread space mem) (memThread space mem s (t, o, m)) l).fault o' = (memThread space mem s (t, o, m)).fault o' :=
      fun o' h => .inr (a4 o' h)
    refine ⟨a1.trans hc.1, a2.trans hc.2, ?_, ?_, ?_, ?_⟩
    · rintro o' ⟨t', m', hm, hd⟩
      by_cases hl : ∃ t m, (t, o', m) ∈ l ∧ tDelegate <:+: m
      · exact a3 o' hl
      · rcases List.mem_cons.mp hm with e | hm
        · simp only [Prod.mk.injEq] at e
          obtain ⟨rfl, rfl, rfl⟩ := e
          rw [a4 o' (fun t m h hd => hl ⟨t, m, h, hd⟩)]
          simp [memThread, hd]
        · exact absurd ⟨t', m', hm, hd⟩ hl
    · intro o' ho
      rw [a4 o' (fun t' m' h => ho t' m' (by simp [h]))]
      unfold memThread
      split
      · rename_i hd
        simp only at hd ⊢
        rw [if_neg]
        rintro rfl
        exact ho t m (by simp) hd
      · rfl
    · intro sp i hi
      rw [a5 sp i hi]
      unfold memThread
      split
      · simp only; rw [if_neg hi]
      · rfl
    · rintro ⟨t', o', m', hm, hd⟩
      by_cases hl : ∃ t o m, (t, o, m) ∈ l ∧ tDelegate <:+: m
      · obtain ⟨t1, o1, m1, h1, h2, h3⟩ := a6 hl
        exact ⟨t1, o1, m1, by simp [h1], h2, h3⟩
      · rcases List.mem_cons.mp hm with e | hm
        · simp only [Prod.mk.injEq] at e
          obtain ⟨rfl, rfl, rfl⟩ := e
          refine ⟨t', o', m', by simp, hd, ?_⟩
          -- the rest of the loop changes no badge
          have hno : ∀ (l' : List (Nat × Nat × Text)) (s' : St), (∀ t o m, (t, o, m) ∈ l' → ¬ tDelegate <:+: m) →
              l'.foldl (memThread space mem) s' = s' := by
            intro l'
            induction l' with
            | nil => intro s' _; rfl
            | cons y l' ih' =>
              intro s' hy
              obtain ⟨t2, o2, m2⟩ := y
              simp only [List.foldl_cons]
              rw [ih' _ (fun t o m h => hy t o m (by simp [h]))]
              unfold memThread
              rw [if_neg (hy t2 o2 m2 (by simp))]
          rw [hno l _ (fun t o m h hd => hl ⟨t, o, m, h, hd⟩)]
          simp [memThread, hd]
        · exact absurd ⟨t', o', m', hm, hd⟩ hl

end Verif.FaultCaps
