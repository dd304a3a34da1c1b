import Verif.ClientLock.Spec
import Mathlib.Tactic.ByContra

namespace Verif.ClientLock

/-- The invariant: at most one thread is inside, and only if the lock is taken; the buffer is what it
should be. -/
structure Inv (f : Nat → Nat) (st : St) (es : List Event) : Prop where
  right : Right f es
  one : ∀ t u, Busy st t → Busy st u → t = u
  sem_le : st.sem ≤ 1
  free : 0 < st.sem → ∀ t, st.pc t = .idle
  pend : ∀ t, (match st.pc t with | .idle => pending t es = none | .sending v => pending t es = some v | .calling v => pending t es = some v | .reading v => pending t es = some v)
  req : ∀ t v, st.pc t = .calling v → st.buf = .request v
  rep : ∀ t v, st.pc t = .reading v → st.buf = .reply (f v)

theorem setPc_same (st : St) (t : Nat) (p : Pc) : (setPc st t p).pc t = p := by simp [setPc]

theorem setPc_other (st : St) {t u : Nat} (p : Pc) (h : u ≠ t) : (setPc st t p).pc u = st.pc u := by simp [setPc, h]

theorem inv_others {f : Nat → Nat} {st : St} {es : List Event} (h : Inv f st es) {t : Nat} (hb : Busy st t) : ∀ u, u ≠ t → st.pc u = .idle := by
  intro u hu
  by_contra hne
  exact hu (h.one u t hne hb)

theorem inv_sem_zero {f : Nat → Nat} {st : St} {es : List Event} (h : Inv f st es) {t : Nat} (hb : Busy st t) : st.sem = 0 := by
  by_contra hne
  exact hb (h.free (by omega) t)

theorem step_inv {f : Nat → Nat} {st st' : St} {es es' : List Event} (h : Inv f st es) (hs : Step f st es st' es') : Inv f st' es' := by
  cases hs with
  | begin t v h1 h2 =>
    have hall := h.free h2
    have hsem := h.sem_le
    refine ⟨h.right, ?_, by simp only [setPc]; omega, ?_, ?_, ?_, ?_⟩
    · intro a b ha hb
      have key : ∀ a, Busy (setPc { st with sem := st.sem - 1 } t (.sending v)) a → a = t := by
        intro a ha
        by_contra hne
        exact ha ((setPc_other _ _ hne).trans (hall a))
      rw [key a ha, key b hb]
    · intro hp; simp only [setPc] at hp; omega
    · intro u
      by_cases hu : u = t
      · subst hu; rw [setPc_same]; simp [pending]
      · rw [setPc_other _ _ hu, hall u]
        have := h.pend u
        rw [hall u] at this
        simpa [pending, Ne.symm hu] using this
    · intro u w hu
      by_cases hut : u = t
      · subst hut; rw [setPc_same] at hu; cases hu
      · rw [setPc_other _ _ hut] at hu; exact h.req u w hu
    · intro u w hu
      by_cases hut : u = t
      · subst hut; rw [setPc_same] at hu; cases hu
      · rw [setPc_other _ _ hut] at hu; exact h.rep u w hu
  | marshal t v h1 =>
    have hb : Busy st t := by simp [Busy, h1]
    have hoth := inv_others h hb
    have hz := inv_sem_zero h hb
    refine ⟨h.right, ?_, h.sem_le, ?_, ?_, ?_, ?_⟩
    · intro a b ha hb
      have key : ∀ a, Busy (setPc { st with buf := .request v } t (.calling v)) a → a = t := by
        intro a ha
        by_contra hne
        exact ha ((setPc_other _ _ hne).trans (hoth a hne))
      rw [key a ha, key b hb]
    · intro hp; simp only [setPc] at hp; omega
    · intro u
      by_cases hu : u = t
      · subst hu; rw [setPc_same]
        have := h.pend u
        rw [h1] at this
        exact this
      · rw [setPc_other _ _ hu]; exact h.pend u
    · intro u w hu
      by_cases hut : u = t
      · subst hut; rw [setPc_same] at hu; cases hu; rfl
      · rw [setPc_other _ _ hut] at hu
        rw [hoth u hut] at hu; cases hu
    · intro u w hu
      by_cases hut : u = t
      · subst hut; rw [setPc_same] at hu; cases hu
      · rw [setPc_other _ _ hut] at hu
        rw [hoth u hut] at hu; cases hu
  | marshalError t v h1 =>
    have hb : Busy st t := by simp [Busy, h1]
    have hoth := inv_others h hb
    have hz := inv_sem_zero h hb
    have hidle : ∀ a, (setPc st t .idle).pc a = .idle := by
      intro a
      by_cases ha : a = t
      · subst ha; exact setPc_same _ _ _
      · rw [setPc_other _ _ ha]; exact hoth a ha
    refine ⟨h.right, fun a b ha _ => absurd (hidle a) ha, h.sem_le, fun _ => hidle, ?_, ?_, ?_⟩
    · intro u
      rw [hidle u]
      by_cases hu : u = t
      · subst hu; simp [pending]
      · have := h.pend u
        rw [hoth u hu] at this
        simpa [pending, Ne.symm hu] using this
    · intro u w hu; rw [hidle u] at hu; cases hu
    · intro u w hu; rw [hidle u] at hu; cases hu
  | serve t v h1 =>
    have hb : Busy st t := by simp [Busy, h1]
    have hoth := inv_others h hb
    have hz := inv_sem_zero h hb
    refine ⟨h.right, ?_, h.sem_le, ?_, ?_, ?_, ?_⟩
    · intro a b ha hb
      have key : ∀ a, Busy (setPc { st with buf := ClientLock.serve f st.buf } t (.reading v)) a → a = t := by
        intro a ha
        by_contra hne
        exact ha ((setPc_other _ _ hne).trans (hoth a hne))
      rw [key a ha, key b hb]
    · intro hp; simp only [setPc] at hp; omega
    · intro u
      by_cases hu : u = t
      · subst hu; rw [setPc_same]
        have := h.pend u
        rw [h1] at this
        exact this
      · rw [setPc_other _ _ hu]; exact h.pend u
    · intro u w hu
      by_cases hut : u = t
      · subst hut; rw [setPc_same] at hu; cases hu
      · rw [setPc_other _ _ hut] at hu
        rw [hoth u hut] at hu; cases hu
    · intro u w hu
      by_cases hut : u = t
      · subst hut; rw [setPc_same] at hu; cases hu
        simp only [setPc]
        rw [h.req u _ h1]; rfl
      · rw [setPc_other _ _ hut] at hu
        rw [hoth u hut] at hu; cases hu
  | finish t v r h1 h2 =>
    have hb : Busy st t := by simp [Busy, h1]
    have hoth := inv_others h hb
    have hz := inv_sem_zero h hb
    have hidle : ∀ a, (setPc { st with sem := st.sem + 1 } t .idle).pc a = .idle := by
      intro a
      by_cases ha : a = t
      · subst ha; exact setPc_same _ _ _
      · rw [setPc_other _ _ ha]; exact hoth a ha
    have hp := h.pend t
    rw [h1] at hp
    have hr := h.rep t v h1
    rw [h2] at hr
    cases hr
    refine ⟨⟨⟨v, hp, rfl⟩, h.right⟩, fun a b ha _ => absurd (hidle a) ha, by simp only [setPc]; omega, fun _ => hidle, ?_, ?_, ?_⟩
    · intro u
      rw [hidle u]
      by_cases hu : u = t
      · subst hu; simp [pending]
      · have := h.pend u
        rw [hoth u hu] at this
        simpa [pending, Ne.symm hu] using this
    · intro u w hu; rw [hidle u] at hu; cases hu
    · intro u w hu; rw [hidle u] at hu; cases hu
  | unmarshalError t v h1 =>
    have hb : Busy st t := by simp [Busy, h1]
    have hoth := inv_others h hb
    have hz := inv_sem_zero h hb
    have hidle : ∀ a, (setPc st t .idle).pc a = .idle := by
      intro a
      by_cases ha : a = t
      · subst ha; exact setPc_same _ _ _
      · rw [setPc_other _ _ ha]; exact hoth a ha
    refine ⟨h.right, fun a b ha _ => absurd (hidle a) ha, h.sem_le, fun _ => hidle, ?_, ?_, ?_⟩
    · intro u
      rw [hidle u]
      by_cases hu : u = t
      · subst hu; simp [pending]
      · have := h.pend u
        rw [hoth u hu] at this
        simpa [pending, Ne.symm hu] using this
    · intro u w hu; rw [hidle u] at hu; cases hu
    · intro u w hu; rw [hidle u] at hu; cases hu

theorem start_inv (f : Nat → Nat) : Inv f start [] :=
  ⟨trivial, fun _ _ h => absurd rfl h, Nat.le_refl _, fun _ _ => rfl, fun _ => rfl, fun _ _ h => (by cases h), fun _ _ h => (by cases h)⟩

theorem reach_inv {f : Nat → Nat} {st : St} {es : List Event} (h : Reach f start [] st es) : Inv f st es := by
  induction h with
  | refl => exact start_inv f
  | step _ hs ih => exact step_inv ih hs

/-- C58: in every interleaving of any number of threads, every call that returns without an error gives the
answer to its own parameters, and at most one thread uses the buffer. -/
theorem calls_right (f : Nat → Nat) (st : St) (es : List Event) (h : Reach f start [] st es) :
    Right f es ∧ ∀ t u, Busy st t → Busy st u → t = u :=
  ⟨(reach_inv h).right, (reach_inv h).one⟩

/-- C58 as long as no error was reported: another call can always be made. -/
theorem live_partial (f : Nat → Nat) (st : St) (es : List Event) (h : Reach f start [] st es) (hok : ∀ t, .failed t ∉ es) : Live st := by
  induction h with
  | refl => exact .inl (by simp [start])
  | @step st es st' es' hr hs ih =>
    cases hs with
    | begin t v h1 h2 => exact .inr ⟨t, by simp [Busy, setPc]⟩
    | marshal t v h1 => exact .inr ⟨t, by simp [Busy, setPc]⟩
    | serve t v h1 => exact .inr ⟨t, by simp [Busy, setPc]⟩
    | finish t v r h1 h2 => exact .inl (by simp [setPc])
    | marshalError t v h1 => exact absurd (List.mem_cons_self ..) (hok t)
    | unmarshalError t v h1 => exact absurd (List.mem_cons_self ..) (hok t)

/-- While it is live, the thread that uses the buffer can go on, or a new call can begin. -/
theorem live_steps (f : Nat → Nat) (st : St) (es : List Event) (h : Reach f start [] st es) (hl : Live st) (t : Nat) (ht : st.pc t = .idle) :
    (∃ st' v, Step f st es st' (.called t v :: es)) ∨ ∃ u st' es', Busy st u ∧ Step f st es st' es' := by
  rcases hl with hl | ⟨u, hu⟩
  · exact .inl ⟨_, 0, Step.begin st es t 0 ht hl⟩
  · refine .inr ⟨u, ?_⟩
    cases hp : st.pc u with
    | idle => exact absurd hp hu
    | sending v => exact ⟨_, _, hu, Step.marshal st es u v hp⟩
    | calling v => exact ⟨_, _, hu, Step.serve st es u v hp⟩
    | reading v => exact ⟨_, _, hu, Step.finish st es u v (f v) hp ((reach_inv h).rep u v hp)⟩

/-- C58 fails: after a call that failed, no call of any thread ever begins or returns again. -/
theorem failed_call_blocks_all (f : Nat → Nat) (st : St) (es : List Event) (t : Nat) (h : Reach f start [] st (.failed t :: es)) :
    ¬ Live st ∧ ∀ st' es', Reach f st (.failed t :: es) st' es' → st' = st ∧ es' = .failed t :: es := by
  have hinv := reach_inv h
  -- the last visible event is the failure: find the state right after it
  have hdead : st.sem = 0 ∧ ∀ u, st.pc u = .idle := by
    generalize hes : Event.failed t :: es = es1 at h
    clear hinv
    have key : ∀ st es1, Reach f start [] st es1 → (∃ t es, es1 = .failed t :: es) → st.sem = 0 ∧ ∀ u, st.pc u = .idle := by
      intro st es1 h
      induction h with
      | refl => rintro ⟨t, es, he⟩; cases he
      | @step st es1 st' es1' hr hs ih =>
        rintro ⟨t, es, he⟩
        have hinv := reach_inv hr
        cases hs with
        | begin t v h1 h2 => cases he
        | finish t v r h1 h2 => cases he
        | marshal t v h1 => have := (ih ⟨_, _, he⟩).2 t; rw [h1] at this; cases this
        | serve t v h1 => have := (ih ⟨_, _, he⟩).2 t; rw [h1] at this; cases this
        | marshalError t v h1 =>
          have hb : Busy st t := by simp [Busy, h1]
          have hz := inv_sem_zero hinv hb
          refine ⟨hz, fun u => ?_⟩
          by_cases hu : u = t
          · subst hu; exact setPc_same _ _ _
          · rw [setPc_other _ _ hu]; exact inv_others hinv hb u hu
        | unmarshalError t v h1 =>
          have hb : Busy st t := by simp [Busy, h1]
          have hz := inv_sem_zero hinv hb
          refine ⟨hz, fun u => ?_⟩
          by_cases hu : u = t
          · subst hu; exact setPc_same _ _ _
          · rw [setPc_other _ _ hu]; exact inv_others hinv hb u hu
    exact key st es1 h ⟨t, es, hes.symm⟩
  refine ⟨?_, ?_⟩
  · rintro (h1 | ⟨u, h1⟩)
    · omega
    · exact h1 (hdead.2 u)
  · intro st' es' hr
    induction hr with
    | refl => exact ⟨rfl, rfl⟩
    | step _ hs ih =>
      obtain ⟨rfl, rfl⟩ := ih
      cases hs with
      | begin t v h1 h2 => omega
      | marshal t v h1 => rw [hdead.2 t] at h1; cases h1
      | serve t v h1 => rw [hdead.2 t] at h1; cases h1
      | finish t v r h1 h2 => rw [hdead.2 t] at h1; cases h1
      | marshalError t v h1 => rw [hdead.2 t] at h1; cases h1
      | unmarshalError t v h1 => rw [hdead.2 t] at h1; cases h1

/-- Two threads call, one after the other, and both return. -/
example : ∃ st, Reach (· + 100) start [] st [.returned 7 102, .called 7 2, .returned 3 101, .called 3 1] ∧ Live st := by
  have h0 : Reach (· + 100) start [] start [] := .refl
  have h1 := Reach.step h0 (Step.begin _ _ 3 1 rfl (by decide))
  have h2 := Reach.step h1 (Step.marshal _ _ 3 1 rfl)
  have h3 := Reach.step h2 (Step.serve _ _ 3 1 rfl)
  have h4 := Reach.step h3 (Step.finish _ _ 3 1 101 rfl rfl)
  have h5 := Reach.step h4 (Step.begin _ _ 7 2 rfl (by decide))
  have h6 := Reach.step h5 (Step.marshal _ _ 7 2 rfl)
  have h7 := Reach.step h6 (Step.serve _ _ 7 2 rfl)
  have h8 := Reach.step h7 (Step.finish _ _ 7 2 102 rfl rfl)
  exact ⟨_, h8, .inl (by decide)⟩

/-- A call that fails is reachable. -/
example : ∃ st, Reach (· + 100) start [] st [.failed 3, .called 3 1] :=
  ⟨_, Reach.step (Reach.step .refl (Step.begin _ _ 3 1 rfl (by decide))) (Step.marshalError _ _ 3 1 rfl)⟩

end Verif.ClientLock
