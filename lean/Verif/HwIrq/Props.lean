import Verif.HwIrq.Spec

/-!
# Theorems: the thread of a hardware interrupt (C79)
-/

namespace Verif.HwIrq

theorem run_append (h : Bool) (xs ys : List Step) (s : State) : run h s (xs ++ ys)
    = ((run h (run h s xs).1 ys).1, (run h s xs).2 ++ (run h (run h s xs).1 ys).2) := by
  induction xs generalizing s with
  | nil => simp [run]
  | cons x r ih => simp only [List.cons_append, run, ih, List.append_assoc]

/-- There is something that will lead to a signal, or to an acknowledgement. -/
def Token (s : State) : Prop := s.enabled = true ∨ s.ntfn = true ∨ s.pc ≠ .wait ∨ 0 < s.owed

/-- The invariant once a handler is there. -/
structure Inv (good : State → Prop) (s : State) : Prop where
  good : good s
  token : Token s
  kernel : s.pending = true → s.enabled = false
  alive : s.pc ≠ .dead

/-- The entry is filled in. -/
def Filled (f d : Nat) (s : State) : Prop := s.alloc = true ∧ s.fn = some f ∧ s.data = d ∧ s.drv = .idle

/-- `handle` is to be called. -/
def Bare (s : State) : Prop := s.alloc = false ∧ s.pc ≠ .calling ∧ s.drv = .idle

/-- Interrupts after which there was no call so far are still on their way. -/
def Way (s : State) : Prop := s.pending = true ∨ s.ntfn = true ∨ s.pc ≠ .wait

theorem followed_append_raised (e : Event) (es : List Event) : ¬ Followed e (es ++ [.raised]) := by
  intro h
  have := h es [] rfl
  cases this

theorem followed_append (e x : Event) (es : List Event) (hx : x ≠ .raised) (h : Followed e es) : Followed e (es ++ [x]) := by
  intro a b hab
  rcases List.append_eq_append_iff.1 hab with ⟨c, rfl, hc⟩ | ⟨c, rfl, hc⟩
  · cases c with
    | nil =>
      simp only [List.nil_append, List.cons.injEq] at hc
      exact absurd hc.1 hx
    | cons y c =>
      simp only [List.cons_append, List.cons.injEq] at hc
      have := hc.2
      cases c <;> cases this
  · cases c with
    | nil =>
      simp only [List.nil_append, List.cons.injEq] at hc
      exact absurd hc.1.symm hx
    | cons y c =>
      simp only [List.cons_append, List.cons.injEq] at hc
      obtain ⟨rfl, rfl⟩ := hc
      exact List.mem_append_left _ (h a c rfl)

theorem followed_same (e : Event) (es : List Event) (he : e ≠ .raised) : Followed e (es ++ [e]) := by
  intro a b hab
  rcases List.append_eq_append_iff.1 hab with ⟨c, rfl, hc⟩ | ⟨c, rfl, hc⟩
  · cases c with
    | nil =>
      simp only [List.nil_append, List.cons.injEq] at hc
      exact absurd hc.1 he
    | cons y c =>
      simp only [List.cons_append, List.cons.injEq] at hc
      have := hc.2
      cases c <;> cases this
  · cases c with
    | nil =>
      simp only [List.nil_append, List.cons.injEq] at hc
      exact absurd hc.1.symm he
    | cons y c =>
      simp only [List.cons_append, List.cons.injEq] at hc
      obtain ⟨rfl, rfl⟩ := hc
      simp

/-- One step, for either way of handling interrupts: it keeps the invariant; it makes no event, or raises, or handles. -/
theorem step_filled (f d : Nat) (s : State) (x : Step) (hi : Inv (Filled f d) s) (hx : Ordinary x) :
    Inv (Filled f d) (step false s x).1 ∧
    (((step false s x).2 = [] ∧ (Way s → Way (step false s x).1)) ∨
      ((step false s x).2 = [.raised] ∧ Way (step false s x).1) ∨ (step false s x).2 = [.called f d]) := by
  obtain ⟨⟨g1, g2, g3, g4⟩, ht, hk, ha⟩ := hi
  obtain ⟨en, pe, nt, al, fn, da, pc, dr, ow⟩ := s
  simp only at g1 g2 g3 g4 hk ha
  subst g1 g2 g3 g4
  simp only [Token] at ht
  cases x with
  | raise =>
    cases en <;> cases pe <;> simp_all [step, fire, Way] <;> (refine ⟨⟨rfl, rfl, rfl, rfl⟩, ?_, ?_, ?_⟩ <;> simp_all [Token])
  | run =>
    cases pc with
    | wait =>
      cases nt <;> simp_all [step, runStep, Way] <;> (refine ⟨⟨rfl, rfl, rfl, rfl⟩, ?_, ?_, ?_⟩ <;> simp_all [Token])
    | woken => simp_all [step, runStep, Way]; refine ⟨⟨rfl, rfl, rfl, rfl⟩, ?_, ?_, ?_⟩ <;> simp_all [Token]
    | calling => simp_all [step, runStep, Way]; refine ⟨⟨rfl, rfl, rfl, rfl⟩, ?_, ?_, ?_⟩ <;> simp_all [Token]
    | dead => exact absurd rfl ha
  | ack =>
    by_cases ho : ow = 0
    · subst ho
      simp_all [step, Way]
      refine ⟨⟨rfl, rfl, rfl, rfl⟩, ?_, ?_, ?_⟩ <;> simp_all [Token]
    · cases pe <;> simp_all [step, acknowledge, fire, Way] <;>
        (refine ⟨⟨rfl, rfl, rfl, rfl⟩, ?_, ?_, ?_⟩ <;> simp_all [Token])
  | register _ _ => cases hx
  | unregister => cases hx
  | drv => cases hx

theorem step_bare (s : State) (x : Step) (hi : Inv Bare s) (hx : Ordinary x) :
    Inv Bare (step true s x).1 ∧
    (((step true s x).2 = [] ∧ (Way s → Way (step true s x).1)) ∨
      ((step true s x).2 = [.raised] ∧ Way (step true s x).1) ∨ (step true s x).2 = [.handled]) := by
  obtain ⟨⟨g1, g2, g3⟩, ht, hk, ha⟩ := hi
  obtain ⟨en, pe, nt, al, fn, da, pc, dr, ow⟩ := s
  simp only at g1 g2 g3 hk ha
  subst g1 g3
  simp only [Token] at ht
  cases x with
  | raise =>
    cases en <;> cases pe <;> simp_all [step, fire, Way] <;> (refine ⟨⟨rfl, ?_, rfl⟩, ?_, ?_, ?_⟩ <;> simp_all [Token])
  | run =>
    cases pc with
    | wait =>
      cases nt <;> simp_all [step, runStep, Way] <;> (refine ⟨⟨rfl, ?_, rfl⟩, ?_, ?_, ?_⟩ <;> simp_all [Token])
    | woken => simp_all [step, runStep, Way]; refine ⟨⟨rfl, ?_, rfl⟩, ?_, ?_, ?_⟩ <;> simp_all [Token]
    | calling => exact absurd rfl g2
    | dead => exact absurd rfl ha
  | ack =>
    by_cases ho : ow = 0
    · subst ho
      simp_all [step, Way]
      refine ⟨⟨rfl, ?_, rfl⟩, ?_, ?_, ?_⟩ <;> simp_all [Token]
    · cases pe <;> simp_all [step, acknowledge, fire, Way] <;>
        (refine ⟨⟨rfl, ?_, rfl⟩, ?_, ?_, ?_⟩ <;> simp_all [Token])
  | register _ _ => cases hx
  | unregister => cases hx
  | drv => cases hx

/-- All steps. -/
theorem run_inv (h : Bool) (good : State → Prop) (e : Event) (he : e ≠ .raised)
    (hstep : ∀ s x, Inv good s → Ordinary x → Inv good (step h s x).1 ∧
      (((step h s x).2 = [] ∧ (Way s → Way (step h s x).1)) ∨ ((step h s x).2 = [.raised] ∧ Way (step h s x).1) ∨
        (step h s x).2 = [e])) :
    ∀ (xs : List Step) (s : State) (before : List Event), Inv good s → (∀ x ∈ xs, Ordinary x) →
      (¬ Followed e before → Way s) →
      Inv good (run h s xs).1 ∧ (∀ x ∈ (run h s xs).2, x = .raised ∨ x = e) ∧
        (¬ Followed e (before ++ (run h s xs).2) → Way (run h s xs).1) := by
  intro xs
  induction xs with
  | nil => intro s before hi _ hw; exact ⟨hi, by simp [run], by simpa [run] using hw⟩
  | cons x r ih =>
    intro s before hi hx hw
    obtain ⟨h1, h2⟩ := hstep s x hi (hx x List.mem_cons_self)
    have hwx : ¬ Followed e (before ++ (step h s x).2) → Way (step h s x).1 := by
      intro hn
      rcases h2 with ⟨h2, h3⟩ | ⟨h2, h3⟩ | h2
      · rw [h2, List.append_nil] at hn
        exact h3 (hw hn)
      · exact h3
      · rw [h2] at hn
        exact absurd (followed_same e before he) hn
    obtain ⟨k1, k2, k3⟩ := ih (step h s x).1 (before ++ (step h s x).2) h1
      (fun y hy => hx y (List.mem_cons_of_mem _ hy)) hwx
    refine ⟨k1, ?_, ?_⟩
    · intro y hy
      rw [run] at hy
      rcases List.mem_append.1 hy with hy | hy
      · rcases h2 with ⟨h2, _⟩ | ⟨h2, _⟩ | h2 <;> rw [h2] at hy
        · cases hy
        · exact .inl (List.mem_singleton.1 hy)
        · exact .inr (List.mem_singleton.1 hy)
      · exact k2 y hy
    · simpa [run, List.append_assoc] using k3

theorem quiet_followed (good : State → Prop) (s : State) (e : Event) (es : List Event) (hi : Inv good s)
    (hw : ¬ Followed e es → Way s) (hq : Quiet s) : Followed e es := by
  by_contra hn
  rcases hw hn with h | h | h
  · have := hi.kernel h
    rcases hi.token with h' | h' | h' | h'
    · rw [this] at h'; cases h'
    · rw [hq.2.1] at h'; cases h'
    · exact h' hq.1
    · rw [hq.2.2] at h'; omega
  · rw [hq.2.1] at h; cases h
  · exact h hq.1

/-- The kernel never leaves an interrupt pending that is not masked. -/
theorem kernel_inv (h : Bool) : ∀ (xs : List Step) (s : State), (s.pending = true → s.enabled = false) →
    ((run h s xs).1.pending = true → (run h s xs).1.enabled = false) := by
  intro xs
  induction xs with
  | nil => intro s hs; exact hs
  | cons x r ih =>
    intro s hs
    rw [run]
    refine ih _ ?_
    obtain ⟨en, pe, nt, al, fn, da, pc, dr, ow⟩ := s
    simp only at hs
    cases x with
    | raise => cases en <;> cases pe <;> simp_all [step, fire]
    | run =>
      cases pc with
      | wait => cases nt <;> simpa [step, runStep] using hs
      | woken => cases h <;> cases al <;> simpa [step, runStep] using hs
      | calling => cases fn <;> simpa [step, runStep] using hs
      | dead => simpa [step, runStep] using hs
    | ack =>
      by_cases ho : ow = 0
      · simpa [step, ho] using hs
      · cases pe <;> simp [step, ho, acknowledge, fire]
    | register f d =>
      by_cases hc : dr = .idle ∧ al = false
      · cases pe <;> simp [step, hc, acknowledge, fire]
      · simpa [step, hc] using hs
    | unregister =>
      by_cases hc : dr = .idle ∧ al = true
      · cases pe <;> simp [step, hc, acknowledge, fire]
      · simpa [step, hc] using hs
    | drv => cases dr <;> simpa [step, drvStep] using hs

/-- A component without `handle`, whose callback was registered without an interrupt in between: from then on, whatever
happens, interrupts lead to calls of the callback with its data and to nothing else; when all is done, there was such a call
after every interrupt. Missing: interrupts during registration, see `registration_lost`, `registration_null`,
`registration_stale`. -/
theorem delivered_partial (pre steps : List Step) (f d : Nat) (hidle : (run false initial pre).1.drv = .idle)
    (hfree : (run false initial pre).1.alloc = false) (halive : (run false initial pre).1.pc ≠ .dead)
    (hsteps : ∀ x ∈ steps, Ordinary x) :
    let s := (run false (run false initial pre).1 (registration f d)).1
    (∀ e ∈ (run false s steps).2, e = .raised ∨ e = .called f d) ∧
      (Quiet (run false s steps).1 → Followed (.called f d) (run false s steps).2) := by
  intro s
  have hk := kernel_inv false pre initial (by simp [initial])
  have hi : Inv (Filled f d) s := by
    revert hk
    show _ → Inv (Filled f d) (run false (run false initial pre).1 (registration f d)).1
    generalize (run false initial pre).1 = s0 at hidle hfree halive ⊢
    intro hk
    obtain ⟨en, pe, nt, al, fn, da, pc, dr, ow⟩ := s0
    simp only at hidle hfree halive hk
    subst hidle hfree
    cases pe <;> (simp [registration, run, step, drvStep, acknowledge, fire];
                  refine ⟨⟨rfl, rfl, rfl, rfl⟩, ?_, ?_, ?_⟩ <;> simp_all [Token])
  obtain ⟨h1, h2, h3⟩ := run_inv false (Filled f d) (.called f d) (by simp) (fun s x => step_filled f d s x) steps s [] hi
    hsteps (by intro hn; exact absurd (by intro a b h; cases a <;> cases h) hn)
  exact ⟨h2, fun hq => quiet_followed _ _ _ _ h1 (by simpa using h3) hq⟩

/-- A component with `handle` that registers nothing: every interrupt leads to a call of it. -/
theorem handle_delivered (steps : List Step) (hsteps : ∀ x ∈ steps, Ordinary x) :
    (∀ e ∈ (run true initial steps).2, e = .raised ∨ e = .handled) ∧
      (Quiet (run true initial steps).1 → Followed .handled (run true initial steps).2) := by
  have hi : Inv Bare initial := ⟨⟨rfl, by simp [initial], rfl⟩, .inl rfl, by simp [initial], by simp [initial]⟩
  obtain ⟨h1, h2, h3⟩ := run_inv true Bare .handled (by simp) step_bare steps initial [] hi hsteps
    (by intro hn; exact absurd (by intro a b h; cases a <;> cases h) hn)
  exact ⟨h2, fun hq => quiet_followed _ _ _ _ h1 (by simpa using h3) hq⟩

/-- If something is left to do, it can be done: the thread makes a step, or a handler acknowledges. -/
theorem not_stuck (h : Bool) (s : State) (halive : s.pc ≠ .dead) (hq : ¬ Quiet s) :
    (step h s .run).1 ≠ s ∨ (step h s .ack).1 ≠ s := by
  obtain ⟨en, pe, nt, al, fn, da, pc, dr, ow⟩ := s
  cases pc with
  | wait =>
    cases nt with
    | true => left; simp [step, runStep]
    | false =>
      right
      have ho : ow ≠ 0 := by
        intro ho
        exact hq ⟨rfl, rfl, ho⟩
      cases pe <;> simp [step, ho, acknowledge, fire] <;> omega
  | woken => left; cases h <;> cases al <;> simp [step, runStep]
  | calling => left; cases fn <;> simp [step, runStep]
  | dead => exact absurd rfl halive

/-- Nothing happens any more. -/
theorem lost_forever (h : Bool) : ∀ (xs : List Step) (s : State), s.enabled = false → s.ntfn = false → s.pc = .wait →
    s.owed = 0 → (∀ x ∈ xs, Ordinary x) → ∀ e ∈ (run h s xs).2, e = .raised := by
  intro xs
  induction xs with
  | nil => intro s _ _ _ _ _ e he; cases he
  | cons x r ih =>
    intro s h1 h2 h3 h4 hx e he
    rw [run] at he
    have hr := fun y hy => hx y (List.mem_cons_of_mem _ hy)
    have hx0 := hx x List.mem_cons_self
    obtain ⟨en, pe, nt, al, fn, da, pc, dr, ow⟩ := s
    simp only at h1 h2 h3 h4
    subst h1 h2 h3 h4
    cases x with
    | raise =>
      simp only [step, fire, Bool.and_false, Bool.false_eq_true, if_false] at he
      rcases List.mem_append.1 he with he | he
      · exact List.mem_singleton.1 he
      · exact ih _ rfl rfl rfl rfl hr e he
    | run =>
      simp only [step, runStep, Bool.false_eq_true, if_false, List.nil_append] at he
      exact ih _ rfl rfl rfl rfl hr e he
    | ack =>
      simp only [step, if_true, List.nil_append] at he
      exact ih _ rfl rfl rfl rfl hr e he
    | register _ _ => cases hx0
    | unregister => cases hx0
    | drv => cases hx0

/-- **Disagreement with C79.** If the interrupt comes after the acknowledgement in the registration and the thread sees it before
the entry is filled in, it is ignored and stays masked: the callback is registered and never called. -/
theorem registration_lost (f d : Nat) :
    ∃ during : List Step, ∀ steps : List Step, (∀ x ∈ steps, Ordinary x) →
      (run false initial during).1.alloc = true ∧ (run false initial during).1.fn = some f ∧
      (run false initial during).1.data = d ∧ (run false initial during).1.drv = .idle ∧
      ∀ e ∈ (run false (run false initial during).1 steps).2, e = .raised := by
  refine ⟨[.register f d, .raise, .run, .run, .drv, .drv, .drv], ?_⟩
  intro steps hs
  refine ⟨rfl, rfl, rfl, rfl, ?_⟩
  exact lost_forever false steps _ rfl rfl rfl rfl hs

/-- **Disagreement with C79.** An interrupt after the flag was set and before the function was calls a null pointer. -/
theorem registration_null (f d : Nat) :
    (run false initial [.register f d, .drv, .raise, .run, .run, .run]).2 = [.raised, .null] := rfl

/-- **Disagreement with C79.** An interrupt before the data was set calls the function with a null pointer instead. -/
theorem registration_stale (f d : Nat) :
    (run false initial [.register f d, .drv, .drv, .raise, .run, .run, .run]).2 = [.raised, .called f 0] := rfl

/-- **Disagreement with C79.** An interrupt while the callback is taken away calls a null pointer. -/
theorem unregistration_null (f d : Nat) :
    (run false initial (registration f d ++ [.raise, .run, .run, .unregister, .drv, .drv, .run])).2 = [.raised, .null] := rfl

/-- An interrupt is ignored if no callback was ever registered and there is no `handle`, and is then not enabled again: there
is one event for it only. A later registration enables it again (`delivered_partial`). -/
theorem ignored_once (steps : List Step) (hs : ∀ x ∈ steps, Ordinary x) :
    (run false initial ([.raise, .run, .run] ++ steps)).2 = [.raised, .ignored] ++ (run false (run false initial
      [.raise, .run, .run]).1 steps).2 ∧
    ∀ e ∈ (run false (run false initial [.raise, .run, .run]).1 steps).2, e = .raised := by
  refine ⟨by rw [run_append]; rfl, lost_forever false steps _ rfl rfl rfl rfl hs⟩

/-- A component that has `handle` and registers a callback: neither is called for the next interrupt, which stays masked. -/
theorem both_conflict (f d : Nat) (steps : List Step) (hs : ∀ x ∈ steps, Ordinary x) :
    (run true initial (registration f d ++ [.raise, .run, .run])).2 = [.raised, .conflict] ∧
    ∀ e ∈ (run true (run true initial (registration f d ++ [.raise, .run, .run])).1 steps).2, e = .raised :=
  ⟨rfl, lost_forever true steps _ rfl rfl rfl rfl hs⟩

/-- **C79.** After a callback was taken away without an interrupt in between, no callback is called until one is registered
again. -/
theorem unregistered_silent (h : Bool) (pre steps : List Step) (hidle : (run h initial pre).1.drv = .idle)
    (ha : (run h initial pre).1.alloc = true) (hpc : (run h initial pre).1.pc ≠ .calling)
    (hs : ∀ f d, .register f d ∉ steps) :
    let s := (run h (run h initial pre).1 [.unregister, .drv, .drv, .drv]).1
    .null ∉ (run h s steps).2 ∧ ∀ f d, .called f d ∉ (run h s steps).2 := by
  have key : ∀ (steps : List Step) (s : State), (∀ f d, .register f d ∉ steps) → s.alloc = false → s.drv = .idle →
      s.pc ≠ .calling → .null ∉ (run h s steps).2 ∧ ∀ f d, .called f d ∉ (run h s steps).2 := by
    intro steps
    induction steps with
    | nil => intro s _ _ _ _; simp [run]
    | cons x xs ih =>
      intro s hx hal hd hp
      have hx' : ∀ f d, .register f d ∉ xs := fun f d hm => hx f d (by simp [hm])
      obtain ⟨en, pe, nt, al, fn, da, pc, dr, ow⟩ := s
      simp only at hal hd hp
      subst hal hd
      have hst : (step h ⟨en, pe, nt, false, fn, da, pc, .idle, ow⟩ x).1.alloc = false ∧
          (step h ⟨en, pe, nt, false, fn, da, pc, .idle, ow⟩ x).1.drv = .idle ∧
          (step h ⟨en, pe, nt, false, fn, da, pc, .idle, ow⟩ x).1.pc ≠ .calling ∧
          .null ∉ (step h ⟨en, pe, nt, false, fn, da, pc, .idle, ow⟩ x).2 ∧
          ∀ f d, .called f d ∉ (step h ⟨en, pe, nt, false, fn, da, pc, .idle, ow⟩ x).2 := by
        cases x with
        | raise => cases en <;> simpa [step, fire] using hp
        | run => cases pc <;> cases nt <;> cases h <;> simp_all [step, runStep]
        | ack =>
          by_cases ho : ow = 0
          · simpa [step, ho] using hp
          · cases pe <;> simpa [step, ho, acknowledge, fire] using hp
        | register f d => exact absurd (by simp) (hx f d)
        | unregister => simpa [step] using hp
        | drv => simpa [step, drvStep] using hp
      obtain ⟨h1, h2, h3, h4, h5⟩ := hst
      have := ih _ hx' h1 h2 h3
      simp only [run, List.mem_append, not_or]
      exact ⟨⟨h4, this.1⟩, fun f d => ⟨h5 f d, this.2 f d⟩⟩
  have gen : ∀ s0 : State, s0.drv = .idle → s0.alloc = true → s0.pc ≠ .calling →
      (run h s0 [.unregister, .drv, .drv, .drv]).1.alloc = false ∧ (run h s0 [.unregister, .drv, .drv, .drv]).1.drv = .idle ∧
      (run h s0 [.unregister, .drv, .drv, .drv]).1.pc ≠ .calling := by
    rintro ⟨en, pe, nt, al, fn, da, pc, dr, ow⟩ hd ha hp
    simp only at hd ha hp
    subst hd ha
    cases pe <;> simp [run, step, drvStep, acknowledge, fire, hp]
  obtain ⟨h1, h2, h3⟩ := gen _ hidle ha hpc
  exact key steps _ hs h1 h2 h3

/-- A callback that was registered, called and taken away. -/
example : (run false initial (registration 7 8 ++ [.raise, .run, .run, .run, .ack, .unregister, .drv, .drv, .drv, .raise, .run,
    .run])).2 = [.raised, .called 7 8, .raised, .ignored] := rfl

/-- The hypotheses of `delivered_partial` can be met, after an interrupt that was ignored and a registration that was undone. -/
example : let pre : List Step := [.raise, .run, .run, .register 3 4, .drv, .drv, .drv, .raise, .run, .run, .run, .ack,
      .unregister, .drv, .drv, .drv]
    (run false initial pre).1.drv = .idle ∧ (run false initial pre).1.alloc = false ∧
    (run false initial pre).1.pc ≠ .dead ∧ (run false initial pre).2 = [.raised, .ignored, .raised, .called 3 4] := by decide

/-- Three interrupts, of which two come while it is masked. -/
example : (run false initial (registration 7 8 ++ [.raise, .raise, .run, .run, .run, .raise, .ack, .run, .run, .run, .ack])).2
    = [.raised, .raised, .called 7 8, .raised, .called 7 8] ∧
    Quiet (run false initial (registration 7 8 ++ [.raise, .raise, .run, .run, .run, .raise, .ack, .run, .run, .run,
      .ack])).1 := by
  refine ⟨rfl, rfl, rfl, rfl⟩

end Verif.HwIrq
