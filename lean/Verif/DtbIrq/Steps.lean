import Verif.DtbIrq.Spec
import Mathlib.Algebra.Order.BigOperators.Group.Finset

/-! # Invariants of the thread of a device -/

namespace Verif.DtbIrq

theorem land_pow (b i : Nat) : (b &&& 2 ^ i ≠ 0) ↔ b.testBit i = true := by
  constructor
  · intro h
    by_contra hn
    apply h
    apply Nat.eq_of_testBit_eq
    intro j
    by_cases hij : i = j
    · subst hij; simpa using hn
    · simp [Nat.testBit_and, hij]
  · intro h h0
    have : (b &&& 2 ^ i).testBit i = true := by simp [Nat.testBit_and, h]
    rw [h0] at this
    simp at this

/-- The bit waits in the badge that the thread is looking through. -/
def inBadge (s : State) (i : Nat) : Bool :=
  match s.pc with
  | .wait => false
  | .scan k b => decide (k ≤ i) && b.testBit i

/-- What is always true of an interrupt while the handlers acknowledge before they return. -/
structure Inv (c : Cfg) (s : State) : Prop where
  small : ∀ i, c.n ≤ i → s.ntfn.testBit i = false
  on : ∀ i < c.n, s.enabled i = true → s.pending i = false ∧ s.ntfn.testBit i = false ∧ inBadge s i = false
  off : ∀ i < c.n, s.enabled i = false → s.ntfn.testBit i = !inBadge s i
  owed : s.owed = 0

theorem inv_initial (c : Cfg) : Inv c initial := by
  constructor <;> simp [initial, inBadge]

/-- The effect of the kernel. -/
theorem fire_cases (s : State) (i : Nat) :
    (s.pending i = true ∧ s.enabled i = true ∧ fire s i = { s with
      pending := Function.update s.pending i false
      enabled := Function.update s.enabled i false
      ntfn := s.ntfn ||| 2 ^ i }) ∨ ((s.pending i = false ∨ s.enabled i = false) ∧ fire s i = s) := by
  unfold fire
  cases hp : s.pending i <;> cases he : s.enabled i <;> simp

theorem find_num {c : Cfg} (hc : Served c) {i : Nat} (hi : i < c.n) :
    (List.range c.n).find? (fun j => c.num j = c.num i) = some i := by
  rw [List.find?_eq_some_iff_append]
  refine ⟨by simp, List.range i, (List.range' (i + 1) (c.n - (i + 1))), ?_, ?_⟩
  · have h : c.n = i + (1 + (c.n - (i + 1))) := by omega
    rw [List.range_eq_range', List.range_eq_range']
    conv_lhs => rw [h]
    rw [← List.range'_append_1, Nat.zero_add, ← List.range'_append_1]
    rfl
  · intro j hj
    simp at hj ⊢
    intro he
    have := hc.distinct j (by omega) i hi he
    omega

/-- Acknowledging with the number of an interrupt. -/
theorem acknowledge_eq {c : Cfg} (hc : Served c) {i : Nat} (hi : i < c.n) {s : State} (hs : s.slot = c.num i) :
    acknowledge c s = fire { s with enabled := Function.update s.enabled i true } i := by
  unfold acknowledge
  rw [hs, find_num hc hi]

/-- What a handler that acknowledges does to the interrupts. -/
theorem acknowledge_cases {c : Cfg} (hc : Served c) {i : Nat} (hi : i < c.n) {s : State} (hs : s.slot = c.num i) :
    (s.pending i = true ∧ acknowledge c s = { s with
      pending := Function.update s.pending i false
      enabled := Function.update s.enabled i false
      ntfn := s.ntfn ||| 2 ^ i }) ∨
    (s.pending i = false ∧ acknowledge c s = { s with enabled := Function.update s.enabled i true }) := by
  rw [acknowledge_eq hc hi hs]
  rcases fire_cases { s with enabled := Function.update s.enabled i true } i with ⟨h1, -, h3⟩ | ⟨h1, h3⟩
  · left
    refine ⟨h1, ?_⟩
    rw [h3]
    simp
  · right
    refine ⟨by simpa using h1, h3⟩

/-- The four kinds of steps of the thread when the handlers acknowledge. -/
inductive Kind (c : Cfg) (s : State) : State → List Event → Prop
  | idle : s.pc = .wait → s.ntfn = 0 → Kind c s s []
  | take : s.pc = .wait → s.ntfn ≠ 0 → Kind c s { s with pc := .scan 0 s.ntfn, ntfn := 0 } []
  | skip (i b) : s.pc = .scan i b → i < c.n → b.testBit i = false → Kind c s { s with pc := .scan (i + 1) b } []
  | done (i b) : s.pc = .scan i b → ¬ i < c.n → Kind c s { s with pc := .wait } []
  | again (i b) : s.pc = .scan i b → i < c.n → b.testBit i = true → s.pending i = true →
      Kind c s { s with
        pc := .scan (i + 1) b, slot := c.num i
        pending := Function.update s.pending i false
        enabled := Function.update s.enabled i false
        ntfn := s.ntfn ||| 2 ^ i } [want c i]
  | last (i b) : s.pc = .scan i b → i < c.n → b.testBit i = true → s.pending i = false →
      Kind c s { s with
        pc := .scan (i + 1) b, slot := c.num i
        enabled := Function.update s.enabled i true } [want c i]

theorem kind {c : Cfg} (hc : Served c) (s : State) :
    Kind c s (runStep c true s).1 (runStep c true s).2 := by
  unfold runStep
  cases hp : s.pc with
  | wait =>
    by_cases h0 : s.ntfn = 0
    · simp only [h0, ne_eq, not_true_eq_false, if_false]
      exact .idle hp h0
    · simp only [h0, ne_eq, not_false_eq_true, if_true]
      exact .take hp h0
  | scan i b =>
    by_cases hi : i < c.n
    · by_cases hb : b &&& 2 ^ i ≠ 0
      · have hb' := (land_pow b i).1 hb
        have key : ∀ e, e = want c i →
            Kind c s (acknowledge c { s with pc := .scan (i + 1) b, slot := c.num i }) [e] := by
          rintro e rfl
          rcases acknowledge_cases hc hi (s := { s with pc := .scan (i + 1) b, slot := c.num i }) rfl with
            ⟨h1, h2⟩ | ⟨h1, h2⟩
          · rw [h2]; exact .again i b hp hi hb' h1
          · rw [h2]; exact .last i b hp hi hb' h1
        rcases hc.one i hi with ⟨h1, h2⟩ | ⟨h1, h2⟩
        · simp only [hi, if_pos hb, h1, h2, if_true, Option.isSome_none, Bool.and_false, Bool.false_eq_true, if_false, called]
          exact key (.called i none (c.num i)) (by simp [want, h2])
        · cases hcb : c.cb i with
          | none => exact absurd hcb h2
          | some f =>
            simp only [hi, if_pos hb, h1, hcb, if_true, Bool.false_and, Bool.false_eq_true, if_false, called]
            exact key (.called i (some f) (c.num i)) (by simp [want, hcb])
      · have hb' : b.testBit i = false := by
          have := mt (land_pow b i).2 hb
          simpa using this
        simp only [hi, if_neg hb, if_true]
        exact .skip i b hp hi hb'
    · simp only [hi, if_false]
      exact .done i b hp hi

theorem Inv.kind {c : Cfg} {s s' : State} {es : List Event} (hv : Inv c s) (hk : Kind c s s' es) : Inv c s' := by
  obtain ⟨sm, on, off, ow⟩ := hv
  cases hk with
  | idle _ _ => exact ⟨sm, on, off, ow⟩
  | take hp h0 =>
    refine ⟨by simp, ?_, ?_, ow⟩
    · intro i hi he
      have := on i hi he
      simp [inBadge, this]
    · intro i hi he
      have := off i hi he
      simp [inBadge, hp] at this ⊢
      exact this
  | skip i b hp hi hb =>
    have same : ∀ j, inBadge { s with pc := .scan (i + 1) b } j = inBadge s j := by
      intro j
      simp only [inBadge, hp]
      by_cases hj : j = i
      · subst hj; simp [hb]
      · have : (i + 1 ≤ j) ↔ i ≤ j := by omega
        simp [this]
    exact ⟨sm, fun j hj he => by rw [same]; exact on j hj he, fun j hj he => by rw [same]; exact off j hj he, ow⟩
  | done i b hp hi =>
    have same : ∀ j < c.n, inBadge { s with pc := .wait } j = inBadge s j := by
      intro j hj
      simp only [inBadge, hp]
      have : ¬ i ≤ j := by omega
      simp [this]
    exact ⟨sm, fun j hj he => by rw [same j hj]; exact on j hj he,
      fun j hj he => by rw [same j hj]; exact off j hj he, ow⟩
  | again i b hp hi hb hpe =>
    have other : ∀ (t : State) j, t.pc = .scan (i + 1) b → j ≠ i → inBadge t j = inBadge s j := by
      intro t j ht hj
      simp only [inBadge, hp, ht]
      have : (i + 1 ≤ j) ↔ i ≤ j := by omega
      simp [this]
    refine ⟨?_, ?_, ?_, ow⟩
    · intro j hj
      have : i ≠ j := by omega
      simp [Nat.testBit_or, Nat.testBit_two_pow, this, sm j hj]
    · intro j hj he
      by_cases hji : j = i
      · subst hji; simp at he
      · simp [hji, Function.update_of_ne] at he
        rw [other _ j rfl hji]
        have := on j hj he
        simp [hji, Function.update_of_ne, Nat.testBit_or, Nat.testBit_two_pow, Ne.symm hji, this]
    · intro j hj he
      by_cases hji : j = i
      · subst hji; simp [inBadge, Nat.testBit_or, Nat.testBit_two_pow]
      · simp [hji, Function.update_of_ne] at he
        rw [other _ j rfl hji]
        have := off j hj he
        simp [Nat.testBit_or, Nat.testBit_two_pow, Ne.symm hji, this]
  | last i b hp hi hb hpe =>
    have other : ∀ (t : State) j, t.pc = .scan (i + 1) b → j ≠ i → inBadge t j = inBadge s j := by
      intro t j ht hj
      simp only [inBadge, hp, ht]
      have : (i + 1 ≤ j) ↔ i ≤ j := by omega
      simp [this]
    have hin : inBadge s i = true := by simp [inBadge, hp, hb]
    have hoff : s.enabled i = false := by
      cases he : s.enabled i with
      | false => rfl
      | true => have := (on i hi he).2.2; rw [hin] at this; cases this
    have hn : s.ntfn.testBit i = false := by rw [off i hi hoff, hin]; rfl
    refine ⟨sm, ?_, ?_, ow⟩
    · intro j hj he
      by_cases hji : j = i
      · subst hji; simp [inBadge, hpe, hn]
      · simp [hji, Function.update_of_ne] at he
        rw [other _ j rfl hji]
        exact on j hj he
    · intro j hj he
      by_cases hji : j = i
      · subst hji; simp at he
      · simp [hji, Function.update_of_ne] at he
        rw [other _ j rfl hji]
        exact off j hj he

/-- Raising an interrupt. -/
theorem raise_cases (c : Cfg) (s : State) {i : Nat} (hi : i < c.n) :
    (s.enabled i = true ∧ (step c s (.raise i)).1 = { s with
      pending := Function.update s.pending i false
      enabled := Function.update s.enabled i false
      ntfn := s.ntfn ||| 2 ^ i }) ∨
    (s.enabled i = false ∧ (step c s (.raise i)).1 = { s with pending := Function.update s.pending i true }) := by
  simp only [step, hi, if_true]
  rcases fire_cases { s with pending := Function.update s.pending i true } i with ⟨-, h1, h3⟩ | ⟨h1, h3⟩
  · left
    refine ⟨h1, ?_⟩
    rw [h3]
    simp
  · right
    refine ⟨by simpa using h1, h3⟩

theorem Inv.raise {c : Cfg} {s : State} (hv : Inv c s) {i : Nat} (hi : i < c.n) :
    Inv c (step c s (.raise i)).1 := by
  obtain ⟨sm, on, off, ow⟩ := hv
  have other : ∀ (e p : Nat → Bool) (n j : Nat),
      inBadge { s with enabled := e, pending := p, ntfn := n } j = inBadge s j := fun _ _ _ _ => rfl
  rcases raise_cases c s hi with ⟨h1, h2⟩ | ⟨h1, h2⟩ <;> rw [h2]
  · refine ⟨?_, ?_, ?_, ow⟩
    · intro j hj
      have : i ≠ j := by omega
      simp [Nat.testBit_or, Nat.testBit_two_pow, this, sm j hj]
    · intro j hj he
      by_cases hji : j = i
      · subst hji; simp at he
      · simp [hji, Function.update_of_ne] at he
        rw [other]
        have := on j hj he
        simp [hji, Function.update_of_ne, Nat.testBit_or, Nat.testBit_two_pow, Ne.symm hji, this]
    · intro j hj he
      rw [other]
      by_cases hji : j = i
      · subst hji; simp [Nat.testBit_or, Nat.testBit_two_pow, (on j hj h1).2.2]
      · simp [hji, Function.update_of_ne] at he
        have := off j hj he
        simp [Nat.testBit_or, Nat.testBit_two_pow, Ne.symm hji, this]
  · refine ⟨sm, ?_, ?_, ow⟩
    · intro j hj he
      rw [other]
      by_cases hji : j = i
      · subst hji; exact absurd (h1.symm.trans he) (by simp)
      · simpa [hji, Function.update_of_ne] using on j hj he
    · intro j hj he
      rw [other]
      exact off j hj he

theorem Inv.step {c : Cfg} (hc : Served c) {s : State} (hv : Inv c s) {x : Step} (hx : Prompt x) :
    Inv c (step c s x).1 := by
  cases x with
  | raise i =>
    by_cases hi : i < c.n
    · exact hv.raise hi
    · simpa [DtbIrq.step, hi] using hv
  | run now =>
    cases hx
    exact hv.kind (DtbIrq.kind hc s)
  | ack => simpa [DtbIrq.step, hv.owed] using hv

theorem Inv.run {c : Cfg} (hc : Served c) {xs : List Step} : ∀ {s : State}, Inv c s → (∀ x ∈ xs, Prompt x) →
    Inv c (run c s xs).1 := by
  induction xs with
  | nil => intro s hv _; exact hv
  | cons x xs ih =>
    intro s hv hx
    exact ih (hv.step hc (hx x (by simp))) (fun y hy => hx y (by simp [hy]))

end Verif.DtbIrq
