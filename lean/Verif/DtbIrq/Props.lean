import Verif.DtbIrq.Steps

/-! # C122: the interrupts of a device of the device tree -/

namespace Verif.DtbIrq

/-! ## What is generated -/

theorem armLoop_length {vals : List Verif.Interrupts.Val} {skip : Nat} {is : List Nat}
    {r : List Verif.Interrupts.Irq} (h : Verif.Interrupts.armLoop vals skip is = .ok r) : r.length = is.length := by
  induction is generalizing r with
  | nil => simp [Verif.Interrupts.armLoop] at h; subst h; rfl
  | cons i is ih =>
    simp only [Verif.Interrupts.armLoop] at h
    split at h
    · cases h
    · split at h
      · cases h
      · rename_i r' hr
        cases h
        simp [ih hr]

theorem genLoop_length {vals : List Verif.Interrupts.Val} {cells : Nat} {is : List Nat}
    {r : List Verif.Interrupts.Irq} (h : Verif.Interrupts.genLoop vals cells is = .ok r) : r.length = is.length := by
  induction is generalizing r with
  | nil => simp [Verif.Interrupts.genLoop] at h; subst h; rfl
  | cons i is ih =>
    simp only [Verif.Interrupts.genLoop] at h
    split at h
    · cases h
    · split at h
      · cases h
      · rename_i r' hr
        cases h
        simp [ih hr]

theorem armParse_length {vals : List Verif.Interrupts.Val} {ext : Bool} {r : List Verif.Interrupts.Irq}
    (h : Verif.Interrupts.armParse vals ext 28 = .ok r) : r.length ≤ 28 := by
  unfold Verif.Interrupts.armParse at h
  generalize (if ext then vals.length / 4 else vals.length / 3) = n at h
  by_cases hn : (28 : Int) ≠ -1 ∧ (n : Int) > 28
  · simp [hn] at h
  · simp only [hn, if_false] at h
    have := armLoop_length h
    simp at this hn
    omega

theorem genParse_length {vals : List Verif.Interrupts.Val} {r : List Verif.Interrupts.Irq}
    (h : Verif.Interrupts.genParse vals 28 = .ok r) : r.length ≤ 28 := by
  unfold Verif.Interrupts.genParse at h
  generalize (if vals.length < 3 then 1 else 3) = cells at h
  by_cases h0 : vals.length % cells ≠ 0
  · simp [h0] at h
  · simp only [h0, if_false] at h
    by_cases hn : (28 : Int) ≠ -1 ∧ ((vals.length / cells : Nat) : Int) > 28
    · simp only [hn, and_self, if_true] at h
      simp at h
    · simp only [hn, if_false] at h
      have := genLoop_length h
      simp at this hn
      omega

theorem parse_length {node : Verif.Interrupts.Node} {arm : Bool} {r : List Verif.Interrupts.Irq}
    (h : Verif.Interrupts.parse node 28 arm = .ok r) : r.length ≤ 28 := by
  simp only [Verif.Interrupts.parse] at h
  split at h
  · split at h
    · exact armParse_length h
    · exact genParse_length h
  · split at h
    · cases h; simp
    · split at h
      · exact armParse_length h
      · split at h
        · exact genParse_length h
        · cases h; simp

theorem handlers_get {iface : String} {qs : List Verif.Interrupts.Irq} : ∀ {k : Nat} {hs : List Handler},
    handlers iface k qs = some hs → hs.length = qs.length ∧
      ∀ i (hi : i < hs.length) (hq : i < qs.length), qs[i].irq = .num hs[i].number ∧ hs[i].badge = 2 ^ (k + i) ∧
        hs[i].name = iface ++ "_irq_" ++ toString (k + i) := by
  induction qs with
  | nil => intro k hs h; simp [handlers] at h; subst h; simp
  | cons q qs ih =>
    intro k hs h
    simp only [handlers] at h
    split at h
    · rename_i n hn
      rw [Option.map_eq_some_iff] at h
      obtain ⟨r, hr, rfl⟩ := h
      obtain ⟨hl, hg⟩ := ih hr
      refine ⟨by simp [hl], ?_⟩
      intro i hi hq
      cases i with
      | zero => simp [hn]
      | succ i =>
        have := hg i (by simpa using hi) (by simpa using hq)
        rw [show k + 1 + i = k + (i + 1) by omega] at this
        simpa using this
    · cases h

/-- **C122.** Of the interrupts that the device tree gives the device, the i-th gets a handler for its own number,
with bit i as badge; all badges fit into the 28 bits that there are, and no number is there twice. -/
theorem generated {iface : String} {node : Verif.Interrupts.Node} {arm : Bool} {hs : List Handler}
    (h : generate iface node arm = some hs) :
    (∃ irqs, Verif.Interrupts.parse node 28 arm = .ok irqs ∧ irqs.map (·.irq) = hs.map (.num ·.number)) ∧
    (∀ i (hi : i < hs.length), hs[i].badge = 2 ^ i ∧ hs[i].badge < 2 ^ 28 ∧
      hs[i].name = iface ++ "_irq_" ++ toString i) ∧
    (hs.map (·.number)).Nodup := by
  simp only [generate] at h
  split at h
  · cases h
  · rename_i irqs hp
    split at h
    · cases h
    · rename_i hs' hh
      split at h
      · rename_i hn
        cases h
        obtain ⟨hl, hg⟩ := handlers_get hh
        refine ⟨⟨irqs, hp, ?_⟩, ?_, hn⟩
        · apply List.ext_getElem
          · simp [hl]
          · intro i h1 h2
            simp at h1 h2
            simpa using (hg i h2 h1).1
        · intro i hi
          have := hg i hi (by omega)
          have hb := this.2.1
          rw [Nat.zero_add] at hb this
          refine ⟨hb, ?_, this.2.2⟩
          rw [hb]
          have := parse_length hp
          exact Nat.pow_lt_pow_right (by omega) (by omega)
      · cases h

/-! ## Delivery -/

/-- The interrupts were answered, or are on their way. -/
def Answered (c : Cfg) (s : State) (es : List Event) : Prop :=
  ∀ i < c.n, Followed c i es ∨ s.enabled i = false

theorem followed_snoc {c : Cfg} {i : Nat} {es : List Event} {e : Event} (h : Followed c i es) (he : e ≠ .raised i) :
    Followed c i (es ++ [e]) := by
  intro a b hab
  rcases List.eq_nil_or_concat b with rfl | ⟨b', e', rfl⟩
  · have := congrArg List.getLast? hab
    simp at this
    exact absurd this he
  · have h1 : es ++ [e] = (a ++ .raised i :: b') ++ [e'] := by simp [hab]
    have h2 := List.append_inj' h1 rfl
    have := h a b' h2.1
    simp [this]

theorem followed_want {c : Cfg} {i : Nat} (es : List Event) : Followed c i (es ++ [want c i]) := by
  intro a b hab
  rcases List.eq_nil_or_concat b with rfl | ⟨b', e', rfl⟩
  · have := congrArg List.getLast? hab
    simp [want] at this
  · have h1 : es ++ [want c i] = (a ++ .raised i :: b') ++ [e'] := by simp [hab]
    have h2 := (List.append_inj' h1 rfl).2
    simp at h2
    simp [h2]

theorem Answered.step {c : Cfg} (hc : Served c) {s : State} {es : List Event} (ha : Answered c s es)
    (hv : Inv c s) {x : Step} (hx : Prompt x) : Answered c (step c s x).1 (es ++ (step c s x).2) := by
  cases x with
  | raise j =>
    by_cases hj : j < c.n
    · intro i hi
      have he : (DtbIrq.step c s (.raise j)).2 = [.raised j] := by simp [DtbIrq.step, hj]
      rw [he]
      rcases raise_cases c s hj with ⟨h1, h2⟩ | ⟨h1, h2⟩ <;> rw [h2]
      · by_cases hij : i = j
        · subst hij; right; simp
        · rcases ha i hi with h | h
          · left; exact followed_snoc h (by simp [Ne.symm hij])
          · right; simpa [hij, Function.update_of_ne] using h
      · by_cases hij : i = j
        · subst hij; right; exact h1
        · rcases ha i hi with h | h
          · left; exact followed_snoc h (by simp [Ne.symm hij])
          · right; exact h
    · simpa [DtbIrq.step, hj] using ha
  | run now =>
    cases hx
    have hk := kind hc s
    simp only [DtbIrq.step]
    generalize (runStep c true s).1 = s' at *
    generalize (runStep c true s).2 = es' at *
    cases hk with
    | idle _ _ => simpa using ha
    | take _ _ => simpa [Answered] using ha
    | skip _ _ _ _ _ => simpa [Answered] using ha
    | done _ _ _ _ => simpa [Answered] using ha
    | again j b hp hj hb hpe =>
      intro i hi
      by_cases hij : i = j
      · subst hij; left; exact followed_want es
      · rcases ha i hi with h | h
        · left; exact followed_snoc h (by simp [want])
        · right; simpa [hij, Function.update_of_ne] using h
    | last j b hp hj hb hpe =>
      intro i hi
      by_cases hij : i = j
      · subst hij; left; exact followed_want es
      · rcases ha i hi with h | h
        · left; exact followed_snoc h (by simp [want])
        · right; simpa [hij, Function.update_of_ne] using h
  | ack => simpa [DtbIrq.step, hv.owed] using ha

theorem Answered.run {c : Cfg} (hc : Served c) {xs : List Step} : ∀ {s : State} {es : List Event}, Answered c s es →
    Inv c s → (∀ x ∈ xs, Prompt x) → Answered c (run c s xs).1 (es ++ (run c s xs).2) := by
  induction xs with
  | nil => intro s es ha _ _; simpa [DtbIrq.run] using ha
  | cons x xs ih =>
    intro s es ha hv hx
    have h1 := ha.step hc hv (hx x (by simp))
    have h2 := ih h1 (hv.step hc (hx x (by simp))) (fun y hy => hx y (by simp [hy]))
    simpa [DtbIrq.run] using h2

/-- **C122 (first part).** While the handlers acknowledge before they return: whatever the order in which the
interrupts of the device are raised, and however many of them come at once or while others are handled, once the
thread waits with nothing to do, each time that an interrupt was raised has been followed by a call of the handler of this
interrupt, with the number of this interrupt. What is missing: handlers that acknowledge later (`deferred_lost`). -/
theorem delivered_partial {c : Cfg} (hc : Served c) {xs : List Step} (hx : ∀ x ∈ xs, Prompt x)
    (hq : Quiet (run c initial xs).1) : ∀ i < c.n, Followed c i (run c initial xs).2 := by
  intro i hi
  have ha := Answered.run hc (xs := xs) (s := initial) (es := [])
    (fun j _ => .inl (by intro a b h; simp at h)) (inv_initial c) hx
  have hv := Inv.run hc (inv_initial c) hx
  rcases ha i hi with h | h
  · simpa using h
  · have := hv.off i hi h
    rw [hq.2] at this
    simp [inBadge, hq.1] at this

/-- Calls, those on their way and those pending are not more than the times the interrupt was raised. -/
def Counted (c : Cfg) (s : State) (es : List Event) : Prop :=
  ∀ i < c.n, es.count (want c i) + (if s.enabled i then 0 else 1) + (if s.pending i then 1 else 0) ≤
    es.count (.raised i)

theorem want_inj {c : Cfg} {i j : Nat} : want c i = want c j ↔ i = j := by
  constructor
  · intro h; simp [want] at h; exact h.1
  · rintro rfl; rfl

theorem Counted.step {c : Cfg} (hc : Served c) {s : State} {es : List Event} (ha : Counted c s es)
    (hv : Inv c s) {x : Step} (hx : Prompt x) : Counted c (step c s x).1 (es ++ (step c s x).2) := by
  have hw : ∀ i j, want c i ≠ .raised j := by intro i j; simp [want]
  cases x with
  | raise j =>
    by_cases hj : j < c.n
    · intro i hi
      have he : (DtbIrq.step c s (.raise j)).2 = [.raised j] := by simp [DtbIrq.step, hj]
      rw [he]
      have hi' := ha i hi
      have hon := hv.on i hi
      rcases raise_cases c s hj with ⟨h1, h2⟩ | ⟨h1, h2⟩ <;> rw [h2] <;>
        simp only [List.count_append, List.count_singleton, beq_iff_eq, (hw i j).symm, if_false, Event.raised.injEq]
      · by_cases hij : i = j
        · subst hij
          simp [h1, (hon h1).1] at hi' ⊢
          omega
        · simp [hij, Function.update_of_ne, Ne.symm hij]
          omega
      · by_cases hij : i = j
        · subst hij
          simp [h1] at hi' ⊢
          omega
        · simp [hij, Function.update_of_ne, Ne.symm hij]
          omega
    · simpa [DtbIrq.step, hj] using ha
  | run now =>
    cases hx
    have hk := kind hc s
    simp only [DtbIrq.step]
    generalize (runStep c true s).1 = s' at *
    generalize (runStep c true s).2 = es' at *
    cases hk with
    | idle _ _ => simpa using ha
    | take _ _ => simpa [Counted] using ha
    | skip _ _ _ _ _ => simpa [Counted] using ha
    | done _ _ _ _ => simpa [Counted] using ha
    | again j b hp hj hb hpe =>
      intro i hi
      have hi' := ha i hi
      have hon := hv.on i hi
      simp only [List.count_append, List.count_singleton, beq_iff_eq, hw j i, if_false, want_inj]
      by_cases hij : i = j
      · subst hij
        have : s.enabled i = false := by
          cases he : s.enabled i with
          | false => rfl
          | true => rw [(hon he).1] at hpe; cases hpe
        simp [hpe, this] at hi' ⊢
        omega
      · simp [hij, Function.update_of_ne, Ne.symm hij]
        omega
    | last j b hp hj hb hpe =>
      intro i hi
      have hi' := ha i hi
      have hon := hv.on i hi
      simp only [List.count_append, List.count_singleton, beq_iff_eq, hw j i, if_false, want_inj]
      by_cases hij : i = j
      · subst hij
        have : s.enabled i = false := by
          cases he : s.enabled i with
          | false => rfl
          | true => have := (hon he).2.2; simp [inBadge, hp, hb] at this
        simp [hpe, this] at hi' ⊢
        omega
      · simp [hij, Function.update_of_ne, Ne.symm hij]
        omega
  | ack => simpa [DtbIrq.step, hv.owed] using ha

theorem Counted.run {c : Cfg} (hc : Served c) {xs : List Step} : ∀ {s : State} {es : List Event}, Counted c s es →
    Inv c s → (∀ x ∈ xs, Prompt x) → Counted c (run c s xs).1 (es ++ (run c s xs).2) := by
  induction xs with
  | nil => intro s es ha _ _; simpa [DtbIrq.run] using ha
  | cons x xs ih =>
    intro s es ha hv hx
    have h1 := ha.step hc hv (hx x (by simp))
    have h2 := ih h1 (hv.step hc (hx x (by simp))) (fun y hy => hx y (by simp [hy]))
    simpa [DtbIrq.run] using h2

/-- **C122 (second part).** While the handlers acknowledge before they return, no handler is called for nothing: an
interrupt is not handled more often than it was raised. -/
theorem not_too_often_partial {c : Cfg} (hc : Served c) {xs : List Step} (hx : ∀ x ∈ xs, Prompt x) :
    ∀ i < c.n, (run c initial xs).2.count (want c i) ≤ (run c initial xs).2.count (.raised i) := by
  intro i hi
  have ha := Counted.run hc (xs := xs) (s := initial) (es := []) (by intro j _; simp [initial]) (inv_initial c) hx
  have := ha i hi
  simp at this
  omega

/-- **C122.** Nothing else happens: no interrupt is ignored, there is no conflict, and no handler is called for
another interrupt, whenever the handlers acknowledge. -/
theorem only_wanted {c : Cfg} (hc : Served c) {xs : List Step} : ∀ {s : State} {e : Event}, e ∈ (run c s xs).2 →
    ∃ i < c.n, e = .raised i ∨ e = want c i := by
  induction xs with
  | nil => intro s e he; simp [run] at he
  | cons x xs ih =>
    intro s e he
    simp only [run, List.mem_append] at he
    rcases he with he | he
    · cases x with
      | raise j =>
        simp only [step] at he
        split at he
        · rename_i hj
          simp at he
          exact ⟨j, hj, .inl he⟩
        · simp at he
      | run now =>
        simp only [step, runStep] at he
        split at he
        · split at he <;> simp at he
        · split at he
          · rename_i i b _ hi
            split at he
            · rcases hc.one i hi with ⟨h1, h2⟩ | ⟨h1, h2⟩
              · simp [h1, h2] at he
                exact ⟨i, hi, .inr (by rw [he, want, h2])⟩
              · cases hcb : c.cb i with
                | none => exact absurd hcb h2
                | some f =>
                  simp [h1, hcb] at he
                  exact ⟨i, hi, .inr (by rw [he, want, hcb])⟩
            · simp at he
          · simp at he
      | ack =>
        simp only [step] at he
        split at he <;> simp at he
    · exact ih he

/-! ## The thread comes to rest -/

def weight (s : State) (i : Nat) : Nat :=
  2 * (s.ntfn.testBit i).toNat + (inBadge s i).toNat + 2 * (s.pending i).toNat

def phase (c : Cfg) (s : State) : Nat :=
  match s.pc with
  | .wait => 0
  | .scan k _ => c.n - k + 1

def measure (c : Cfg) (s : State) : Nat := (c.n + 3) * (∑ i ∈ Finset.range c.n, weight s i) + phase c s

theorem measure_lt {c : Cfg} {s s' : State} (h : ∀ i < c.n, weight s' i ≤ weight s i)
    (hl : ∃ i < c.n, weight s' i < weight s i) (hp : phase c s' ≤ c.n + 1) : measure c s' < measure c s := by
  have hs : (∑ i ∈ Finset.range c.n, weight s' i) < ∑ i ∈ Finset.range c.n, weight s i := by
    apply Finset.sum_lt_sum
    · intro i hi; exact h i (by simpa using hi)
    · obtain ⟨i, hi, hl⟩ := hl
      exact ⟨i, by simpa using hi, hl⟩
  unfold measure
  have := Nat.mul_le_mul_left (c.n + 3) hs
  rw [Nat.succ_eq_add_one, Nat.mul_add] at this
  omega

theorem kind_measure {c : Cfg} {s s' : State} {es : List Event} (hv : Inv c s) (hk : Kind c s s' es) :
    Quiet s ∨ measure c s' < measure c s := by
  cases hk with
  | idle hp h0 => exact .inl ⟨hp, h0⟩
  | take hp h0 =>
    right
    apply measure_lt
    · intro i hi
      simp only [weight, inBadge, hp]
      cases s.ntfn.testBit i <;> simp
    · obtain ⟨i, hi⟩ := Nat.exists_testBit_of_ne_zero h0
      refine ⟨i, ?_, ?_⟩
      · by_contra hn
        have := hv.small i (by omega)
        rw [hi] at this
        cases this
      · simp [weight, inBadge, hp, hi]
    · simp [phase]
  | skip i b hp hi hb =>
    right
    have : ∀ j, weight { s with pc := .scan (i + 1) b } j = weight s j := by
      intro j
      simp only [weight, inBadge, hp]
      by_cases hj : j = i
      · subst hj; simp [hb]
      · have : (i + 1 ≤ j) ↔ i ≤ j := by omega
        simp [this]
    have hs : (∑ j ∈ Finset.range c.n, weight { s with pc := .scan (i + 1) b } j) =
        ∑ j ∈ Finset.range c.n, weight s j := Finset.sum_congr rfl (fun j _ => this j)
    simp only [measure, hs, phase, hp]
    omega
  | done i b hp hi =>
    right
    have : ∀ j ∈ Finset.range c.n, weight { s with pc := .wait } j = weight s j := by
      intro j hj
      simp at hj
      simp only [weight, inBadge, hp]
      have : ¬ i ≤ j := by omega
      simp [this]
    have hs : (∑ j ∈ Finset.range c.n, weight { s with pc := .wait } j) =
        ∑ j ∈ Finset.range c.n, weight s j := Finset.sum_congr rfl this
    simp only [measure, hs, phase, hp]
    omega
  | again i b hp hi hb hpe =>
    right
    have hin : inBadge s i = true := by simp [inBadge, hp, hb]
    have hoff : s.enabled i = false := by
      cases he : s.enabled i with
      | false => rfl
      | true => have := (hv.on i hi he).2.2; rw [hin] at this; cases this
    have hn : s.ntfn.testBit i = false := by rw [hv.off i hi hoff, hin]; rfl
    apply measure_lt
    · intro j hj
      by_cases hji : j = i
      · subst hji; simp [weight, inBadge, hp, hb, hpe, hn, Nat.testBit_or, Nat.testBit_two_pow]
      · have : (i + 1 ≤ j) ↔ i ≤ j := by omega
        simp [weight, inBadge, hp, this, hji, Function.update_of_ne, Nat.testBit_or, Nat.testBit_two_pow, Ne.symm hji]
    · exact ⟨i, hi, by simp [weight, inBadge, hp, hb, hpe, hn, Nat.testBit_or, Nat.testBit_two_pow]⟩
    · simp [phase]
  | last i b hp hi hb hpe =>
    right
    apply measure_lt
    · intro j hj
      by_cases hji : j = i
      · subst hji; simp [weight, inBadge, hp, hb, hpe]
      · have : (i + 1 ≤ j) ↔ i ≤ j := by omega
        simp [weight, inBadge, hp, this]
    · exact ⟨i, hi, by simp [weight, inBadge, hp, hb, hpe]⟩
    · simp [phase]

theorem rest {c : Cfg} (hc : Served c) : ∀ (m : Nat) (s : State), Inv c s → measure c s ≤ m →
    ∃ k, Quiet (run c s (List.replicate k (.run true))).1 := by
  intro m
  induction m with
  | zero =>
    intro s hv hm
    rcases kind_measure hv (kind hc s) with h | h
    · exact ⟨0, h⟩
    · omega
  | succ m ih =>
    intro s hv hm
    rcases kind_measure hv (kind hc s) with h | h
    · exact ⟨0, h⟩
    · obtain ⟨k, hk⟩ := ih _ (hv.kind (kind hc s)) (by omega)
      exact ⟨k + 1, by simpa [List.replicate_succ, run, step] using hk⟩

theorem run_append {c : Cfg} {xs ys : List Step} : ∀ {s : State},
    run c s (xs ++ ys) = ((run c (run c s xs).1 ys).1, (run c s xs).2 ++ (run c (run c s xs).1 ys).2) := by
  induction xs with
  | nil => intro s; simp [run]
  | cons x xs ih => intro s; simp [run, ih]

/-- **C122.** After every schedule in which the handlers acknowledge before they return, the thread comes to rest once
the device is silent; by `delivered_partial` every interrupt has been handled then. -/
theorem comes_to_rest {c : Cfg} (hc : Served c) {xs : List Step} (hx : ∀ x ∈ xs, Prompt x) :
    ∃ k, Quiet (run c initial (xs ++ List.replicate k (.run true))).1 := by
  obtain ⟨k, hk⟩ := rest hc _ _ (Inv.run hc (inv_initial c) hx) (Nat.le_refl _)
  exact ⟨k, by rw [run_append]; exact hk⟩

/-- **C122.** Acknowledging with the number of an interrupt enables this interrupt, or signals it if it is pending,
and touches no other. -/
theorem ack_own {c : Cfg} (hc : Served c) {i : Nat} (hi : i < c.n) {s : State} (hs : s.slot = c.num i) :
    (∀ j, j ≠ i → (acknowledge c s).enabled j = s.enabled j ∧ (acknowledge c s).pending j = s.pending j ∧
      (acknowledge c s).ntfn.testBit j = s.ntfn.testBit j) ∧
    (s.pending i = false → (acknowledge c s).enabled i = true ∧ (acknowledge c s).ntfn = s.ntfn) ∧
    (s.pending i = true → (acknowledge c s).pending i = false ∧ (acknowledge c s).ntfn.testBit i = true) := by
  rcases acknowledge_cases hc hi hs with ⟨h1, h2⟩ | ⟨h1, h2⟩ <;> rw [h2]
  · refine ⟨?_, by simp [h1], ?_⟩
    · intro j hj
      simp [hj, Function.update_of_ne, Nat.testBit_or, Nat.testBit_two_pow, Ne.symm hj]
    · intro _
      simp [Nat.testBit_or, Nat.testBit_two_pow]
  · refine ⟨?_, by simp, by simp [h1]⟩
    intro j hj
    simp [hj, Function.update_of_ne]

/-! ## Handlers that acknowledge later -/

/-- An interrupt that nobody will acknowledge. -/
structure Lost (c : Cfg) (i : Nat) (s : State) : Prop where
  off : s.enabled i = false
  bit : s.ntfn.testBit i = false
  badge : inBadge s i = false
  slot : s.slot ≠ c.num i

theorem Lost.fire {c : Cfg} {i : Nat} {s : State} (h : Lost c i s) (j : Nat) : Lost c i (fire s j) := by
  rcases fire_cases s j with ⟨h1, h2, h3⟩ | ⟨-, h3⟩ <;> rw [h3]
  · have hij : i ≠ j := by rintro rfl; rw [h.off] at h2; cases h2
    exact ⟨by simpa [hij, Function.update_of_ne] using h.off,
      by simp [Nat.testBit_or, Nat.testBit_two_pow, Ne.symm hij, h.bit], h.badge, h.slot⟩
  · exact h

theorem Lost.acknowledge {c : Cfg} {i : Nat} {s : State} (h : Lost c i s) : Lost c i (acknowledge c s) := by
  unfold DtbIrq.acknowledge
  split
  · rename_i j hj
    have hn := List.find?_some hj
    simp at hn
    have hij : i ≠ j := by rintro rfl; exact h.slot hn.symm
    apply Lost.fire
    exact ⟨by simpa [hij, Function.update_of_ne] using h.off, h.bit, h.badge, h.slot⟩
  · exact h

theorem Lost.step {c : Cfg} (hc : Served c) {i : Nat} (hi : i < c.n) {s : State} (h : Lost c i s) (x : Step) :
    Lost c i (step c s x).1 ∧ want c i ∉ (step c s x).2 := by
  have hcalled : ∀ {t : State} (now : Bool), Lost c i t → Lost c i (called c now t) := by
    intro t now ht
    cases now with
    | true => exact ht.acknowledge
    | false => exact ⟨ht.off, ht.bit, ht.badge, ht.slot⟩
  cases x with
  | raise j =>
    simp only [DtbIrq.step]
    split
    · exact ⟨Lost.fire (s := { s with pending := Function.update s.pending j true }) ⟨h.off, h.bit, h.badge, h.slot⟩ j,
        by simp [want]⟩
    · exact ⟨h, by simp⟩
  | run now =>
    simp only [DtbIrq.step, runStep]
    split
    · rename_i hp
      split
      · exact ⟨⟨h.off, by simp, by simp [inBadge, h.bit], h.slot⟩, by simp⟩
      · exact ⟨h, by simp⟩
    · rename_i j b hp
      split
      · rename_i hj
        have hbad : (decide (j ≤ i) && b.testBit i) = false := by
          have := h.badge
          simpa [inBadge, hp] using this
        have hin : ∀ (sl : Int), inBadge { s with pc := .scan (j + 1) b, slot := sl } i = false := by
          intro sl
          simp only [inBadge]
          by_cases hb : b.testBit i = true
          · simp [hb] at hbad ⊢; omega
          · simp [hb]
        split
        · rename_i hb
          rw [land_pow] at hb
          have hij : i ≠ j := by
            rintro rfl
            simp [hb] at hbad
          have hl : Lost c i { s with pc := .scan (j + 1) b, slot := c.num j } :=
            ⟨h.off, h.bit, hin _, fun he => hij (hc.distinct i hi j hj he.symm)⟩
          have hne : ∀ f n, want c i ≠ .called j f n := by
            intro f n he
            simp [want] at he
            exact hij he.1
          split
          · exact ⟨hl, by simp [want]⟩
          · split
            · exact ⟨hcalled now hl, by simpa using hne none _⟩
            · split
              · rename_i f _
                exact ⟨hcalled now hl, by simpa using hne (some f) _⟩
              · exact ⟨hl, by simp [want]⟩
        · exact ⟨⟨h.off, h.bit, hin _, h.slot⟩, by simp⟩
      · exact ⟨⟨h.off, h.bit, rfl, h.slot⟩, by simp⟩
  | ack =>
    simp only [DtbIrq.step]
    split
    · exact ⟨h, by simp⟩
    · exact ⟨Lost.acknowledge (s := { s with owed := s.owed - 1 }) ⟨h.off, h.bit, h.badge, h.slot⟩, by simp⟩

theorem Lost.run {c : Cfg} (hc : Served c) {i : Nat} (hi : i < c.n) {xs : List Step} : ∀ {s : State}, Lost c i s →
    want c i ∉ (run c s xs).2 := by
  induction xs with
  | nil => intro s _; simp [DtbIrq.run]
  | cons x xs ih =>
    intro s h
    have h1 := h.step hc hi x
    simp only [DtbIrq.run, List.mem_append, not_or]
    exact ⟨h1.2, ih h1.1⟩

/-- A handler that does not acknowledge is called. -/
theorem run_false {c : Cfg} (hc : Served c) {s : State} {i b : Nat} (hp : s.pc = .scan i b) (hi : i < c.n)
    (hb : b.testBit i = true) :
    runStep c false s = ({ s with pc := .scan (i + 1) b, slot := c.num i, owed := s.owed + 1 }, [want c i]) := by
  have hb' := (land_pow b i).2 hb
  rcases hc.one i hi with ⟨h1, h2⟩ | ⟨h1, h2⟩
  · simp only [runStep, hp, if_pos hi, if_pos hb']
    simp [h1, h2, called, want]
  · cases hcb : c.cb i with
    | none => exact absurd hcb h2
    | some f =>
      simp only [runStep, hp, if_pos hi, if_pos hb']
      simp [h1, hcb, called, want]

/-- Two interrupts come, both handlers are called and return, and both acknowledge later. -/
def later : List Step := [.raise 0, .raise 1, .run false, .run false, .run false, .ack, .ack]

/-- **Disagreement with C122.** A handler is given a pointer to a variable of the loop, and the acknowledgement reads the
number from there. If two interrupts of a device come and both handlers acknowledge after they have returned, both
acknowledge the second interrupt: whatever happens afterwards, the first is never handled again. -/
theorem deferred_lost {c : Cfg} (hc : Served c) (h2 : 2 ≤ c.n) :
    (run c initial later).2 = [.raised 0, .raised 1, want c 0, want c 1] ∧ (run c initial later).1.owed = 0 ∧
    ∀ ys, want c 0 ∉ (run c (run c initial later).1 ys).2 := by
  have h0 : 0 < c.n := by omega
  have h1 : 1 < c.n := by omega
  have e1 : step c initial (.raise 0) =
      (⟨Function.update (fun _ => true) 0 false, fun _ => false, 1, .wait, 0, 0⟩, [.raised 0]) := by
    simp [step, h0, fire, initial]
  have e2 : step c ⟨Function.update (fun _ => true) 0 false, fun _ => false, 1, .wait, 0, 0⟩ (.raise 1) =
      (⟨Function.update (Function.update (fun _ => true) 0 false) 1 false, fun _ => false, 3, .wait, 0, 0⟩,
        [.raised 1]) := by
    simp [step, h1, fire]
  generalize hen : Function.update (Function.update (fun _ => true) 0 false) 1 false = en at e2
  have e3 : step c ⟨en, fun _ => false, 3, .wait, 0, 0⟩ (.run false) =
      (⟨en, fun _ => false, 0, .scan 0 3, 0, 0⟩, []) := by
    simp [step, runStep]
  have e4 : step c ⟨en, fun _ => false, 0, .scan 0 3, 0, 0⟩ (.run false) =
      (⟨en, fun _ => false, 0, .scan 1 3, c.num 0, 1⟩, [want c 0]) := by
    rw [step, run_false hc (i := 0) (b := 3) rfl h0 (by decide)]
  have e5 : step c ⟨en, fun _ => false, 0, .scan 1 3, c.num 0, 1⟩ (.run false) =
      (⟨en, fun _ => false, 0, .scan 2 3, c.num 1, 2⟩, [want c 1]) := by
    rw [step, run_false hc (i := 1) (b := 3) rfl h1 (by decide)]
  have ha : ∀ e o, acknowledge c ⟨e, fun _ => false, 0, .scan 2 3, c.num 1, o⟩ =
      ⟨Function.update e 1 true, fun _ => false, 0, .scan 2 3, c.num 1, o⟩ := by
    intro e o
    rcases acknowledge_cases hc h1 (s := ⟨e, fun _ => false, 0, .scan 2 3, c.num 1, o⟩) rfl with ⟨h, -⟩ | ⟨-, h⟩
    · cases h
    · exact h
  have e6 : step c ⟨en, fun _ => false, 0, .scan 2 3, c.num 1, 2⟩ .ack =
      (⟨Function.update en 1 true, fun _ => false, 0, .scan 2 3, c.num 1, 1⟩, []) := by
    simp [step, ha]
  have e7 : step c ⟨Function.update en 1 true, fun _ => false, 0, .scan 2 3, c.num 1, 1⟩ .ack =
      (⟨Function.update en 1 true, fun _ => false, 0, .scan 2 3, c.num 1, 0⟩, []) := by
    simp [step, ha]
  have e : run c initial later = (⟨Function.update en 1 true, fun _ => false, 0, .scan 2 3, c.num 1, 0⟩,
      [.raised 0, .raised 1, want c 0, want c 1]) := by
    simp [run, later, e1, e2, e3, e4, e5, e6, e7]
  rw [e]
  refine ⟨rfl, rfl, fun ys => Lost.run hc h0 ⟨?_, by simp, by simp [inBadge], ?_⟩⟩
  · subst hen; simp
  · intro he
    have := hc.distinct 1 h1 0 h0 he
    omega

/-! ## An example -/

/-- A device with three interrupts, handled by callbacks. -/
def cfg : Cfg := ⟨3, fun i => 32 + 7 * i, false, fun i => some (100 + i)⟩

theorem demo_served : Served cfg := by
  constructor
  · intro i _ j _ h; simp [cfg] at h; omega
  · intro i _; right; simp [cfg]

/-- Interrupts 0 and 2 come at once, and 2 comes again while it is handled. -/
theorem demo_run : (run cfg initial ([.raise 2, .raise 0, .run true, .run true, .raise 2, .run true, .run true, .run true] ++
      List.replicate 5 (.run true))).2 =
    [.raised 2, .raised 0, .called 0 (some 100) 32, .raised 2, .called 2 (some 102) 46, .called 2 (some 102) 46] := by
  decide +kernel

/-- `later`, and then the first interrupt again: nothing happens; the second is handled. -/
theorem demo_later : (run cfg initial (later ++ [.raise 0, .raise 1] ++ List.replicate 12 (.run true))).2 =
    [.raised 0, .raised 1, .called 0 (some 100) 32, .called 1 (some 101) 39, .raised 0, .raised 1,
      .called 1 (some 101) 39] := by
  decide +kernel

/-- A device with two shared peripheral interrupts. -/
theorem demo_generate : generate "uart" ⟨some [.num 0, .num 5, .num 4, .num 0, .num 6, .num 4], none⟩ true =
    some [⟨37, 1, "uart_irq_0"⟩, ⟨38, 2, "uart_irq_1"⟩] := by decide +kernel

/-- The same interrupt twice. -/
theorem demo_twice : generate "uart" ⟨some [.num 0, .num 5, .num 4, .num 0, .num 5, .num 4], none⟩ true = none := by
  decide +kernel

end Verif.DtbIrq
