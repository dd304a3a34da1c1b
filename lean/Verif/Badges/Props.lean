import Verif.Badges.Spec
import Mathlib.Data.Nat.Bitwise
import Mathlib.Tactic.Linarith
import Mathlib.Tactic.Positivity
import Mathlib.Tactic.Ring
import Mathlib.Tactic.ByContra
import Mathlib.Data.List.Nodup
import Batteries.Data.List.Perm

namespace Verif.Badges
open Spec

/-! ### Notifications -/

theorem and_two_pow_zero (k mask : Nat) : 2 ^ k &&& mask = 0 ↔ mask.testBit k = false := by
  constructor
  · intro h
    have := congrArg (fun x => x.testBit k) h
    simpa [Nat.testBit_and] using this
  · intro h
    apply Nat.eq_of_testBit_eq
    intro i
    rw [Nat.testBit_and, Nat.zero_testBit, Nat.testBit_two_pow]
    by_cases hi : k = i
    · subst hi; simp [h]
    · simp [hi]

/-- The search for the next bit above bit `k`. -/
theorem nextBit_spec (bb mask : Nat) : ∀ (fuel k next : Nat), next = 2 ^ k → bb < k + fuel →
    (∀ n, nextBit bb mask fuel next = .ok n →
      ∃ j, k < j ∧ j ≤ bb ∧ mask.testBit j = true ∧ n = 2 ^ j ∧ ∀ i, k < i → i < j → mask.testBit i = false) ∧
    (∀ e, nextBit bb mask fuel next = .error e → ∀ i, k < i → i ≤ bb → mask.testBit i = false) := by
  intro fuel
  induction fuel with
  | zero =>
    intro k next _ hf
    refine ⟨fun n h => (by cases h), fun e _ i hi hb => by omega⟩
  | succ f ih =>
    intro k next hn hf
    subst hn
    have hpos : 2 ^ k ≠ 0 := by positivity
    have hsh : 2 ^ k <<< 1 = 2 ^ (k + 1) := by rw [Nat.shiftLeft_eq]; ring
    simp only [nextBit, hpos, if_false, hsh]
    by_cases hge : 2 ^ k ≥ 2 ^ bb
    · rw [if_pos hge]
      have hk : bb ≤ k := (Nat.pow_le_pow_iff_right (by decide)).mp hge
      exact ⟨fun n h => (by cases h), fun e _ i hi hb => by omega⟩
    · rw [if_neg hge]
      have hk : k < bb := by
        by_contra hc
        exact hge (Nat.pow_le_pow_right (by decide) (by omega))
      by_cases hz : 2 ^ (k + 1) &&& mask = 0
      · rw [if_pos hz]
        have hb := (and_two_pow_zero _ _).mp hz
        obtain ⟨i1, i2⟩ := ih (k + 1) _ rfl (by omega)
        constructor
        · intro n h
          obtain ⟨j, a, b, c, d, e⟩ := i1 n h
          refine ⟨j, by omega, b, c, d, ?_⟩
          intro i h1 h2
          by_cases hi : i = k + 1
          · subst hi; exact hb
          · exact e i (by omega) h2
        · intro e h i h1 h2
          by_cases hi : i = k + 1
          · subst hi; exact hb
          · exact i2 e h i (by omega) h2
      · rw [if_neg hz]
        constructor
        · intro n h
          cases h
          refine ⟨k + 1, by omega, by omega, ?_, rfl, fun i h1 h2 => by omega⟩
          cases hb : mask.testBit (k + 1) with
          | true => rfl
          | false => exact absurd ((and_two_pow_zero _ _).mpr hb) hz
        · intro e h; cases h

theorem mask_bit_lt {bb mask j : Nat} (hm : mask < 2 ^ bb) (h : mask.testBit j = true) : j < bb := by
  by_contra hc
  rw [Nat.testBit_lt_two_pow (lt_of_lt_of_le hm (Nat.pow_le_pow_right (by decide) (by omega)))] at h
  cases h

theorem setNextBit_spec (bb mask : Nat) (hm : mask < 2 ^ bb) (k : Nat) :
    (∀ n, setNextBit bb mask (2 ^ k) = .ok n →
      ∃ j, k < j ∧ j < bb ∧ mask.testBit j = true ∧ n = 2 ^ j ∧ ∀ i, k < i → i < j → mask.testBit i = false) ∧
    (∀ e, setNextBit bb mask (2 ^ k) = .error e → ∀ i, k < i → mask.testBit i = false) := by
  obtain ⟨h1, h2⟩ := nextBit_spec bb mask (bb + 2) k _ rfl (by omega)
  constructor
  · intro n h
    obtain ⟨j, a, b, c, d⟩ := h1 n h
    exact ⟨j, a, mask_bit_lt hm c, c, d⟩
  · intro e h i hi
    by_cases hb : i ≤ bb
    · exact h2 e h i hi hb
    · cases hc : mask.testBit i with
      | false => rfl
      | true => exact absurd (mask_bit_lt hm hc) (by omega)

theorem setNextBit_zero (bb mask : Nat) (hm : mask < 2 ^ bb) :
    (∀ n, setNextBit bb mask 0 = .ok n →
      ∃ j, j < bb ∧ mask.testBit j = true ∧ n = 2 ^ j ∧ ∀ i, i < j → mask.testBit i = false) ∧
    (∀ e, setNextBit bb mask 0 = .error e → mask = 0) := by
  unfold setNextBit
  have hpos : ¬ (0 ≥ 2 ^ bb) := by have : 0 < 2 ^ bb := by positivity
                                   omega
  rw [nextBit, if_neg hpos]
  simp only [if_true]
  have h1eq : (1 : Nat) = 2 ^ 0 := by simp
  have hall0 : (∀ i, mask.testBit i = false) → mask = 0 := by
    intro h
    apply Nat.eq_of_testBit_eq
    intro i; rw [h i, Nat.zero_testBit]
  by_cases hz : 1 &&& mask = 0
  · rw [if_pos hz]
    have hb : mask.testBit 0 = false := by rw [h1eq] at hz; exact (and_two_pow_zero _ _).mp hz
    obtain ⟨i1, i2⟩ := nextBit_spec bb mask (bb + 1) 0 1 h1eq (by omega)
    constructor
    · intro n h
      obtain ⟨j, a, b, c, d, e⟩ := i1 n h
      refine ⟨j, mask_bit_lt hm c, c, d, ?_⟩
      intro i hi
      by_cases h0 : i = 0
      · subst h0; exact hb
      · exact e i (by omega) hi
    · intro e h
      apply hall0
      intro i
      by_cases h0 : i = 0
      · subst h0; exact hb
      · by_cases hbb : i ≤ bb
        · exact i2 e h i (by omega) hbb
        · cases hc : mask.testBit i with
          | false => rfl
          | true => exact absurd (mask_bit_lt hm hc) (by omega)
  · rw [if_neg hz]
    constructor
    · intro n h
      cases h
      have hb : mask.testBit 0 = true := by
        cases hb : mask.testBit 0 with
        | true => rfl
        | false => rw [h1eq] at hz; exact absurd ((and_two_pow_zero _ _).mpr hb) hz
      exact ⟨0, mask_bit_lt hm hb, hb, by simp, by simp⟩
    · intro e h; cases h

/-- Badges made of the bits at the given positions. -/
def bitsBadges (base : Nat) (ps : List Nat) : List Nat := ps.map (fun k => 2 ^ k ||| base)

theorem takeBadges_spec (bb mask base : Nat) (hm : mask < 2 ^ bb) : ∀ (n k : Nat) (bs : List Nat) (next : Nat),
    mask.testBit k = true → takeBadges bb mask base n (2 ^ k) = .ok (bs, next) →
    ∃ ps j, bs = bitsBadges base ps ∧ ps.length = n ∧ next = 2 ^ j ∧ k ≤ j ∧ mask.testBit j = true ∧
      ps.Pairwise (· < ·) ∧ ∀ p ∈ ps, k ≤ p ∧ p < j ∧ mask.testBit p = true := by
  intro n
  induction n with
  | zero =>
    intro k bs next hk h
    cases h
    exact ⟨[], k, rfl, rfl, rfl, Nat.le_refl _, hk, by simp, by simp⟩
  | succ n ih =>
    intro k bs next hk h
    simp only [takeBadges] at h
    cases hs : setNextBit bb mask (2 ^ k) with
    | error e => rw [hs] at h; cases h
    | ok next' =>
      rw [hs] at h
      simp only [] at h
      obtain ⟨j', a, _, c, d, _⟩ := (setNextBit_spec bb mask hm k).1 next' hs
      subst d
      cases ht : takeBadges bb mask base n (2 ^ j') with
      | error e => rw [ht] at h; cases h
      | ok r =>
        obtain ⟨bs', last⟩ := r
        rw [ht] at h
        cases h
        obtain ⟨ps, j, e1, e2, e3, e4, e5, e6, e7⟩ := ih j' bs' next c ht
        refine ⟨k :: ps, j, by simp [bitsBadges, e1], by simp [e2], e3, by omega, e5, ?_, ?_⟩
        · rw [List.pairwise_cons]
          refine ⟨fun p hp => ?_, e6⟩
          have := (e7 p hp).1; omega
        · intro p hp
          rcases List.mem_cons.mp hp with rfl | hp
          · exact ⟨Nat.le_refl _, by omega, hk⟩
          · obtain ⟨f1, f2, f3⟩ := e7 p hp
            exact ⟨by omega, f2, f3⟩

theorem badgeLoop_spec (bb mask base : Nat) (hm : mask < 2 ^ bb) (e : End) : ∀ (items : List Item) (k : Nat)
    (bs : List Nat), mask.testBit k = true → badgeLoop bb mask base e items (2 ^ k) = .ok bs →
    ∃ ps, bs = bitsBadges base ps ∧ ps.Pairwise (· < ·) ∧ ∀ p ∈ ps, k ≤ p ∧ mask.testBit p = true := by
  intro items
  induction items with
  | nil => intro k bs _ h; cases h
  | cons it items ih =>
    intro k bs hk h
    cases it with
    | irqs o n =>
      cases n with
      | error err => cases h
      | ok n =>
        simp only [badgeLoop] at h
        cases ht : takeBadges bb mask base n (2 ^ k) with
        | error err => rw [ht] at h; cases h
        | ok r =>
          obtain ⟨bs', next'⟩ := r
          rw [ht] at h
          simp only [] at h
          obtain ⟨ps, j, e1, e2, e3, e4, e5, e6, e7⟩ := takeBadges_spec bb mask base hm n k bs' next' hk ht
          subst e3
          split at h
          · cases h
            exact ⟨ps, e1, e6, fun p hp => ⟨(e7 p hp).1, (e7 p hp).2.2⟩⟩
          · obtain ⟨qs, q1, q2, q3⟩ := ih j bs e5 h
            exact ⟨qs, q1, q2, fun p hp => ⟨by have := (q3 p hp).1; omega, (q3 p hp).2⟩⟩
    | one o =>
      simp only [badgeLoop] at h
      split at h
      · cases h
        exact ⟨[k], rfl, by simp, by simp [hk]⟩
      · cases hs : setNextBit bb mask (2 ^ k) with
        | error err => rw [hs] at h; cases h
        | ok next' =>
          rw [hs] at h
          simp only [] at h
          obtain ⟨j, a, _, c, d, _⟩ := (setNextBit_spec bb mask hm k).1 next' hs
          subst d
          obtain ⟨qs, q1, q2, q3⟩ := ih j bs c h
          exact ⟨qs, q1, q2, fun p hp => ⟨by have := (q3 p hp).1; omega, (q3 p hp).2⟩⟩

/-- Two ends get badges with different bits. -/
theorem badgeLoop_disjoint (bb mask base : Nat) (hm : mask < 2 ^ bb) (e1 e2 : End) (hne : e1.id ≠ e2.id) :
    ∀ (items : List Item) (k : Nat) (b1 b2 : List Nat), mask.testBit k = true →
    badgeLoop bb mask base e1 items (2 ^ k) = .ok b1 → badgeLoop bb mask base e2 items (2 ^ k) = .ok b2 →
    ∃ p1 p2, b1 = bitsBadges base p1 ∧ b2 = bitsBadges base p2 ∧ (∀ p ∈ p1, p ∉ p2) := by
  intro items
  induction items with
  | nil => intro k b1 b2 _ h; cases h
  | cons it items ih =>
    intro k b1 b2 hk h1 h2
    cases it with
    | irqs o n =>
      cases n with
      | error err => cases h1
      | ok n =>
        simp only [badgeLoop] at h1 h2
        cases ht : takeBadges bb mask base n (2 ^ k) with
        | error err => rw [ht] at h1; cases h1
        | ok r =>
          obtain ⟨bs', next'⟩ := r
          rw [ht] at h1 h2
          simp only [] at h1 h2
          obtain ⟨ps, j, g1, g2, g3, g4, g5, g6, g7⟩ := takeBadges_spec bb mask base hm n k bs' next' hk ht
          subst g3
          by_cases ho1 : e1.id = o.id
          · rw [if_pos ho1] at h1
            cases h1
            rw [if_neg (fun x => hne (ho1.trans x.symm))] at h2
            obtain ⟨qs, q1, q2, q3⟩ := badgeLoop_spec bb mask base hm e2 items j b2 g5 h2
            refine ⟨ps, qs, g1, q1, ?_⟩
            intro p hp hq
            have := (g7 p hp).2.1
            have := (q3 p hq).1
            omega
          · rw [if_neg ho1] at h1
            by_cases ho2 : e2.id = o.id
            · rw [if_pos ho2] at h2
              cases h2
              obtain ⟨qs, q1, q2, q3⟩ := badgeLoop_spec bb mask base hm e1 items j b1 g5 h1
              refine ⟨qs, ps, q1, g1, ?_⟩
              intro p hp hq
              have := (g7 p hq).2.1
              have := (q3 p hp).1
              omega
            · rw [if_neg ho2] at h2
              exact ih j b1 b2 g5 h1 h2
    | one o =>
      simp only [badgeLoop] at h1 h2
      by_cases ho1 : e1.id = o.id
      · rw [if_pos ho1] at h1
        cases h1
        rw [if_neg (fun x => hne (ho1.trans x.symm))] at h2
        cases hs : setNextBit bb mask (2 ^ k) with
        | error err => rw [hs] at h2; cases h2
        | ok next' =>
          rw [hs] at h2
          simp only [] at h2
          obtain ⟨j, a, _, c, d, _⟩ := (setNextBit_spec bb mask hm k).1 next' hs
          subst d
          obtain ⟨qs, q1, q2, q3⟩ := badgeLoop_spec bb mask base hm e2 items j b2 c h2
          refine ⟨[k], qs, rfl, q1, ?_⟩
          intro p hp hq
          have := (q3 p hq).1
          simp only [List.mem_singleton] at hp
          omega
      · rw [if_neg ho1] at h1
        cases hs : setNextBit bb mask (2 ^ k) with
        | error err => rw [hs] at h1; cases h1
        | ok next' =>
          rw [hs] at h1
          simp only [] at h1
          obtain ⟨j, a, _, c, d, _⟩ := (setNextBit_spec bb mask hm k).1 next' hs
          subst d
          by_cases ho2 : e2.id = o.id
          · rw [if_pos ho2] at h2
            cases h2
            obtain ⟨qs, q1, q2, q3⟩ := badgeLoop_spec bb mask base hm e1 items j b1 c h1
            refine ⟨qs, [k], q1, rfl, ?_⟩
            intro p hp hq
            have := (q3 p hp).1
            simp only [List.mem_singleton] at hq
            omega
          · rw [if_neg ho2, hs] at h2
            exact ih j b1 b2 c h1 h2

theorem globalBadges_bits (bb mask base : Nat) (hm : mask < 2 ^ bb) (cfg : IrqCfg) (conns : List Conn) (e : End)
    (bs : List Nat) (h : globalBadges bb mask base cfg conns e = .ok bs) :
    ∃ ps, bs = bitsBadges base ps ∧ ps.Pairwise (· < ·) ∧ ∀ p ∈ ps, mask.testBit p = true := by
  unfold globalBadges at h
  cases hs : setNextBit bb mask 0 with
  | error err => rw [hs] at h; cases h
  | ok first =>
    rw [hs] at h
    obtain ⟨j, _, c, d, _⟩ := (setNextBit_zero bb mask hm).1 first hs
    subst d
    obtain ⟨ps, h1, h2, h3⟩ := badgeLoop_spec bb mask base hm e _ j bs c h
    exact ⟨ps, h1, h2, fun p hp => (h3 p hp).2⟩

/-- C34: every badge is a single bit of the mask combined with the base. -/
theorem badges_are_bits (bb mask base : Nat) (hm : mask < 2 ^ bb) (cfg : IrqCfg) (conns : List Conn) (e : End)
    (bs : List Nat) (h : globalBadges bb mask base cfg conns e = .ok bs) : ∀ b ∈ bs, IsBitBadge bb mask base b := by
  obtain ⟨ps, rfl, _, h3⟩ := globalBadges_bits bb mask base hm cfg conns e bs h
  intro b hb
  simp only [bitsBadges, List.mem_map] at hb
  obtain ⟨k, hk, rfl⟩ := hb
  exact ⟨k, mask_bit_lt hm (h3 k hk), h3 k hk, rfl⟩

theorem received_testBit (badges : List Nat) (i : Nat) :
    (received badges).testBit i = true ↔ ∃ b ∈ badges, b.testBit i = true := by
  unfold received
  have : ∀ (l : List Nat) (a : Nat), (l.foldl (· ||| ·) a).testBit i = true ↔
      a.testBit i = true ∨ ∃ b ∈ l, b.testBit i = true := by
    intro l
    induction l with
    | nil => intro a; simp
    | cons x l ih =>
      intro a
      rw [List.foldl_cons, ih, Nat.testBit_or]
      simp only [Bool.or_eq_true, List.mem_cons, exists_eq_or_imp]
      tauto
  rw [this]
  simp

/-- A source: an end of the instance and the index of one of its badges. -/
abbrev Source := End × Nat

/-- C34: the word received from any collection of sources of one instance tells exactly which of
them have been signalled. Partial: the base must not have bits of the mask. That holds for the
default mask (`default_mask_ok`). -/
theorem received_identifies_partial (bb mask base : Nat) (hm : mask < 2 ^ bb) (hbase : base &&& mask = 0)
    (cfg : IrqCfg) (conns : List Conn) (inst : Nat) :
    ∃ pos : Source → Nat, ∀ (fired : List Source) (badge : Source → Nat),
      (∀ s ∈ fired, s.1.inst = inst ∧ ∃ bs, globalBadges bb mask base cfg conns s.1 = .ok bs ∧ bs[s.2]? = some (badge s)) →
      ∀ s : Source, s.1.inst = inst → (∃ bs b, globalBadges bb mask base cfg conns s.1 = .ok bs ∧ bs[s.2]? = some b) →
        ((received (fired.map badge)).testBit (pos s) = true ↔ ∃ s' ∈ fired, s'.1.id = s.1.id ∧ s'.2 = s.2) := by
  -- the position of a source, if it has one
  have hex : ∀ s : Source, ∃ k, (∀ bs b, globalBadges bb mask base cfg conns s.1 = .ok bs → bs[s.2]? = some b →
      ∃ ps, bs = bitsBadges base ps ∧ ps.Pairwise (· < ·) ∧ (∀ p ∈ ps, mask.testBit p = true) ∧ ps[s.2]? = some k) := by
    intro s
    by_cases h : ∃ bs b, globalBadges bb mask base cfg conns s.1 = .ok bs ∧ bs[s.2]? = some b
    · obtain ⟨bs, b, h1, h2⟩ := h
      obtain ⟨ps, rfl, h4, h5⟩ := globalBadges_bits bb mask base hm cfg conns s.1 bs h1
      simp only [bitsBadges, List.getElem?_map, Option.map_eq_some_iff] at h2
      obtain ⟨k, hk, _⟩ := h2
      refine ⟨k, ?_⟩
      intro bs' b' h1' _
      rw [h1] at h1'; cases h1'
      exact ⟨ps, rfl, h4, h5, hk⟩
    · exact ⟨0, fun bs b h1 h2 => absurd ⟨bs, b, h1, h2⟩ h⟩
  choose pos hpos using hex
  refine ⟨pos, ?_⟩
  intro fired badge hf s hsi hs
  obtain ⟨bs, b, hs1, hs2⟩ := hs
  obtain ⟨ps, hp1, hp2, hp3, hp4⟩ := hpos s bs b hs1 hs2
  have hkm : mask.testBit (pos s) = true := hp3 _ (List.mem_of_getElem? hp4)
  have hkb : base.testBit (pos s) = false := by
    have := congrArg (fun x => x.testBit (pos s)) hbase
    simpa [Nat.testBit_and, hkm] using this
  rw [received_testBit]
  -- a badge contains the bit iff it belongs to the source
  have key : ∀ s' ∈ fired, (badge s').testBit (pos s) = true ↔ (s'.1.id = s.1.id ∧ s'.2 = s.2) := by
    intro s' hs'
    obtain ⟨hi', bs', h1', h2'⟩ := hf s' hs'
    obtain ⟨ps', q1, q2, q3, q4⟩ := hpos s' bs' (badge s') h1' h2'
    have hb' : badge s' = 2 ^ pos s' ||| base := by
      rw [q1] at h2'
      simp only [bitsBadges, List.getElem?_map, q4, Option.map_some, Option.some.injEq] at h2'
      exact h2'.symm
    have hbit : (badge s').testBit (pos s) = true ↔ pos s' = pos s := by
      rw [hb', Nat.testBit_or, hkb, Bool.or_false, Nat.testBit_two_pow]
      simp
    rw [hbit]
    constructor
    · intro hpp
      by_cases hid : s'.1.id = s.1.id
      · refine ⟨hid, ?_⟩
        have hends : s'.1 = s.1 := by
          have : s'.1.inst = s.1.inst := hi'.trans hsi.symm
          cases hx : s'.1; cases hy : s.1
          rw [hx, hy] at hid this
          simp only at hid this
          rw [hid, this]
        rw [hends, hs1] at h1'
        cases h1'
        have hpseq : ps' = ps := by
          have hinj : Function.Injective (fun l : List Nat => bitsBadges base l) ∨ True := .inr trivial
          -- positions in the mask are determined by the badge
          have : ∀ (l m : List Nat), (∀ p ∈ l, mask.testBit p = true) → (∀ p ∈ m, mask.testBit p = true) →
              bitsBadges base l = bitsBadges base m → l = m := by
            intro l
            induction l with
            | nil => intro m _ _ h; cases m with | nil => rfl | cons _ _ => simp [bitsBadges] at h
            | cons x l ih =>
              intro m hl hm' h
              cases m with
              | nil => simp [bitsBadges] at h
              | cons y m =>
                simp only [bitsBadges, List.map_cons, List.cons.injEq] at h
                have hxy : x = y := by
                  have hx := hl x (by simp)
                  have hbx : base.testBit x = false := by
                    have := congrArg (fun z => z.testBit x) hbase
                    simpa [Nat.testBit_and, hx] using this
                  have := congrArg (fun z => z.testBit x) h.1
                  simp only [Nat.testBit_or, hbx, Bool.or_false, Nat.testBit_two_pow] at this
                  have hyx : y = x := by simpa using this.symm
                  exact hyx.symm
                rw [hxy, ih m (fun p hp => hl p (by simp [hp])) (fun p hp => hm' p (by simp [hp])) h.2]
          exact this ps' ps q3 hp3 (q1.symm.trans hp1)
        subst hpseq
        rw [hpp] at q4
        have hnd : ps'.Nodup := hp2.imp (fun h => Nat.ne_of_lt h)
        have hlt : s'.2 < ps'.length := by
          by_contra hc
          rw [List.getElem?_eq_none (by omega)] at q4
          cases q4
        exact (List.getElem?_inj hlt hnd).mp (q4.trans hp4.symm)
      · exfalso
        -- different ends
        unfold globalBadges at h1' hs1
        cases hfst : setNextBit bb mask 0 with
        | error err => rw [hfst] at hs1; cases hs1
        | ok first =>
          rw [hfst] at h1' hs1
          obtain ⟨j, _, c, d, _⟩ := (setNextBit_zero bb mask hm).1 first hfst
          subst d
          rw [hi'] at h1'
          rw [hsi] at hs1
          obtain ⟨p1, p2, e1, e2, e3⟩ := badgeLoop_disjoint bb mask base hm s'.1 s.1 hid _ j bs' bs c h1' hs1
          have g1 : ∃ x, p1[s'.2]? = some x ∧ 2 ^ x ||| base = badge s' := by
            rw [e1] at h2'
            simp only [bitsBadges, List.getElem?_map, Option.map_eq_some_iff] at h2'
            exact h2'
          have g2 : ∃ y, p2[s.2]? = some y ∧ 2 ^ y ||| base = b := by
            rw [e2] at hs2
            simp only [bitsBadges, List.getElem?_map, Option.map_eq_some_iff] at hs2
            exact hs2
          obtain ⟨x, gx1, gx2⟩ := g1
          obtain ⟨y, gy1, gy2⟩ := g2
          have hbs : b = 2 ^ pos s ||| base := by
            rw [hp1] at hs2
            simp only [bitsBadges, List.getElem?_map, hp4, Option.map_some, Option.some.injEq] at hs2
            exact hs2.symm
          have hx : x = pos s := by
            rw [hb', hpp] at gx2
            have := congrArg (fun z => z.testBit (pos s)) gx2
            simp only [Nat.testBit_or, hkb, Bool.or_false, Nat.testBit_two_pow] at this
            simpa using this
          have hy : y = pos s := by
            rw [hbs] at gy2
            have := congrArg (fun z => z.testBit (pos s)) gy2
            simp only [Nat.testBit_or, hkb, Bool.or_false, Nat.testBit_two_pow] at this
            simpa using this
          subst hx
          exact e3 _ (List.mem_of_getElem? gx1) (hy ▸ List.mem_of_getElem? gy1)
    · rintro ⟨hid, hidx⟩
      have hends : s'.1 = s.1 := by
        have : s'.1.inst = s.1.inst := hi'.trans hsi.symm
        cases hx : s'.1; cases hy : s.1
        rw [hx, hy] at hid this
        simp only at hid this
        rw [hid, this]
      have : s' = s := Prod.ext hends hidx
      rw [this]
  constructor
  · rintro ⟨b', hb', hbit⟩
    obtain ⟨s', hs', rfl⟩ := List.mem_map.mp hb'
    exact ⟨s', hs', (key s' hs').mp hbit⟩
  · rintro ⟨s', hs', h⟩
    exact ⟨badge s', List.mem_map.mpr ⟨s', hs', rfl⟩, (key s' hs').mpr h⟩

/-- C34: the default mask is in range and disjoint from the base. -/
theorem default_mask_ok (bb base : Nat) : defaultMask bb base < 2 ^ bb ∧ base &&& defaultMask bb base = 0 := by
  unfold defaultMask
  constructor
  · apply Nat.xor_lt_two_pow
    · have : 0 < 2 ^ bb := by positivity
      omega
    · exact lt_of_le_of_lt Nat.and_le_left (by have : 0 < 2 ^ bb := by positivity
                                               omega)
  · apply Nat.eq_of_testBit_eq
    intro i
    rw [Nat.testBit_and, Nat.testBit_xor, Nat.testBit_and, Nat.zero_testBit]
    cases base.testBit i <;> simp

/-- C34: an error of the search means that the bits of the mask are used up. -/
theorem exhausted (bb mask : Nat) (hm : mask < 2 ^ bb) (k : Nat) (e : String)
    (h : setNextBit bb mask (2 ^ k) = .error e) : ∀ i, k < i → mask.testBit i = false :=
  (setNextBit_spec bb mask hm k).2 e h

/-! ### Every end gets its badges -/

/-- The candidates above `k`. -/
def above (l : List Nat) (k : Nat) : Nat := (l.filter (fun i => decide (k < i))).length

theorem above_step (l : List Nat) (hn : l.Nodup) (k j : Nat) (hmin : ∀ i ∈ l, k < i → j ≤ i) :
    above l k ≤ above l j + 1 := by
  unfold above
  have hs : l.filter (fun i => decide (k < i)) ⊆ j :: l.filter (fun i => decide (j < i)) := by
    intro i hi
    rw [List.mem_filter] at hi
    have hk : k < i := by simpa using hi.2
    have := hmin i hi.1 hk
    rw [List.mem_cons, List.mem_filter]
    by_cases hij : i = j
    · exact .inl hij
    · exact .inr ⟨hi.1, by simp; omega⟩
  have := (List.subperm_of_subset (hn.filter _) hs).length_le
  simpa using this

theorem above_pos {l : List Nat} {k : Nat} (h : 0 < above l k) : ∃ i ∈ l, k < i := by
  unfold above at h
  obtain ⟨i, hi⟩ := List.exists_mem_of_length_pos h
  rw [List.mem_filter] at hi
  exact ⟨i, hi.1, by simpa using hi.2⟩

section Notifications

variable {bb mask base : Nat} (hm : mask < 2 ^ bb) {l : List Nat} (hn : l.Nodup) (hl : ∀ k ∈ l, mask.testBit k = true)
include hm hn hl

theorem setNextBit_live (k : Nat) (h : 0 < above l k) : ∃ j, setNextBit bb mask (2 ^ k) = .ok (2 ^ j) ∧
    mask.testBit j = true ∧ above l k ≤ above l j + 1 := by
  obtain ⟨h1, h2⟩ := setNextBit_spec bb mask hm k
  cases hs : setNextBit bb mask (2 ^ k) with
  | error e =>
    obtain ⟨i, hi, hki⟩ := above_pos h
    have := h2 e hs i hki
    rw [hl i hi] at this; cases this
  | ok n =>
    obtain ⟨j, hj1, _, hj3, rfl, hj5⟩ := h1 n hs
    refine ⟨j, rfl, hj3, above_step l hn k j ?_⟩
    intro i hi hki
    by_contra hlt
    have := hj5 i hki (by omega)
    rw [hl i hi] at this; cases this

theorem takeBadges_live : ∀ (n k : Nat), n ≤ above l k → mask.testBit k = true →
    ∃ bs j, takeBadges bb mask base n (2 ^ k) = .ok (bs, 2 ^ j) ∧ bs.length = n ∧ mask.testBit j = true ∧
      above l k ≤ above l j + n := by
  intro n
  induction n with
  | zero => intro k _ hk; exact ⟨[], k, rfl, rfl, hk, by omega⟩
  | succ n ih =>
    intro k h _
    obtain ⟨j, h1, h2, h3⟩ := setNextBit_live hm hn hl k (by omega)
    obtain ⟨bs, j', h4, h5, h6, h7⟩ := ih j (by omega) h2
    refine ⟨(2 ^ k ||| base) :: bs, j', ?_, by simp [h5], h6, by omega⟩
    simp only [takeBadges, h1, h4]

/-- The badges that a step uses up. -/
def itemSize : Item → Nat
  | .irqs _ (.ok n) => n
  | .irqs _ (.error _) => 0
  | .one _ => 1

def itemEnd : Item → End
  | .irqs e _ => e
  | .one e => e

theorem badgeLoop_live (e : End) : ∀ (items : List Item) (k : Nat), mask.testBit k = true →
    (items.map itemSize).sum ≤ above l k → (∀ it ∈ items, ∀ o err, it ≠ .irqs o (.error err)) →
    (∃ it ∈ items, (itemEnd it).id = e.id) →
    ∃ bs, badgeLoop bb mask base e items (2 ^ k) = .ok bs ∧
      ∃ it ∈ items, (itemEnd it).id = e.id ∧ bs.length = itemSize it := by
  intro items
  induction items with
  | nil => intro _ _ _ _ h; obtain ⟨_, h, _⟩ := h; cases h
  | cons it items ih =>
    intro k hk hd hok hex
    rw [List.map_cons, List.sum_cons] at hd
    have hex' : (itemEnd it).id ≠ e.id → ∃ it ∈ items, (itemEnd it).id = e.id := by
      intro hne
      obtain ⟨x, hx, hxe⟩ := hex
      rcases List.mem_cons.mp hx with rfl | hx
      · exact absurd hxe hne
      · exact ⟨x, hx, hxe⟩
    have hok' := fun it h => hok it (List.mem_cons_of_mem _ h)
    cases it with
    | irqs o r =>
      cases r with
      | error err => exact absurd rfl (hok _ List.mem_cons_self o err)
      | ok n =>
        simp only [itemSize] at hd
        obtain ⟨bs, j, h1, h2, h3, h4⟩ := takeBadges_live (base := base) hm hn hl n k (by omega) hk
        simp only [badgeLoop, h1]
        by_cases he : e.id = o.id
        · rw [if_pos he]
          exact ⟨bs, rfl, _, List.mem_cons_self, he.symm, h2⟩
        · rw [if_neg he]
          obtain ⟨bs', g1, it', g2, g3, g4⟩ := ih j h3 (by omega) hok' (hex' (fun h => he h.symm))
          exact ⟨bs', g1, it', List.mem_cons_of_mem _ g2, g3, g4⟩
    | one o =>
      simp only [itemSize] at hd
      simp only [badgeLoop]
      by_cases he : e.id = o.id
      · rw [if_pos he]
        exact ⟨_, rfl, _, List.mem_cons_self, he.symm, rfl⟩
      · rw [if_neg he]
        obtain ⟨j, h1, h2, h3⟩ := setNextBit_live hm hn hl k (by omega)
        rw [h1]
        obtain ⟨bs', g1, it', g2, g3, g4⟩ := ih j h2 (by omega) hok' (hex' (fun h => he h.symm))
        exact ⟨bs', g1, it', List.mem_cons_of_mem _ g2, g3, g4⟩

end Notifications

theorem countP_map_one (l : List End) (p : End → Bool) : (((l.filter p).map Item.one).map itemSize).sum = l.countP p := by
  rw [List.map_map, List.countP_eq_length_filter]
  generalize l.filter p = m
  induction m with
  | nil => rfl
  | cons a m ih => rw [List.map_cons, List.sum_cons, ih]; simp [itemSize]; omega

theorem connItems_size (cfg : IrqCfg) (inst : Nat) (conns : List Conn) :
    ((conns.flatMap (connItems cfg inst)).map itemSize).sum = demand cfg conns inst := by
  unfold demand
  induction conns with
  | nil => rfl
  | cons c conns ih =>
    rw [List.flatMap_cons, List.map_append, List.sum_append, ih, List.map_cons, List.sum_cons]
    congr 1
    unfold connItems
    rw [List.map_append, List.sum_append, List.map_append, List.sum_append]
    congr 1
    · congr 1
      · split
        · rw [List.map_map]
          congr 1
          apply List.map_congr_left
          intro e _
          simp only [Function.comp, itemSize, irqCount]
          cases cfg.irqs e <;> rfl
        · rfl
      · split
        · exact countP_map_one _ _
        · rfl
    · split
      · exact countP_map_one _ _
      · rfl

/-- C34: every end that needs badges gets them, one for the global endpoint or one for each
interrupt, if the mask has more bits than the instance needs badges. (Ends are told apart by their
ids, and reading the interrupts raises no exception.) -/
theorem badges_given (bb mask base : Nat) (hm : mask < 2 ^ bb) (cfg : IrqCfg) (conns : List Conn) (e : End)
    (hids : ∀ c ∈ conns, ∀ o ∈ c.fromEnds ++ c.toEnds, o.id = e.id → o = e)
    (hirqs : ∀ c ∈ conns, ∀ o ∈ c.toEnds, c.threadless = true → cfg.generate o = true → ∃ n, cfg.irqs o = .ok n)
    (hw : ∃ n, Wants cfg conns e n)
    (bits : List Nat) (hb : bits.Nodup) (hbits : ∀ k ∈ bits, mask.testBit k = true)
    (henough : demand cfg conns e.inst < bits.length) :
    ∃ bs, globalBadges bb mask base cfg conns e = .ok bs ∧ Wants cfg conns e bs.length := by
  unfold globalBadges
  obtain ⟨h1, h2⟩ := setNextBit_zero bb mask hm
  cases hs : setNextBit bb mask 0 with
  | error err =>
    have hz := h2 err hs
    cases bits with
    | nil => simp at henough
    | cons k _ => have := hbits k (by simp); rw [hz] at this; simp at this
  | ok first =>
    obtain ⟨j, _, hj, rfl, hmin⟩ := h1 first hs
    have habove : bits.length ≤ above bits j + 1 := by
      have hs : bits ⊆ j :: bits.filter (fun i => decide (j < i)) := by
        intro i hi
        rw [List.mem_cons, List.mem_filter]
        by_cases hij : i = j
        · exact .inl hij
        · refine .inr ⟨hi, ?_⟩
          by_contra hc
          have := hmin i (by simp at hc; omega)
          rw [hbits i hi] at this; cases this
      have := (List.subperm_of_subset hb hs).length_le
      simpa [above] using this
    have hmem : ∀ it, it ∈ conns.flatMap (connItems cfg e.inst) ↔ ∃ c ∈ conns,
        (c.threadless = true ∧ (∃ o ∈ c.toEnds, o.inst = e.inst) ∧ ∃ o ∈ c.toEnds, cfg.generate o = true ∧ it = .irqs o (cfg.irqs o)) ∨
        (c.fromGlobal = true ∧ ∃ o ∈ c.fromEnds, o.inst = e.inst ∧ it = .one o) ∨
        (c.toGlobal = true ∧ ∃ o ∈ c.toEnds, o.inst = e.inst ∧ it = .one o) := by
      intro it
      rw [List.mem_flatMap]
      apply exists_congr
      intro c
      apply and_congr_right
      intro _
      unfold connItems
      rw [List.mem_append, List.mem_append, or_assoc]
      apply or_congr
      · by_cases h : (c.threadless && c.toEnds.any (fun e_1 => e_1.inst = e.inst)) = true
        · rw [if_pos h]
          simp only [Bool.and_eq_true, List.any_eq_true, decide_eq_true_eq] at h
          simp only [List.mem_map, List.mem_filter]
          constructor
          · rintro ⟨o, ⟨ho, hg⟩, rfl⟩; exact ⟨h.1, h.2, o, ho, hg, rfl⟩
          · rintro ⟨_, _, o, ho, hg, rfl⟩; exact ⟨o, ⟨ho, hg⟩, rfl⟩
        · rw [if_neg h]
          simp only [Bool.and_eq_true, List.any_eq_true, decide_eq_true_eq, not_and] at h
          constructor
          · intro hx; cases hx
          · rintro ⟨g1, g2, _⟩; exact absurd g2 (h g1)
      · apply or_congr
        · cases c.fromGlobal <;> simp [List.mem_map, List.mem_filter, and_assoc, eq_comm]
        · cases c.toGlobal <;> simp [List.mem_map, List.mem_filter, and_assoc, eq_comm]
    have hend : ∀ it ∈ conns.flatMap (connItems cfg e.inst), (itemEnd it).id = e.id → Wants cfg conns e (itemSize it) := by
      intro it hit hid
      obtain ⟨c, hc, h⟩ := (hmem it).mp hit
      rcases h with ⟨g1, _, o, ho, hg, rfl⟩ | ⟨g1, o, ho, _, rfl⟩ | ⟨g1, o, ho, _, rfl⟩
      · have : o = e := hids c hc o (by simp [ho]) hid
        subst this
        obtain ⟨n, hn⟩ := hirqs c hc o ho g1 hg
        rw [hn]
        exact ⟨c, hc, .inr (.inr ⟨g1, ho, hg, hn⟩)⟩
      · have : o = e := hids c hc o (by simp [ho]) hid
        subst this
        exact ⟨c, hc, .inl ⟨g1, ho, rfl⟩⟩
      · have : o = e := hids c hc o (by simp [ho]) hid
        subst this
        exact ⟨c, hc, .inr (.inl ⟨g1, ho, rfl⟩)⟩
    obtain ⟨bs, h3, it, h4, h5, h6⟩ := badgeLoop_live (base := base) hm hb hbits e
      (conns.flatMap (connItems cfg e.inst)) j hj (by rw [connItems_size]; omega) (by
        rintro it hit o err rfl
        obtain ⟨c, hc, h⟩ := (hmem _).mp hit
        rcases h with ⟨g1, _, o', ho, hg, h⟩ | ⟨_, _, _, _, h⟩ | ⟨_, _, _, _, h⟩
        · obtain ⟨n, hn⟩ := hirqs c hc o' ho g1 hg
          rw [hn] at h; cases h
        · cases h
        · cases h) (by
        obtain ⟨n, c, hc, h⟩ := hw
        rcases h with ⟨g1, g2, _⟩ | ⟨g1, g2, _⟩ | ⟨g1, g2, g3, _⟩
        · exact ⟨.one e, (hmem _).mpr ⟨c, hc, .inr (.inl ⟨g1, e, g2, rfl, rfl⟩)⟩, rfl⟩
        · exact ⟨.one e, (hmem _).mpr ⟨c, hc, .inr (.inr ⟨g1, e, g2, rfl, rfl⟩)⟩, rfl⟩
        · exact ⟨.irqs e (cfg.irqs e), (hmem _).mpr ⟨c, hc, .inl ⟨g1, ⟨e, g2, rfl⟩, e, g2, g3, rfl⟩⟩, rfl⟩)
    exact ⟨bs, h3, h6 ▸ hend it h4 h5⟩

/-! ### The global RPC endpoint -/

/-- All set bits are in the mask, except perhaps the lowest. -/
def Almost (mask b : Nat) : Prop := ∀ i, b.testBit i = true → mask.testBit i = true ∨ b % 2 ^ i = 0

theorem almost_succ : ∀ (h mask : Nat), Within mask h → Almost mask (h + 1) := by
  intro h
  induction h using Nat.strongRecOn with
  | _ h ih =>
    intro mask hw i hi
    cases i with
    | zero => right; simp [Nat.mod_one]
    | succ i =>
      by_cases he : h % 2 = 0
      · left
        apply hw
        rw [Nat.testBit_succ] at hi ⊢
        have : (h + 1) / 2 = h / 2 := by omega
        rw [this] at hi; exact hi
      · have hlt : h / 2 < h := by omega
        have hw' : Within (mask / 2) (h / 2) := by
          intro j hj
          have := hw (j + 1) (by rw [Nat.testBit_succ]; exact hj)
          rw [Nat.testBit_succ] at this; exact this
        have hd : (h + 1) / 2 = h / 2 + 1 := by omega
        rw [Nat.testBit_succ, hd] at hi
        rcases ih (h / 2) hlt (mask / 2) hw' i hi with hm | hm
        · left; rw [Nat.testBit_succ]; exact hm
        · right
          have : h + 1 = 2 * (h / 2 + 1) := by omega
          rw [this, Nat.pow_succ, Nat.mul_comm (2 ^ i) 2, Nat.mul_mod_mul_left, hm]

theorem within_iff (mask b : Nat) : b &&& mask = b ↔ Within mask b := by
  constructor
  · intro h i hi
    rw [← h, Nat.testBit_and] at hi
    simp only [Bool.and_eq_true] at hi
    exact hi.2
  · intro h
    apply Nat.eq_of_testBit_eq
    intro i
    rw [Nat.testBit_and]
    cases hb : b.testBit i with
    | false => simp
    | true => simp [h i hb]

/-- A badge that is not within the mask has exactly one wrong bit, and adding it again moves to the
next candidate without passing over any number within the mask. -/
theorem wrong_bit (mask b : Nat) (ha : Almost mask b) (hn : ¬ Within mask b) :
    ∃ q, b ^^^ (b &&& mask) = 2 ^ q ∧ Almost mask (2 ^ q + b) ∧ ∀ s, Within mask s → b ≤ s → 2 ^ q + b ≤ s := by
  have hq : ∃ q, b.testBit q = true ∧ mask.testBit q = false := by
    by_contra hc
    apply hn
    intro i hi
    by_contra h2
    exact hc ⟨i, hi, by simpa using h2⟩
  obtain ⟨q, h1, h2⟩ := hq
  have hmod : b % 2 ^ q = 0 := by
    rcases ha q h1 with h | h
    · rw [h2] at h; cases h
    · exact h
  have hbit0 : ∀ i, b.testBit i = true → q ≤ i := by
    intro i hi
    by_contra hc
    have : (b % 2 ^ q).testBit i = true := by rw [Nat.testBit_mod_two_pow]; simp [hi]; omega
    rw [hmod] at this; simp at this
  have honly : ∀ i, b.testBit i = true → i ≠ q → mask.testBit i = true := by
    intro i hi hne
    rcases ha i hi with h | h
    · exact h
    · exfalso
      have hqi := hbit0 i hi
      have : (b % 2 ^ i).testBit q = true := by rw [Nat.testBit_mod_two_pow]; simp [h1]; omega
      rw [h] at this; simp at this
  have hxor : b ^^^ (b &&& mask) = 2 ^ q := by
    apply Nat.eq_of_testBit_eq
    intro i
    rw [Nat.testBit_xor, Nat.testBit_and, Nat.testBit_two_pow]
    by_cases hi : i = q
    · subst hi; simp [h1, h2]
    · have hi' : ¬ q = i := fun x => hi x.symm
      cases hb : b.testBit i with
      | false => simp [hi']
      | true => simp [honly i hb hi, hi']
  -- b = h * 2^(q+1) + 2^q
  have hdecomp : b = b / 2 ^ (q + 1) * 2 ^ (q + 1) + 2 ^ q := by
    have e1 : b = 2 ^ q * (b / 2 ^ q) := by
      have := Nat.div_add_mod b (2 ^ q); omega
    have e2 : b / 2 ^ q % 2 = 1 := by
      rw [Nat.testBit_eq_decide_div_mod_eq] at h1
      simpa using h1
    have e3 : b / 2 ^ (q + 1) = b / 2 ^ q / 2 := by rw [Nat.pow_succ, Nat.div_div_eq_div_mul]
    have e4 := Nat.div_add_mod (b / 2 ^ q) 2
    rw [e3]
    calc b = 2 ^ q * (b / 2 ^ q) := e1
      _ = 2 ^ q * (2 * (b / 2 ^ q / 2) + b / 2 ^ q % 2) := by rw [e4]
      _ = b / 2 ^ q / 2 * 2 ^ (q + 1) + 2 ^ q := by rw [e2]; ring
  have hsum : 2 ^ q + b = (b / 2 ^ (q + 1) + 1) * 2 ^ (q + 1) := by
    rw [hdecomp]
    have : (b / 2 ^ (q + 1) * 2 ^ (q + 1) + 2 ^ q) / 2 ^ (q + 1) = b / 2 ^ (q + 1) := by
      rw [← hdecomp]
    rw [this]; ring
  refine ⟨q, hxor, ?_, ?_⟩
  · rw [hsum]
    have hw : Within (mask / 2 ^ (q + 1)) (b / 2 ^ (q + 1)) := by
      intro i hi
      rw [Nat.testBit_div_two_pow] at hi ⊢
      exact honly _ hi (by omega)
    have := almost_succ _ _ hw
    intro i hi
    rw [Nat.mul_comm, Nat.testBit_two_pow_mul] at hi
    simp only [Bool.and_eq_true, decide_eq_true_eq] at hi
    rcases this (i - (q + 1)) hi.2 with h | h
    · left
      rw [Nat.testBit_div_two_pow] at h
      have : i - (q + 1) + (q + 1) = i := by omega
      rw [this] at h; exact h
    · right
      have e : 2 ^ i = 2 ^ (i - (q + 1)) * 2 ^ (q + 1) := by rw [← Nat.pow_add]; congr 1; omega
      rw [e, Nat.mul_mod_mul_right, h, Nat.zero_mul]
  · intro s hs hle
    rw [hsum]
    have hs0 : s.testBit q = false := by
      by_contra hc
      have := hs q (by simpa using hc)
      rw [h2] at this; cases this
    have e2 : s / 2 ^ q % 2 = 0 := by
      rw [Nat.testBit_eq_decide_div_mod_eq] at hs0
      have := Nat.mod_two_eq_zero_or_one (s / 2 ^ q)
      simp at hs0
      omega
    have e3 : s / 2 ^ (q + 1) = s / 2 ^ q / 2 := by rw [Nat.pow_succ, Nat.div_div_eq_div_mul]
    have hgt : b / 2 ^ (q + 1) < s / 2 ^ (q + 1) := by
      by_contra hc
      have hle2 : s / 2 ^ (q + 1) ≤ b / 2 ^ (q + 1) := by omega
      have e4 := Nat.div_add_mod (s / 2 ^ q) 2
      have e5 := Nat.div_add_mod s (2 ^ q)
      have e6 := Nat.mod_lt s (by positivity : 0 < 2 ^ q)
      have : s < b := by
        calc s = 2 ^ q * (s / 2 ^ q) + s % 2 ^ q := e5.symm
          _ < 2 ^ q * (s / 2 ^ q) + 2 ^ q := by omega
          _ = 2 ^ q * (2 * (s / 2 ^ q / 2)) + 2 ^ q := by rw [← e4, e2]; simp
          _ = (s / 2 ^ (q + 1)) * 2 ^ (q + 1) + 2 ^ q := by rw [e3]; ring
          _ ≤ (b / 2 ^ (q + 1)) * 2 ^ (q + 1) + 2 ^ q := by
            have := Nat.mul_le_mul_right (2 ^ (q + 1)) hle2; omega
          _ = b := hdecomp.symm
      omega
    calc (b / 2 ^ (q + 1) + 1) * 2 ^ (q + 1) ≤ s / 2 ^ (q + 1) * 2 ^ (q + 1) := Nat.mul_le_mul_right _ hgt
      _ ≤ s := Nat.div_mul_le_self _ _

/-- The search returns the least number within the mask from `b` on. -/
theorem nextSub_spec (bb mask : Nat) : ∀ (fuel b : Nat), Almost mask b → mask < b + fuel →
    (∀ n, nextSub bb mask fuel b = .ok n →
      b ≤ n ∧ n < mask ∧ n < 2 ^ bb ∧ Within mask n ∧ ∀ s, Within mask s → b ≤ s → n ≤ s) ∧
    (∀ e, nextSub bb mask fuel b = .error e → ∀ s, Within mask s → b ≤ s → mask ≤ s ∨ 2 ^ bb ≤ s) := by
  intro fuel
  induction fuel with
  | zero =>
    intro b _ hf
    exact ⟨fun n h => (by cases h), fun e _ s _ hs => by left; omega⟩
  | succ f ih =>
    intro b ha hf
    simp only [nextSub]
    by_cases hge : b ≥ min (2 ^ bb) mask
    · rw [if_pos hge]
      exact ⟨fun n h => (by cases h), fun e _ s _ hs => by omega⟩
    · rw [if_neg hge]
      by_cases hw : b &&& mask = b
      · rw [if_pos hw]
        constructor
        · intro n h
          cases h
          exact ⟨Nat.le_refl _, by omega, by omega, (within_iff _ _).mp hw, fun s _ hs => hs⟩
        · intro e h; cases h
      · rw [if_neg hw]
        obtain ⟨q, h1, h2, h3⟩ := wrong_bit mask b ha (fun h => hw ((within_iff _ _).mpr h))
        rw [h1]
        have hq : 0 < 2 ^ q := by positivity
        obtain ⟨i1, i2⟩ := ih (2 ^ q + b) h2 (by omega)
        constructor
        · intro n h
          obtain ⟨a, b', c, d, e⟩ := i1 n h
          exact ⟨by omega, b', c, d, fun s hs hle => e s hs (h3 s hs hle)⟩
        · intro e h s hs hle
          exact i2 e h s hs (h3 s hs hle)

/-- The next badge is the least number within the mask above the previous one. -/
theorem setNextSub_spec (bb mask prev : Nat) (hp : Within mask prev) :
    (∀ n, setNextSub bb mask (prev + 1) = .ok n →
      prev < n ∧ n < mask ∧ n < 2 ^ bb ∧ Within mask n ∧ ∀ s, Within mask s → prev < s → n ≤ s) ∧
    (∀ e, setNextSub bb mask (prev + 1) = .error e → ∀ s, Within mask s → prev < s → mask ≤ s ∨ 2 ^ bb ≤ s) := by
  obtain ⟨h1, h2⟩ := nextSub_spec bb mask (mask + 1) (prev + 1) (almost_succ prev mask hp) (by omega)
  constructor
  · intro n h
    obtain ⟨a, b, c, d, e⟩ := h1 n h
    exact ⟨by omega, b, c, d, fun s hs hle => e s hs hle⟩
  · intro e h s hs hle
    exact h2 e h s hs hle

theorem takeSubs_spec (bb mask base : Nat) : ∀ (n next : Nat) (bs : List Nat) (last : Nat),
    0 < next → next < 2 ^ bb → Within mask next → takeSubs bb mask base n next = .ok (bs, last) →
    ∃ ps : List Nat, bs = ps.map (· ||| base) ∧ ps.length = n ∧ next ≤ last ∧ last < 2 ^ bb ∧ Within mask last ∧
      ps.Pairwise (· < ·) ∧ ∀ p ∈ ps, next ≤ p ∧ p < last ∧ Within mask p := by
  intro n
  induction n with
  | zero =>
    intro next bs last h0 hb hw h
    cases h
    exact ⟨[], rfl, rfl, Nat.le_refl _, hb, hw, by simp, by simp⟩
  | succ n ih =>
    intro next bs last h0 hb hw h
    simp only [takeSubs] at h
    cases hs : setNextSub bb mask (next + 1) with
    | error e => rw [hs] at h; cases h
    | ok next' =>
      rw [hs] at h
      simp only [] at h
      obtain ⟨a, _, c, d, _⟩ := (setNextSub_spec bb mask next hw).1 next' hs
      cases ht : takeSubs bb mask base n next' with
      | error e => rw [ht] at h; cases h
      | ok r =>
        obtain ⟨bs', last'⟩ := r
        rw [ht] at h
        cases h
        obtain ⟨ps, e1, e2, e3, e4, e5, e6, e7⟩ := ih next' bs' last (by omega) c d ht
        refine ⟨next :: ps, by simp [e1], by simp [e2], by omega, e4, e5, ?_, ?_⟩
        · rw [List.pairwise_cons]
          exact ⟨fun p hp => by have := (e7 p hp).1; omega, e6⟩
        · intro p hp
          rcases List.mem_cons.mp hp with rfl | hp
          · exact ⟨Nat.le_refl _, by omega, hw⟩
          · obtain ⟨f1, f2, f3⟩ := e7 p hp
            exact ⟨by omega, f2, f3⟩

theorem rpcLoop_spec (bb mask base : Nat) (e : End) : ∀ (items : List (End × Nat)) (next : Nat) (bs : List Nat),
    0 < next → next < 2 ^ bb → Within mask next → rpcLoop bb mask base e items next = .ok bs →
    ∃ ps : List Nat, bs = ps.map (· ||| base) ∧ ps.Pairwise (· < ·) ∧ ∀ p ∈ ps, next ≤ p ∧ p < 2 ^ bb ∧ Within mask p := by
  intro items
  induction items with
  | nil => intro _ _ _ _ _ h; cases h
  | cons it items ih =>
    obtain ⟨o, n⟩ := it
    intro next bs h0 hb hw h
    simp only [rpcLoop] at h
    cases ht : takeSubs bb mask base n next with
    | error err => rw [ht] at h; cases h
    | ok r =>
      obtain ⟨bs', last⟩ := r
      rw [ht] at h
      simp only [] at h
      obtain ⟨ps, e1, e2, e3, e4, e5, e6, e7⟩ := takeSubs_spec bb mask base n next bs' last h0 hb hw ht
      split at h
      · cases h
        exact ⟨ps, e1, e6, fun p hp => ⟨(e7 p hp).1, by have := (e7 p hp).2.1; omega, (e7 p hp).2.2⟩⟩
      · obtain ⟨qs, q1, q2, q3⟩ := ih last bs (by omega) e4 e5 h
        exact ⟨qs, q1, q2, fun p hp => ⟨by have := (q3 p hp).1; omega, (q3 p hp).2⟩⟩

theorem rpcLoop_disjoint (bb mask base : Nat) (e1 e2 : End) (hne : e1.id ≠ e2.id) :
    ∀ (items : List (End × Nat)) (next : Nat) (b1 b2 : List Nat),
    0 < next → next < 2 ^ bb → Within mask next →
    rpcLoop bb mask base e1 items next = .ok b1 → rpcLoop bb mask base e2 items next = .ok b2 →
    ∃ p1 p2 : List Nat, b1 = p1.map (· ||| base) ∧ b2 = p2.map (· ||| base) ∧ (∀ p ∈ p1, Within mask p) ∧
      (∀ p ∈ p2, Within mask p) ∧ ∀ p ∈ p1, p ∉ p2 := by
  intro items
  induction items with
  | nil => intro _ _ _ _ _ _ h; cases h
  | cons it items ih =>
    obtain ⟨o, n⟩ := it
    intro next b1 b2 h0 hb hw h1 h2
    simp only [rpcLoop] at h1 h2
    cases ht : takeSubs bb mask base n next with
    | error err => rw [ht] at h1; cases h1
    | ok r =>
      obtain ⟨bs', last⟩ := r
      rw [ht] at h1 h2
      simp only [] at h1 h2
      obtain ⟨ps, g1, g2, g3, g4, g5, g6, g7⟩ := takeSubs_spec bb mask base n next bs' last h0 hb hw ht
      by_cases ho1 : e1.id = o.id
      · rw [if_pos ho1] at h1
        cases h1
        rw [if_neg (fun x => hne (ho1.trans x.symm))] at h2
        obtain ⟨qs, q1, q2, q3⟩ := rpcLoop_spec bb mask base e2 items last b2 (by omega) g4 g5 h2
        refine ⟨ps, qs, g1, q1, fun p hp => (g7 p hp).2.2, fun p hp => (q3 p hp).2.2, ?_⟩
        intro p hp hq
        have := (g7 p hp).2.1
        have := (q3 p hq).1
        omega
      · rw [if_neg ho1] at h1
        by_cases ho2 : e2.id = o.id
        · rw [if_pos ho2] at h2
          cases h2
          obtain ⟨qs, q1, q2, q3⟩ := rpcLoop_spec bb mask base e1 items last b1 (by omega) g4 g5 h1
          refine ⟨qs, ps, q1, g1, fun p hp => (q3 p hp).2.2, fun p hp => (g7 p hp).2.2, ?_⟩
          intro p hp hq
          have := (g7 p hq).2.1
          have := (q3 p hp).1
          omega
        · rw [if_neg ho2] at h2
          exact ih last b1 b2 (by omega) g4 g5 h1 h2

theorem one_almost (mask : Nat) : Almost mask 1 := by
  have := almost_succ 0 mask (by intro i hi; simp at hi)
  simpa using this

theorem or_base_inj (mask base a b : Nat) (hbase : base &&& mask = 0) (ha : Within mask a) (hb : Within mask b)
    (h : a ||| base = b ||| base) : a = b := by
  apply Nat.eq_of_testBit_eq
  intro i
  have hi := congrArg (fun z => z.testBit i) h
  simp only [Nat.testBit_or] at hi
  have hm := congrArg (fun z => z.testBit i) hbase
  simp only [Nat.testBit_and, Nat.zero_testBit] at hm
  have a1 := ha i
  have b1 := hb i
  revert hi hm a1 b1
  cases a.testBit i <;> cases b.testBit i <;> cases base.testBit i <;> cases mask.testBit i <;> simp

/-- C35: every badge for a client of the global RPC endpoint is a non-empty selection of bits of
the mask combined with the base. -/
theorem rpc_badges_in_mask (bb mask base : Nat) (conns : List RpcConn) (e : End) (bs : List Nat)
    (h : rpcBadges bb mask base conns e = .ok bs) : ∀ b ∈ bs, IsMaskBadge bb mask base b := by
  unfold rpcBadges at h
  cases hs : setNextSub bb mask 1 with
  | error err => rw [hs] at h; cases h
  | ok first =>
    rw [hs] at h
    obtain ⟨a, _, c, d, _⟩ := (nextSub_spec bb mask (mask + 1) 1 (one_almost mask) (by omega)).1 first hs
    obtain ⟨ps, rfl, _, h3⟩ := rpcLoop_spec bb mask base e _ first bs (by omega) c d h
    intro b hb
    obtain ⟨p, hp, rfl⟩ := List.mem_map.mp hb
    obtain ⟨f1, f2, f3⟩ := h3 p hp
    exact ⟨p, by omega, f2, f3, rfl⟩

/-- C35: the badges for the clients of one instance are pairwise different, within one end and
between ends. Partial: the base must not have bits of the mask. -/
theorem rpc_badges_distinct_partial (bb mask base : Nat) (hbase : base &&& mask = 0) (conns : List RpcConn) :
    (∀ e bs, rpcBadges bb mask base conns e = .ok bs → bs.Nodup) ∧
    (∀ e1 e2 b1 b2, e1.inst = e2.inst → e1.id ≠ e2.id → rpcBadges bb mask base conns e1 = .ok b1 →
      rpcBadges bb mask base conns e2 = .ok b2 → ∀ b ∈ b1, b ∉ b2) := by
  constructor
  · intro e bs h
    unfold rpcBadges at h
    cases hs : setNextSub bb mask 1 with
    | error err => rw [hs] at h; cases h
    | ok first =>
      rw [hs] at h
      obtain ⟨a, _, c, d, _⟩ := (nextSub_spec bb mask (mask + 1) 1 (one_almost mask) (by omega)).1 first hs
      obtain ⟨ps, rfl, h2, h3⟩ := rpcLoop_spec bb mask base e _ first bs (by omega) c d h
      apply List.Nodup.map_on
      · intro x hx y hy hxy
        exact or_base_inj mask base x y hbase (h3 x hx).2.2 (h3 y hy).2.2 hxy
      · exact h2.imp (fun h => Nat.ne_of_lt h)
  · intro e1 e2 b1 b2 hinst hne h1 h2
    unfold rpcBadges at h1 h2
    cases hs : setNextSub bb mask 1 with
    | error err => rw [hs] at h1; cases h1
    | ok first =>
      rw [hs] at h1 h2
      rw [← hinst] at h2
      obtain ⟨a, _, c, d, _⟩ := (nextSub_spec bb mask (mask + 1) 1 (one_almost mask) (by omega)).1 first hs
      obtain ⟨p1, p2, rfl, rfl, w1, w2, hd⟩ := rpcLoop_disjoint bb mask base e1 e2 hne _ first b1 b2 (by omega) c d h1 h2
      intro b hb1 hb2
      obtain ⟨x, hx, rfl⟩ := List.mem_map.mp hb1
      obtain ⟨y, hy, hxy⟩ := List.mem_map.mp hb2
      have := or_base_inj mask base y x hbase (w2 y hy) (w1 x hx) hxy
      exact hd x hx (this ▸ hy)

/-- C35: no selection of bits of the mask is skipped: the search fails only if all selections below
the full mask are used up. -/
theorem rpc_exhausted (bb mask prev : Nat) (hp : Within mask prev) (e : String)
    (h : setNextSub bb mask (prev + 1) = .error e) : ∀ s, Within mask s → prev < s → mask ≤ s ∨ 2 ^ bb ≤ s :=
  (setNextSub_spec bb mask prev hp).2 e h

theorem setNextSub_live (bb mask : Nat) {l : List Nat} (hn : l.Nodup)
    (hl : ∀ s ∈ l, 0 < s ∧ s < mask ∧ s < 2 ^ bb ∧ Within mask s) (k : Nat) (hk : Within mask k) (h : 0 < above l k) :
    ∃ j, setNextSub bb mask (k + 1) = .ok j ∧ 0 < j ∧ Within mask j ∧ above l k ≤ above l j + 1 := by
  obtain ⟨h1, h2⟩ := setNextSub_spec bb mask k hk
  cases hs : setNextSub bb mask (k + 1) with
  | error e =>
    obtain ⟨i, hi, hki⟩ := above_pos h
    obtain ⟨_, g2, g3, g4⟩ := hl i hi
    rcases h2 e hs i g4 hki with h | h <;> omega
  | ok j =>
    obtain ⟨g1, _, _, g4, g5⟩ := h1 j hs
    exact ⟨j, rfl, by omega, g4, above_step l hn k j (fun i hi hki => g5 i (hl i hi).2.2.2 hki)⟩

theorem takeSubs_live (bb mask base : Nat) {l : List Nat} (hn : l.Nodup)
    (hl : ∀ s ∈ l, 0 < s ∧ s < mask ∧ s < 2 ^ bb ∧ Within mask s) : ∀ (n k : Nat), n ≤ above l k → Within mask k →
    ∃ bs j, takeSubs bb mask base n k = .ok (bs, j) ∧ bs.length = n ∧ Within mask j ∧ above l k ≤ above l j + n := by
  intro n
  induction n with
  | zero => intro k _ hk; exact ⟨[], k, rfl, rfl, hk, by omega⟩
  | succ n ih =>
    intro k h hk
    obtain ⟨j, h1, _, h2, h3⟩ := setNextSub_live bb mask hn hl k hk (by omega)
    obtain ⟨bs, j', h4, h5, h6, h7⟩ := ih j (by omega) h2
    refine ⟨(k ||| base) :: bs, j', ?_, by simp [h5], h6, by omega⟩
    simp only [takeSubs, h1, h4]

theorem rpcLoop_live (bb mask base : Nat) {l : List Nat} (hn : l.Nodup)
    (hl : ∀ s ∈ l, 0 < s ∧ s < mask ∧ s < 2 ^ bb ∧ Within mask s) (e : End) : ∀ (items : List (End × Nat)) (k : Nat),
    Within mask k → (items.map (·.2)).sum ≤ above l k → (∃ it ∈ items, it.1.id = e.id) →
    ∃ bs, rpcLoop bb mask base e items k = .ok bs ∧ ∃ it ∈ items, it.1.id = e.id ∧ bs.length = it.2 := by
  intro items
  induction items with
  | nil => intro _ _ _ h; obtain ⟨_, h, _⟩ := h; cases h
  | cons it items ih =>
    obtain ⟨o, n⟩ := it
    intro k hk hd hex
    rw [List.map_cons, List.sum_cons] at hd
    obtain ⟨bs, j, h1, h2, h3, h4⟩ := takeSubs_live bb mask base hn hl n k (by simp at hd; omega) hk
    simp only [rpcLoop, h1]
    by_cases he : e.id = o.id
    · rw [if_pos he]
      exact ⟨bs, rfl, _, List.mem_cons_self, he.symm, h2⟩
    · rw [if_neg he]
      have hex' : ∃ it ∈ items, it.1.id = e.id := by
        obtain ⟨x, hx, hxe⟩ := hex
        rcases List.mem_cons.mp hx with rfl | hx
        · exact absurd hxe.symm he
        · exact ⟨x, hx, hxe⟩
      obtain ⟨bs', g1, it', g2, g3, g4⟩ := ih j h3 (by simp at hd ⊢; omega) hex'
      exact ⟨bs', g1, it', List.mem_cons_of_mem _ g2, g3, g4⟩

theorem rpcItems_size (inst : Nat) (conns : List RpcConn) :
    ((conns.flatMap (rpcItems inst)).map (·.2)).sum = rpcDemand conns inst := by
  unfold rpcDemand
  have hside : ∀ (l : List End) (p : End → Bool) (n : Nat), (((l.filter p).map (fun e => (e, n))).map (·.2)).sum = l.countP p * n := by
    intro l p n
    rw [List.map_map, List.countP_eq_length_filter]
    generalize l.filter p = m
    induction m with
    | nil => simp
    | cons a m ih => rw [List.map_cons, List.sum_cons, ih, List.length_cons, Nat.succ_mul]; simp only [Function.comp]; omega
  induction conns with
  | nil => rfl
  | cons c conns ih =>
    rw [List.flatMap_cons, List.map_append, List.sum_append, ih, List.map_cons, List.sum_cons]
    congr 1
    unfold rpcItems
    rw [List.map_append, List.sum_append]
    congr 1
    · split
      · exact hside _ _ _
      · rfl
    · split
      · exact hside _ _ _
      · rfl

/-- C35: every end gets a badge for each of its clients, if there are more selections of bits
(below the full mask) than the instance needs badges. (Ends are told apart by their ids.) -/
theorem rpc_badges_given (bb mask base : Nat) (conns : List RpcConn) (e : End)
    (hids : ∀ c ∈ conns, ∀ o ∈ c.fromEnds ++ c.toEnds, o.id = e.id → o = e)
    (hw : ∃ n, RpcWants conns e n) (sels : List Nat) (hn : sels.Nodup)
    (hl : ∀ s ∈ sels, 0 < s ∧ s < mask ∧ s < 2 ^ bb ∧ Within mask s) (henough : rpcDemand conns e.inst < sels.length) :
    ∃ bs, rpcBadges bb mask base conns e = .ok bs ∧ RpcWants conns e bs.length := by
  unfold rpcBadges
  have habove : above sels 0 = sels.length := by
    unfold above
    rw [List.filter_eq_self.mpr]
    intro s hs; simpa using (hl s hs).1
  obtain ⟨j, h1, _, h2, h3⟩ := setNextSub_live bb mask hn hl 0 (by intro i hi; simp at hi) (by omega)
  rw [Nat.zero_add] at h1
  rw [h1]
  have hmem : ∀ it, it ∈ conns.flatMap (rpcItems e.inst) ↔ ∃ c ∈ conns,
      (c.fromGlobal = true ∧ it.1 ∈ c.fromEnds ∧ it.1.inst = e.inst ∧ it.2 = c.toEnds.length) ∨
      (c.toGlobal = true ∧ it.1 ∈ c.toEnds ∧ it.1.inst = e.inst ∧ it.2 = c.fromEnds.length) := by
    rintro ⟨o, n⟩
    rw [List.mem_flatMap]
    apply exists_congr
    intro c
    apply and_congr_right
    intro _
    unfold rpcItems
    rw [List.mem_append]
    apply or_congr
    · cases c.fromGlobal <;> simp [List.mem_map, List.mem_filter, and_assoc, eq_comm]
    · cases c.toGlobal <;> simp [List.mem_map, List.mem_filter, and_assoc, eq_comm]
  obtain ⟨bs, h4, it, h5, h6, h7⟩ := rpcLoop_live bb mask base hn hl e (conns.flatMap (rpcItems e.inst)) j h2
    (by rw [rpcItems_size]; omega) (by
      obtain ⟨n, c, hc, h⟩ := hw
      rcases h with ⟨g1, g2, _⟩ | ⟨g1, g2, _⟩
      · exact ⟨(e, _), (hmem _).mpr ⟨c, hc, .inl ⟨g1, g2, rfl, rfl⟩⟩, rfl⟩
      · exact ⟨(e, _), (hmem _).mpr ⟨c, hc, .inr ⟨g1, g2, rfl, rfl⟩⟩, rfl⟩)
  refine ⟨bs, h4, ?_⟩
  obtain ⟨c, hc, h⟩ := (hmem it).mp h5
  rw [h7]
  rcases h with ⟨g1, g2, _, g4⟩ | ⟨g1, g2, _, g4⟩
  · have : it.1 = e := hids c hc it.1 (by simp [g2]) h6
    exact ⟨c, hc, .inl ⟨g1, this ▸ g2, g4⟩⟩
  · have : it.1 = e := hids c hc it.1 (by simp [g2]) h6
    exact ⟨c, hc, .inr ⟨g1, this ▸ g2, g4⟩⟩

/-! ### Clients of one connection -/

theorem skipUsed_spec (badges : List (Option Nat)) : ∀ (n next : Nat),
    next ≤ skipUsed badges n next ∧ (∀ i, next ≤ i → i < skipUsed badges n next → some i ∈ badges) ∧
    (some (skipUsed badges n next) ∈ badges → skipUsed badges n next = next + n) := by
  intro n
  induction n with
  | zero => intro next; simp [skipUsed]; intro i h1 h2; omega
  | succ n ih =>
    intro next
    simp only [skipUsed]
    by_cases h : some next ∈ badges
    · rw [if_pos h]
      obtain ⟨a, b, c⟩ := ih (next + 1)
      refine ⟨by omega, ?_, ?_⟩
      · intro i h1 h2
        by_cases hi : i = next
        · subst hi; exact h
        · exact b i (by omega) h2
      · intro hm; have := c hm; omega
    · rw [if_neg h]
      obtain ⟨a, b, c⟩ := ih next
      have hz : skipUsed badges n next = next := by
        by_contra hc
        exact h (b next (Nat.le_refl _) (by omega))
      rw [hz]
      exact ⟨Nat.le_refl _, fun i h1 h2 => by omega, fun hm => absurd hm h⟩

/-- The search always ends at an unused badge. -/
theorem skipUsed_unused (badges : List (Option Nat)) (hnone : none ∈ badges) (next : Nat) :
    some (skipUsed badges badges.length next) ∉ badges := by
  intro h
  obtain ⟨a, b, c⟩ := skipUsed_spec badges badges.length next
  have hc := c h
  -- `next, ..., next + length` are all used, and so is `none`: too many
  have hsub : (none :: (List.range' next badges.length).map some) ⊆ badges := by
    intro x hx
    rcases List.mem_cons.mp hx with rfl | hx
    · exact hnone
    · obtain ⟨i, hi, rfl⟩ := List.mem_map.mp hx
      rw [List.mem_range'_1] at hi
      exact b i hi.1 (by omega)
  have hnd : (none :: (List.range' next badges.length).map some).Nodup := by
    rw [List.nodup_cons]
    constructor
    · simp
    · exact List.Nodup.map (Option.some_injective _) List.nodup_range'
  have := (List.subperm_of_subset hnd hsub).length_le
  simp at this

theorem fillBadges_spec : ∀ (rest i next : Nat) (badges : List (Option Nat)), i + rest = badges.length → 0 < next →
    (∀ j : Nat, j < i → badges[j]? ≠ some none) →
    let out := fillBadges rest i next badges
    out.length = badges.length ∧ (∀ j : Nat, out[j]? ≠ some none) ∧
    (∀ j b : Nat, badges[j]? = some (some b) → out[j]? = some (some b)) ∧
    (∀ j b : Nat, badges[j]? = some none → out[j]? = some (some b) → 0 < b ∧
      ∀ j' : Nat, j' ≠ j → out[j']? ≠ some (some b)) := by
  intro rest
  induction rest with
  | zero =>
    intro i next badges hi _ hdone
    simp only [fillBadges]
    have hnn : ∀ j : Nat, badges[j]? ≠ some none := by
      intro j hj
      by_cases h : j < i
      · exact hdone j h hj
      · rw [List.getElem?_eq_none (by omega)] at hj; cases hj
    exact ⟨trivial, hnn, fun j b h => h, fun j b h => absurd h (hnn j)⟩
  | succ rest ih =>
    intro i next badges hi hnext hdone
    simp only [fillBadges]
    have hlt : i < badges.length := by omega
    cases hb : badges[i]? with
    | none => rw [List.getElem?_eq_none_iff] at hb; omega
    | some o =>
      cases o with
      | some x =>
        simp only []
        apply ih (i + 1) next badges (by omega) hnext
        intro j hj
        by_cases hji : j = i
        · subst hji; rw [hb]; simp
        · exact hdone j (by omega)
      | none =>
        simp only []
        have hmem : none ∈ badges := List.mem_of_getElem? hb
        have hun := skipUsed_unused badges hmem next
        have hge := (skipUsed_spec badges badges.length next).1
        generalize hn : skipUsed badges badges.length next = n at *
        obtain ⟨l1, l2, l3, l4⟩ := ih (i + 1) n (badges.set i (some n)) (by simp; omega) (by omega) (by
          intro j hj
          by_cases hji : j = i
          · subst hji; rw [List.getElem?_set_self hlt]; simp
          · rw [List.getElem?_set_ne (fun x => hji x.symm)]; exact hdone j (by omega))
        have hset : ∀ j : Nat, j ≠ i → (badges.set i (some n))[j]? = badges[j]? :=
          fun j hj => List.getElem?_set_ne (fun x => hj x.symm)
        have hseti : (badges.set i (some n))[i]? = some (some n) := List.getElem?_set_self hlt
        refine ⟨by rw [l1]; simp, l2, ?_, ?_⟩
        · intro j b h
          have hji : j ≠ i := by rintro rfl; rw [hb] at h; cases h
          exact l3 j b (by rw [hset j hji]; exact h)
        · intro j b h h'
          by_cases hji : j = i
          · subst hji
            have := l3 j n hseti
            rw [this] at h'
            simp only [Option.some.injEq] at h'
            subst h'
            refine ⟨by omega, ?_⟩
            intro j' hne hj'
            have h0 : badges[j']? = some none := by
              cases hx : badges[j']? with
              | none =>
                rw [List.getElem?_eq_none_iff] at hx
                rw [List.getElem?_eq_none (by rw [l1]; simpa using hx)] at hj'
                cases hj'
              | some o =>
                cases o with
                | none => rfl
                | some y =>
                  have := l3 j' y (by rw [hset j' hne]; exact hx)
                  rw [this] at hj'
                  simp only [Option.some.injEq] at hj'
                  subst hj'
                  exact absurd (List.mem_of_getElem? hx) hun
            have := (l4 j' n (by rw [hset j' hne]; exact h0) hj').2 j (fun x => hne x.symm)
            exact this (l3 j n hseti)
          · exact l4 j b (by rw [hset j hji]; exact h) h'

/-- C35: every client of a connection gets a badge; explicitly configured badges are kept; a badge
that is not configured is positive and different from the badges of all other clients. -/
theorem allocate_spec (explicit : List (Option Nat)) :
    (allocateBadges explicit).length = explicit.length ∧
    (∀ i : Nat, (allocateBadges explicit)[i]? ≠ some none) ∧
    (∀ (i : Nat) (b : Nat), explicit[i]? = some (some b) → (allocateBadges explicit)[i]? = some (some b)) ∧
    (∀ (i : Nat) (b : Nat), explicit[i]? = some none → (allocateBadges explicit)[i]? = some (some b) → 0 < b ∧
      ∀ j : Nat, j ≠ i → (allocateBadges explicit)[j]? ≠ some (some b)) :=
  fillBadges_spec explicit.length 0 1 explicit (by omega) (by decide) (by intro j hj; omega)

/-- C35: if the configured badges are different from each other, all badges are. -/
theorem allocate_distinct_partial (explicit : List (Option Nat))
    (h : ∀ (i j b : Nat), explicit[i]? = some (some b) → explicit[j]? = some (some b) → i = j) :
    (allocateBadges explicit).Nodup := by
  obtain ⟨h1, h2, h3, h4⟩ := allocate_spec explicit
  rw [List.nodup_iff_getElem?_ne_getElem?]
  intro i j hij hj heq
  cases hx : (allocateBadges explicit)[i]? with
  | none => rw [List.getElem?_eq_none_iff] at hx; omega
  | some o =>
    cases o with
    | none => exact h2 i hx
    | some b =>
      rw [hx] at heq
      have hi' : i < explicit.length := by omega
      have hj' : j < explicit.length := by omega
      cases hei : explicit[i]? with
      | none => rw [List.getElem?_eq_none_iff] at hei; omega
      | some oi =>
        cases oi with
        | none => exact (h4 i b hei hx).2 j (by omega) heq.symm
        | some bi =>
          cases hej : explicit[j]? with
          | none => rw [List.getElem?_eq_none_iff] at hej; omega
          | some oj =>
            cases oj with
            | none => exact (h4 j b hej heq.symm).2 i (by omega) hx
            | some bj =>
              have e1 := h3 i bi hei
              have e2 := h3 j bj hej
              rw [hx] at e1
              rw [← heq] at e2
              simp only [Option.some.injEq] at e1 e2
              subst e1; subst e2
              have := h i j b hei hej
              omega

/-! ### Concrete cases -/

def endA : End := ⟨1, 7⟩
def endB : End := ⟨2, 7⟩
def endC : End := ⟨3, 8⟩
def demoCfg : IrqCfg := ⟨fun _ => true, fun _ => .ok 2⟩
def demoConns : List Conn :=
  [⟨true, false, false, [], [endA]⟩, ⟨false, false, true, [endC], [endB]⟩]

/-- The hypotheses of the theorems can be met: two interrupts and a notification, with mask `0b10110`
and base 1. -/
example : globalBadges 28 0b10110 1 demoCfg demoConns endA = .ok [0b00011, 0b00101] ∧
    globalBadges 28 0b10110 1 demoCfg demoConns endB = .ok [0b10001] := ⟨rfl, rfl⟩

/-- C34 does not hold in full: if the configured base has bits of the configured mask, two sources
get the same badge and no error is raised. -/
theorem overlapping_base_ambiguous :
    globalBadges 28 0b10110 0b00111 demoCfg demoConns endA = .ok [0b00111, 0b00111] := rfl

def demoRpc : List RpcConn := [⟨false, true, [endC, endC, endC], [endA]⟩, ⟨false, true, [endC], [endB]⟩]

example : rpcBadges 28 0b11010 1 demoRpc endA = .ok [0b00011, 0b01001, 0b01011] ∧
    rpcBadges 28 0b11010 1 demoRpc endB = .ok [0b10001] := ⟨rfl, rfl⟩

/-- C35 does not hold in full: overlapping base and mask give equal badges. -/
theorem rpc_overlapping_base_ambiguous :
    rpcBadges 28 0b11010 0b00010 demoRpc endA = .ok [0b00010, 0b01010, 0b01010] := rfl

/-- C35: the last selection of bits is never handed out, even if it is needed. -/
theorem rpc_last_badge_unused : rpcBadges 28 0b110 0 [⟨false, true, [endC, endC, endC], [endA]⟩] endA =
    .error "Couldn't allocate endpoint badge" := rfl

/-- The hypotheses of `badges_given` and `rpc_badges_given` can be met. -/
example : demand demoCfg demoConns 7 = 3 ∧ Wants demoCfg demoConns endA 2 ∧ rpcDemand demoRpc 7 = 4 ∧
    RpcWants demoRpc endA 3 :=
  ⟨rfl, ⟨_, List.mem_cons_self, .inr (.inr ⟨rfl, by simp, rfl, rfl⟩)⟩, rfl,
    ⟨_, List.mem_cons_self, .inr ⟨rfl, by simp, rfl⟩⟩⟩

example : allocateBadges [none, some 2, none, some 1] = [some 3, some 2, some 4, some 1] := rfl

/-- C35 does not hold in full: two clients can be configured with the same badge. -/
theorem explicit_duplicates_kept : allocateBadges [some 5, none, some 5] = [some 5, some 1, some 5] := rfl

end Verif.Badges
