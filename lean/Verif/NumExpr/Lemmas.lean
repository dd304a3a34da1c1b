import Mathlib.Tactic.Linarith
import Mathlib.Tactic.Positivity
import Verif.NumExpr.Spec

namespace Verif.NumExpr
open Spec

theorem bit_testBit (i : Nat) (x : Int) : bit i x ↔ x.testBit i = true := by
  unfold bit
  cases x with
  | ofNat n =>
    have : (Int.ofNat n) / 2 ^ i = ((n / 2 ^ i : Nat) : Int) := by push_cast; rfl
    rw [this]
    simp only [Int.testBit, Nat.testBit_eq_decide_div_mod_eq, decide_eq_true_eq]
    omega
  | negSucc n =>
    have : (Int.negSucc n) / 2 ^ i = -((n / 2 ^ i : Nat) : Int) - 1 := by
      have h2 : ((n / 2 ^ i : Nat) : Int) = (n : Int).ediv (2 ^ i) := by push_cast; rfl
      rw [Int.negSucc_ediv n (by positivity), h2]
      omega
    rw [this]
    simp only [Int.testBit, Nat.testBit_eq_decide_div_mod_eq, Bool.not_eq_true',
      decide_eq_false_iff_not]
    omega

theorem testBit_ext {a b : Int} (h : ∀ i, a.testBit i = b.testBit i) : a = b := by
  cases a with
  | ofNat m =>
    cases b with
    | ofNat n => congr 1; exact Nat.eq_of_testBit_eq h
    | negSucc n =>
      exfalso
      have := h (m + n)
      simp only [Int.testBit] at this
      rw [Nat.testBit_lt_two_pow (lt_of_le_of_lt (Nat.le_add_right m n) Nat.lt_two_pow_self),
        Nat.testBit_lt_two_pow (lt_of_le_of_lt (Nat.le_add_left n m) Nat.lt_two_pow_self)] at this
      simp at this
  | negSucc m =>
    cases b with
    | ofNat n =>
      exfalso
      have := h (m + n)
      simp only [Int.testBit] at this
      rw [Nat.testBit_lt_two_pow (lt_of_le_of_lt (Nat.le_add_right m n) Nat.lt_two_pow_self),
        Nat.testBit_lt_two_pow (lt_of_le_of_lt (Nat.le_add_left n m) Nat.lt_two_pow_self)] at this
      simp at this
    | negSucc n =>
      congr 1
      apply Nat.eq_of_testBit_eq
      intro i
      have := h i
      simpa [Int.testBit] using this

theorem bit_ext {a b : Int} (h : ∀ i, bit i a ↔ bit i b) : a = b :=
  testBit_ext fun i => by
    have := h i
    rw [bit_testBit, bit_testBit] at this
    exact Bool.eq_iff_iff.mpr this

theorem floorQuot_fdiv {a b : Int} (hb : b ≠ 0) : IsFloorQuot a b (a.fdiv b) := by
  have h1 := Int.mul_fdiv_add_fmod a b
  rcases lt_or_gt_of_ne hb with h | h
  · right
    have h2 := Int.fmod_nonneg_of_pos (-a) (b := -b) (by omega)
    have h3 := Int.fmod_lt_of_pos (-a) (b := -b) (by omega)
    rw [Int.neg_fmod_neg] at h2 h3
    refine ⟨h, ?_, ?_⟩ <;> nlinarith
  · left
    have h2 := Int.fmod_nonneg_of_pos a h
    have h3 := Int.fmod_lt_of_pos a h
    refine ⟨h, ?_, ?_⟩ <;> nlinarith

theorem floorQuot_unique {a b v w : Int} (hv : IsFloorQuot a b v) (hw : IsFloorQuot a b w) :
    v = w := by
  rcases hv with ⟨h, h1, h2⟩ | ⟨h, h1, h2⟩ <;> rcases hw with ⟨h', h3, h4⟩ | ⟨h', h3, h4⟩
  · have : v < w + 1 := by by_contra hc; nlinarith
    have : w < v + 1 := by by_contra hc; nlinarith
    omega
  · omega
  · omega
  · have : v < w + 1 := by by_contra hc; nlinarith
    have : w < v + 1 := by by_contra hc; nlinarith
    omega

theorem floorQuot_iff {a b v : Int} : IsFloorQuot a b v ↔ b ≠ 0 ∧ v = a.fdiv b := by
  constructor
  · intro h
    have hb : b ≠ 0 := by rcases h with ⟨h, _⟩ | ⟨h, _⟩ <;> omega
    exact ⟨hb, floorQuot_unique h (floorQuot_fdiv hb)⟩
  · rintro ⟨hb, rfl⟩; exact floorQuot_fdiv hb

theorem truth_iff {p : Prop} [Decidable p] {v : Int} : truth p v ↔ v = if p then 1 else 0 := by
  unfold truth; split <;> simp_all

theorem bnot_bits (v : Int) (i : Nat) : bit i (-1 - v) ↔ ¬ bit i v := by
  have : -1 - v = Int.not v := by
    cases v <;> simp [Int.not] <;> omega
  rw [bit_testBit, bit_testBit]
  cases v with
  | ofNat n =>
    have h : (-1 - Int.ofNat n) = Int.negSucc n := by simp; omega
    rw [h]; simp [Int.testBit]
  | negSucc n =>
    have h : (-1 - Int.negSucc n) = Int.ofNat n := by simp; omega
    rw [h]; simp [Int.testBit]

theorem applyOp_iff (o : Op) (a b v : Int) : applyOp o a b = .ok v ↔ Means o a b v := by
  cases o <;> simp only [applyOp, Means, Except.ok.injEq, truth_iff, floorQuot_iff]
  case add => exact eq_comm
  case sub => exact eq_comm
  case mul => exact eq_comm
  case eq => exact eq_comm
  case neq => exact eq_comm
  case lt => exact eq_comm
  case lte => exact eq_comm
  case gt => exact eq_comm
  case gte => exact eq_comm
  case div => split <;> simp_all [eq_comm]
  case mod =>
    split
    · simp_all
    · rename_i h
      simp only [Except.ok.injEq]
      have h1 := Int.mul_fdiv_add_fmod a b
      constructor
      · rintro rfl; exact ⟨_, ⟨h, rfl⟩, by linarith⟩
      · rintro ⟨_, ⟨_, rfl⟩, rfl⟩; linarith
  case pow =>
    split
    · constructor
      · intro h; split at h <;> simp at h
      · rintro ⟨n, rfl, rfl⟩; omega
    · simp only [Except.ok.injEq]
      constructor
      · rintro rfl; exact ⟨b.toNat, by omega, rfl⟩
      · rintro ⟨n, rfl, rfl⟩; simp
  case ls =>
    split
    · constructor
      · intro h; simp at h
      · rintro ⟨n, rfl, rfl⟩; omega
    · simp only [Except.ok.injEq]
      constructor
      · rintro rfl; exact ⟨b.toNat, by omega, rfl⟩
      · rintro ⟨n, rfl, rfl⟩; simp
  case rs =>
    split
    · constructor
      · intro h; simp at h
      · rintro ⟨n, rfl, _⟩; omega
    · simp only [Except.ok.injEq]
      constructor
      · rintro rfl; exact ⟨b.toNat, by omega, by positivity, rfl⟩
      · rintro ⟨n, rfl, _, rfl⟩; simp
  case land => split <;> simp_all [eq_comm]
  case lor => split <;> simp_all [eq_comm]
  case band =>
    have h : ∀ i, bit i (Int.land a b) ↔ (bit i a ∧ bit i b) := by
      intro i; simp [bit_testBit]
    constructor
    · rintro rfl; exact h
    · intro hv; exact bit_ext fun i => (h i).trans (hv i).symm
  case bor =>
    have h : ∀ i, bit i (Int.lor a b) ↔ (bit i a ∨ bit i b) := by
      intro i; simp [bit_testBit]
    constructor
    · rintro rfl; exact h
    · intro hv; exact bit_ext fun i => (h i).trans (hv i).symm
  case xor =>
    have h : ∀ i, bit i (Int.xor a b) ↔ ¬ (bit i a ↔ bit i b) := by
      intro i
      simp only [bit_testBit, Int.testBit_lxor]
      cases a.testBit i <;> cases b.testBit i <;> simp
    constructor
    · rintro rfl; exact h
    · intro hv; exact bit_ext fun i => (h i).trans (hv i).symm

mutual
theorem lift_evals : ∀ (t : Tree) (v : Int), lift t = .ok v ↔ Evals t v
  | .number n, v => by
    simp only [lift, Except.ok.injEq]
    constructor
    · rintro rfl; exact .number _
    · intro h; cases h; rfl
  | .boolean s, v => by
    simp only [lift, Except.ok.injEq]
    constructor
    · rintro rfl
      split
      · rename_i h
        rcases h with rfl | rfl
        · exact .True_
        · exact .true_
      · rename_i h
        simp only [not_or] at h
        exact .false_ _ h.2 h.1
    · intro h
      cases h with
      | true_ => simp
      | True_ => simp
      | false_ _ h1 h2 => simp [h1, h2]
  | .unaryMinus e, v => by
    have ih := lift_evals e
    simp only [lift]
    cases he : lift e with
    | error x =>
      simp only [reduceCtorEq, false_iff]
      intro h; cases h with | minus _ w hw => rw [(ih w).mpr hw] at he; cases he
    | ok w =>
      simp only [Except.ok.injEq]
      constructor
      · rintro rfl; exact .minus _ _ ((ih w).mp he)
      · intro h; cases h with
        | minus _ w' hw => have := (ih w').mpr hw; rw [he] at this; cases this; rfl
  | .logicalNot e, v => by
    have ih := lift_evals e
    simp only [lift]
    cases he : lift e with
    | error x =>
      simp only [reduceCtorEq, false_iff]
      intro h; cases h with | not _ w _ hw _ => rw [(ih w).mpr hw] at he; cases he
    | ok w =>
      simp only [Except.ok.injEq]
      constructor
      · rintro rfl; exact .not _ w _ ((ih w).mp he) (truth_iff.mpr rfl)
      · intro h; cases h with
        | not _ w' _ hw ht =>
          have := (ih w').mpr hw; rw [he] at this; cases this; exact (truth_iff.mp ht).symm
  | .bitwiseNot e, v => by
    have ih := lift_evals e
    simp only [lift]
    cases he : lift e with
    | error x =>
      simp only [reduceCtorEq, false_iff]
      intro h; cases h with | bnot _ w _ hw _ => rw [(ih w).mpr hw] at he; cases he
    | ok w =>
      simp only [Except.ok.injEq]
      constructor
      · rintro rfl; exact .bnot _ w _ ((ih w).mp he) (bnot_bits w)
      · intro h; cases h with
        | bnot _ w' _ hw ht =>
          have := (ih w').mpr hw; rw [he] at this; cases this
          exact bit_ext fun i => (bnot_bits w i).trans (ht i).symm
  | .chain first rest, v => by
    have ih := lift_evals first
    have ihr := liftRest_evals rest
    simp only [lift]
    cases he : lift first with
    | error x =>
      simp only [reduceCtorEq, false_iff]
      intro h; cases h with | chain _ a _ _ hw _ => rw [(ih a).mpr hw] at he; cases he
    | ok a =>
      simp only
      have key := ihr a v
      cases hr : liftRest rest with
      | error x =>
        simp only [reduceCtorEq, false_iff]
        intro h; cases h with
        | chain _ a' _ _ hw hc =>
          have := (ih a').mpr hw; rw [he] at this; cases this
          obtain ⟨vs, h1, _⟩ := key.mpr hc
          rw [hr] at h1; cases h1
      | ok vs =>
        simp only
        constructor
        · intro h; exact .chain _ a _ _ ((ih a).mp he) (key.mp ⟨vs, hr, h⟩)
        · intro h; cases h with
          | chain _ a' _ _ hw hc =>
            have := (ih a').mpr hw; rw [he] at this; cases this
            obtain ⟨vs', h1, h2⟩ := key.mpr hc
            rw [hr] at h1; cases h1; exact h2
  | .ternary c t f, v => by
    have ihc := lift_evals c
    have iht := lift_evals t
    have ihf := lift_evals f
    simp only [lift]
    constructor
    · intro h
      cases hc : lift c with
      | error x => simp [hc] at h
      | ok vc =>
        cases ht : lift t with
        | error x => simp [hc, ht] at h
        | ok vt =>
          cases hf : lift f with
          | error x => simp [hc, ht, hf] at h
          | ok vf =>
            simp only [hc, ht, hf, Except.ok.injEq] at h
            subst h
            split
            · rename_i h0; subst h0
              exact .condFalse _ _ _ vt _ ((ihc _).mp hc) ((iht _).mp ht) ((ihf _).mp hf)
            · rename_i h0
              exact .condTrue _ _ _ vc _ vf ((ihc _).mp hc) ((iht _).mp ht) ((ihf _).mp hf) h0
    · intro h
      cases h with
      | condTrue _ _ _ vc vt vf h1 h2 h3 h0 =>
        rw [(ihc _).mpr h1, (iht _).mpr h2, (ihf _).mpr h3]; simp [h0]
      | condFalse _ _ _ vt vf h1 h2 h3 =>
        rw [(ihc _).mpr h1, (iht _).mpr h2, (ihf _).mpr h3]; simp
theorem liftRest_evals : ∀ (rest : List (Op × Tree)) (a v : Int),
    (∃ vs, liftRest rest = .ok vs ∧ foldOps a vs = .ok v) ↔ EvalsChain a rest v
  | [], a, v => by
    simp only [liftRest]
    constructor
    · rintro ⟨vs, h1, h2⟩
      cases h1
      simp only [foldOps, Except.ok.injEq] at h2
      subst h2; exact .nil _
    · intro h; cases h; exact ⟨[], rfl, rfl⟩
  | (o, e) :: rest, a, v => by
    have ih := lift_evals e
    have ihr := liftRest_evals rest
    simp only [liftRest]
    constructor
    · rintro ⟨vs, h1, h2⟩
      cases he : lift e with
      | error x => simp [he] at h1
      | ok b =>
        cases hr : liftRest rest with
        | error x => simp [he, hr] at h1
        | ok ws =>
          simp only [he, hr, Except.ok.injEq] at h1
          subst h1
          simp only [foldOps] at h2
          cases ho : applyOp o a b with
          | error x => simp [ho] at h2
          | ok m =>
            simp only [ho] at h2
            exact .cons _ _ _ b m _ _ ((ih b).mp he) ((applyOp_iff _ _ _ _).mp ho)
              ((ihr m v).mp ⟨ws, hr, h2⟩)
    · intro h
      cases h with
      | cons _ _ _ b m _ _ h1 h2 h3 =>
        obtain ⟨ws, h4, h5⟩ := (ihr m v).mpr h3
        refine ⟨(o, b) :: ws, ?_, ?_⟩
        · rw [(ih b).mpr h1, h4]
        · simp only [foldOps, (applyOp_iff _ _ _ _).mpr h2]; exact h5
end

end Verif.NumExpr
