import Verif.Macros.Spec
import Mathlib.Tactic.Linarith
import Mathlib.Tactic.Ring
import Mathlib.Tactic.Positivity
import Mathlib.Algebra.Order.Ring.Int
import Mathlib.Data.Nat.Bitwise
import Mathlib.Data.Nat.Log

namespace Verif.Macros
open Spec

/-! ### Rounding -/

/-- C31: rounding up returns the least multiple that is not below the argument. -/
theorem roundUp_spec (x y : Int) (hy : 0 < y) : ∃ r, roundUp x y = some r ∧ IsRoundUp x y r := by
  refine ⟨_, if_pos hy, ⟨_, Int.mul_comm _ _⟩, ?_, ?_⟩
  · rw [Int.fdiv_eq_ediv_of_nonneg _ hy.le]
    have h1 := Int.mul_ediv_add_emod (x + y - 1) y
    have h2 := Int.emod_lt_of_pos (x + y - 1) hy
    rw [Int.mul_comm] at h1
    omega
  · rintro m ⟨k, rfl⟩ hm
    rw [Int.fdiv_eq_ediv_of_nonneg _ hy.le, Int.mul_comm y k]
    apply Int.mul_le_mul_of_nonneg_right _ hy.le
    have : (x + y - 1) / y < k + 1 := by
      apply Int.ediv_lt_of_lt_mul hy
      rw [Int.add_mul, Int.one_mul, Int.mul_comm k y]
      omega
    omega

/-- C31: rounding down returns the greatest multiple that is not above the argument. -/
theorem roundDown_spec (x y : Int) (hy : 0 < y) : ∃ r, roundDown x y = some r ∧ IsRoundDown x y r := by
  refine ⟨_, if_pos hy, ⟨_, Int.mul_comm _ _⟩, ?_, ?_⟩
  · rw [Int.fdiv_eq_ediv_of_nonneg _ hy.le]
    exact Int.ediv_mul_le x hy.ne'
  · rintro m ⟨k, rfl⟩ hm
    rw [Int.fdiv_eq_ediv_of_nonneg _ hy.le, Int.mul_comm y k]
    apply Int.mul_le_mul_of_nonneg_right _ hy.le
    apply Int.le_ediv_of_mul_le hy
    rw [Int.mul_comm]; exact hm

/-- C31: an alignment that is not positive is refused. -/
theorem round_rejects (x y : Int) (hy : y ≤ 0) : roundUp x y = none ∧ roundDown x y = none := by
  constructor <;> exact if_neg (by omega)

/-- C31: aligning an address rounds down to the page, for page sizes that are powers of two. -/
theorem alignPage_spec (a k : Nat) : IsRoundDown a (2 ^ k : Nat) (alignPageAddress a (2 ^ k)) := by
  have he : alignPageAddress a (2 ^ k) = a / 2 ^ k * 2 ^ k := by
    unfold alignPageAddress
    rw [Nat.and_two_pow_sub_one_eq_mod]
    have h1 : a = 2 ^ k * (a / 2 ^ k) + a % 2 ^ k := (Nat.div_add_mod a (2 ^ k)).symm
    apply Nat.eq_of_testBit_eq
    intro i
    rw [Nat.testBit_xor, Nat.testBit_mod_two_pow, Nat.mul_comm, Nat.testBit_two_pow_mul]
    by_cases hi : i < k
    · have : ¬ i ≥ k := by omega
      simp [hi, this]
    · have h2 : i ≥ k := by omega
      simp only [hi, decide_false, Bool.false_and, Bool.xor_false, h2, decide_true, Bool.true_and]
      rw [Nat.testBit_div_two_pow]
      congr 1
      omega
  rw [he]
  obtain ⟨r, h1, h2⟩ := roundDown_spec a (2 ^ k : Nat) (by positivity)
  have : r = ((a / 2 ^ k * 2 ^ k : Nat) : Int) := by
    have hpos : (0 : Int) < ((2 ^ k : Nat) : Int) := by positivity
    simp only [roundDown] at h1
    rw [if_pos hpos, Int.fdiv_eq_ediv_of_nonneg _ hpos.le] at h1
    simp only [Option.some.injEq] at h1
    rw [← h1]
    push_cast
    rfl
  rw [← this]
  exact h2

/-- C31: the mapping size is the first of `p`, `p + 4096`, ... that is large enough, and it is
always found. -/
theorem nextPageMultiple_spec (size : Int) (p : Nat) (ps : List Nat) :
    ∃ r k : Nat, (∀ fuel, k < fuel → nextPageMultiple fuel size (p :: ps) = some (r : Int)) ∧
      r = p + 4096 * k ∧ size ≤ r ∧ ∀ j : Nat, size ≤ p + 4096 * j → k ≤ j := by
  have key : ∀ (k : Nat) (m : Int), size ≤ m + 4096 * k → (∀ j : Nat, j < k → ¬ size ≤ m + 4096 * j) →
      ∀ fuel, k < fuel → nextLoop size fuel m = some (m + 4096 * k) := by
    intro k
    induction k with
    | zero =>
      intro m h1 _ fuel hf
      cases fuel with
      | zero => omega
      | succ f => simp only [nextLoop]; rw [if_neg (by omega)]; simp
    | succ k ih =>
      intro m h1 h2 fuel hf
      cases fuel with
      | zero => omega
      | succ f =>
        simp only [nextLoop]
        have := h2 0 (by omega)
        rw [if_pos (by omega), ih (m + 4096) (by push_cast at *; omega) ?_ f (by omega)]
        · push_cast; congr 1; omega
        · intro j hj
          have := h2 (j + 1) (by omega)
          push_cast at *
          omega
  have hex : ∃ k : Nat, size ≤ p + 4096 * k := ⟨size.toNat, by omega⟩
  refine ⟨p + 4096 * Nat.find hex, Nat.find hex, ?_, rfl, ?_, ?_⟩
  · intro fuel hf
    simp only [nextPageMultiple]
    rw [key (Nat.find hex) p (Nat.find_spec hex) (fun j hj => Nat.find_min hex hj) fuel hf]
    push_cast; rfl
  · have := Nat.find_spec hex; push_cast; exact this
  · intro j hj; exact Nat.find_min' hex hj

/-- C31: the page size chosen is the largest supported one that divides the size and is not larger;
zero stands for none. -/
theorem getPageSize_spec (size : Nat) (ps : List Nat) (hs : ps.Pairwise (· < ·)) :
    (∀ p ∈ ps, p ≤ size → p ∣ size → p ≤ getPageSize size ps) ∧
    (getPageSize size ps ∈ ps ∧ getPageSize size ps ≤ size ∧ getPageSize size ps ∣ size ∨
      getPageSize size ps = 0 ∧ ∀ p ∈ ps, ¬ (p ≤ size ∧ p ∣ size)) := by
  unfold getPageSize
  cases hf : ps.reverse.find? (fun sz => size ≥ sz && size % sz = 0) with
  | none =>
    rw [List.find?_eq_none] at hf
    have : ∀ p ∈ ps, ¬ (p ≤ size ∧ p ∣ size) := by
      rintro p hp ⟨h1, h2⟩
      apply hf p (by simpa using hp)
      simp [h1, Nat.mod_eq_zero_of_dvd h2]
    exact ⟨fun p hp h1 h2 => absurd ⟨h1, h2⟩ (this p hp), .inr ⟨rfl, this⟩⟩
  | some sz =>
    rw [List.find?_eq_some_iff_append] at hf
    obtain ⟨h1, as, bs, h2, h3⟩ := hf
    simp only [ge_iff_le, Bool.and_eq_true, decide_eq_true_eq] at h1
    have hm : sz ∈ ps := by
      have : sz ∈ ps.reverse := by rw [h2]; simp
      simpa using this
    refine ⟨?_, .inl ⟨hm, h1.1, Nat.dvd_of_mod_eq_zero h1.2⟩⟩
    intro p hp hle hd
    have hp' : p ∈ as ++ sz :: bs := by rw [← h2]; simpa using hp
    have hpw : (as ++ sz :: bs).Pairwise (fun a b => b < a) := by
      rw [← h2, List.pairwise_reverse]; exact hs
    rcases List.mem_append.mp hp' with h | h
    · exfalso
      have := h3 p h
      simp [hle, Nat.mod_eq_zero_of_dvd hd] at this
    · rcases List.mem_cons.mp h with rfl | h
      · exact Nat.le_refl _
      · exact ((List.pairwise_cons.mp (List.pairwise_append.mp hpw).2.1).1 p h).le

/-! ### Untyped objects -/

theorem ctz_two_pow {ctz : Nat → Nat} (hc : IsCtz ctz) (k : Nat) : ctz (2 ^ k) = k := by
  obtain ⟨h1, h2⟩ := hc (2 ^ k) (by positivity)
  have a := (Nat.pow_dvd_pow_iff_le_right (by decide : 1 < 2)).mp h1
  rw [Nat.pow_dvd_pow_iff_le_right (by decide : 1 < 2)] at h2
  omega

theorem shrink_spec (remaining : Nat) (hr : 0 < remaining) : ∀ (k fuel : Nat), k < fuel →
    ∃ j, j ≤ k ∧ shrink remaining fuel (2 ^ k) = some (2 ^ j) ∧ 2 ^ j ≤ remaining ∧
      (j < k → remaining < 2 ^ (j + 1)) := by
  intro k
  induction k with
  | zero =>
    intro fuel hf
    cases fuel with
    | zero => omega
    | succ f =>
      refine ⟨0, Nat.le_refl _, ?_, hr, by simp⟩
      simp only [shrink, Nat.pow_zero]
      rw [if_pos (by omega), if_pos (by omega)]
  | succ k ih =>
    intro fuel hf
    cases fuel with
    | zero => omega
    | succ f =>
      have hp : 0 < 2 ^ (k + 1) := by positivity
      by_cases h : 2 ^ (k + 1) ≤ remaining
      · exact ⟨k + 1, Nat.le_refl _, by simp only [shrink]; rw [if_pos hp, if_pos h], h, by omega⟩
      · obtain ⟨j, h1, h2, h3, h4⟩ := ih f (by omega)
        refine ⟨j, by omega, ?_, h3, ?_⟩
        · simp only [shrink]
          rw [if_pos hp, if_neg h]
          have : 2 ^ (k + 1) / 2 = 2 ^ k := by rw [Nat.pow_succ]; omega
          rw [this]; exact h2
        · intro _
          by_cases hj : j = k
          · subst hj; omega
          · exact h4 (by omega)

/-- C32: an address range is split into naturally aligned blocks that tile it exactly; each block
is the largest possible at its address. -/
theorem untypeds_tile (ctz : Nat → Nat) (hc : IsCtz ctz) : ∀ (size start fuel : Nat), 0 < start → size < fuel →
    ∃ blocks, untypeds ctz fuel start size = some blocks ∧ Tiles start size blocks ∧ Largest start size blocks := by
  intro size
  induction size using Nat.strongRecOn with
  | _ size ih =>
    intro start fuel hs hf
    cases fuel with
    | zero => omega
    | succ f =>
      unfold untypeds
      simp only [untypedLoop]
      by_cases hz : size > 0
      · rw [if_pos hz]
        have hlt : ctz start < 2 ^ ctz start + 1 := by
          have := Nat.lt_two_pow_self (n := ctz start); omega
        obtain ⟨j, h1, h2, h3, h4⟩ := shrink_spec size hz (ctz start) (2 ^ ctz start + 1) hlt
        have hj : 0 < 2 ^ j := by positivity
        obtain ⟨bs, b1, b2, b3⟩ := ih (size - 2 ^ j) (by omega) (start + 2 ^ j) f (by omega) (by omega)
        rw [h2]
        unfold untypeds at b1
        simp only [b1, Option.map_some, ctz_two_pow hc]
        refine ⟨_, rfl, ⟨?_, ?_, ?_⟩, ?_⟩
        · intro b hb
          rcases List.mem_cons.mp hb with rfl | hb
          · exact (Nat.pow_dvd_pow 2 h1).trans (hc start hs).1
          · exact b2.aligned b hb
        · rw [List.pairwise_cons]
          refine ⟨?_, b2.ascending⟩
          intro b hb
          have : start + 2 ^ j ≤ b.1 := by
            have hp : 0 < 2 ^ b.2 := by positivity
            exact ((b2.exact b.1).mpr ⟨b, hb, Nat.le_refl _, by omega⟩).1
          exact this
        · intro byte
          have := b2.exact byte
          simp only [List.mem_cons, exists_eq_or_imp]
          rw [← this]
          unfold InBlock
          simp only
          omega
        · intro b hb
          rcases List.mem_cons.mp hb with rfl | hb
          · rintro ⟨d1, d2⟩
            simp only at d1 d2
            by_cases hjk : j < ctz start
            · have := h4 hjk; omega
            · have : j = ctz start := by omega
              subst this
              exact (hc start hs).2 d1
          · have := b3 b hb
            rintro ⟨d1, d2⟩
            exact this ⟨d1, by omega⟩
      · have : size = 0 := by omega
        subst this
        rw [if_neg hz]
        refine ⟨[], rfl, ⟨by simp, by simp, by simp⟩, by intro b hb; simp at hb⟩

/-! ### Method indices -/

/-- C33: the type chosen for `n` methods holds every index, and no smaller supported type does. -/
theorem typeToFit_spec (n : Nat) :
    (∀ w, typeToFit n = some w → w ∈ [8, 16, 32, 64] ∧ Holds w n ∧ ∀ w' ∈ [8, 16, 32, 64], Holds w' n → w ≤ w') ∧
    (typeToFit n = none ↔ ¬ Holds 64 n) := by
  have hh : ∀ w, Holds w n ↔ n ≤ 2 ^ w := by
    intro w
    constructor
    · intro h
      by_cases hn : n = 0
      · simp [hn]
      · have := h (n - 1) (by omega); omega
    · intro h i hi; omega
  constructor
  · intro w h
    unfold typeToFit at h
    split at h
    · rename_i h1; cases h
      exact ⟨by simp, (hh 8).mpr h1, by intro w' hw' _; simp at hw'; omega⟩
    · rename_i h1
      split at h
      · rename_i h2; cases h
        refine ⟨by simp, (hh 16).mpr h2, ?_⟩
        intro w' hw' hw
        rw [hh] at hw
        simp at hw'
        rcases hw' with rfl | rfl | rfl | rfl <;> omega
      · rename_i h2
        split at h
        · rename_i h3; cases h
          refine ⟨by simp, (hh 32).mpr h3, ?_⟩
          intro w' hw' hw
          rw [hh] at hw
          simp at hw'
          rcases hw' with rfl | rfl | rfl | rfl <;> omega
        · rename_i h3
          split at h
          · rename_i h4; cases h
            refine ⟨by simp, (hh 64).mpr h4, ?_⟩
            intro w' hw' hw
            rw [hh] at hw
            simp at hw'
            rcases hw' with rfl | rfl | rfl | rfl <;> omega
          · cases h
  · rw [hh]
    unfold typeToFit
    constructor
    · intro h
      split at h; · cases h
      split at h; · cases h
      split at h; · cases h
      split at h; · cases h
      assumption
    · intro h
      rw [if_neg (by omega), if_neg (by omega), if_neg (by omega), if_neg h]

/-! ### Concrete cases -/

example : roundUp 4097 4096 = some 8192 ∧ roundUp (-1) 4096 = some 0 ∧ roundDown (-1) 4096 = some (-4096) := by decide
example : getPageSize (3 * 2 ^ 21) [4096, 2 ^ 21, 2 ^ 30] = 2 ^ 21 := by decide
example : typeToFit 256 = some 8 ∧ typeToFit 257 = some 16 := by decide

/-- A function that counts trailing zeros. -/
def ctzDemo (n : Nat) : Nat := if h : n ≠ 0 ∧ 2 ∣ n then ctzDemo (n / 2) + 1 else 0
  decreasing_by have := h.1; omega

theorem ctzDemo_spec : IsCtz ctzDemo := by
  intro n
  induction n using Nat.strongRecOn with
  | _ n ih =>
    intro hn
    unfold ctzDemo
    split
    · rename_i h
      obtain ⟨m, rfl⟩ := h.2
      have hm : 2 * m / 2 = m := by omega
      rw [hm]
      obtain ⟨i1, i2⟩ := ih m (by omega) (by omega)
      constructor
      · rw [Nat.pow_succ, Nat.mul_comm]; exact Nat.mul_dvd_mul_left 2 i1
      · intro h'
        apply i2
        rw [Nat.pow_succ, Nat.mul_comm] at h'
        exact Nat.dvd_of_mul_dvd_mul_left (by decide) h'
    · rename_i h
      constructor
      · simp
      · intro h'; exact h ⟨by omega, by simpa using h'⟩

/-- The hypotheses of `untypeds_tile` can be met. -/
example : ∃ blocks, untypeds ctzDemo 100000 0x3000 0x5000 = some blocks ∧ Tiles 0x3000 0x5000 blocks ∧
    Largest 0x3000 0x5000 blocks := untypeds_tile ctzDemo ctzDemo_spec 0x5000 0x3000 100000 (by decide) (by decide)

end Verif.Macros
