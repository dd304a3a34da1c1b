import Verif.CNodeSize.Spec
import Mathlib.Tactic.SplitIfs

/-! # C124: sizes of CNodes -/

namespace Verif.CNodeSize

/-- **C124.** The size that is written into the specification is right, whatever the last slot. -/
theorem calculate_right (n : Nat) : Right n (calculate n) := by
  unfold calculate
  generalize hs : (if n < 2 then 2 else n) = s
  have h2 : 2 ≤ s := by split_ifs at hs <;> omega
  have hn : n ≤ s := by split_ifs at hs <;> omega
  have hlog : 1 ≤ Nat.log 2 s := Nat.log_pos (by omega) h2
  refine ⟨by show 2 ≤ Nat.log 2 s + 1; omega, ?_, ?_⟩
  · exact Nat.lt_of_le_of_lt hn (Nat.lt_pow_succ_log_self (by omega) s)
  · intro b hb hlt
    have : s < 2 ^ b := by
      split_ifs at hs
      · have := Nat.pow_le_pow_right (n := 2) (by omega) hb
        omega
      · omega
    exact Nat.log_lt_of_lt_pow (by omega) this

theorem loop_some {s : Nat} : ∀ (n i b : Nat), loop s n i = some b →
    i ≤ b ∧ s < 2 ^ b ∧ ∀ j, i ≤ j → s < 2 ^ j → b ≤ j := by
  intro n
  induction n with
  | zero => intro i b h; cases h
  | succ n ih =>
    intro i b h
    simp only [loop] at h
    split_ifs at h with hc
    · cases h
      exact ⟨Nat.le_refl _, hc, fun j hj _ => hj⟩
    · obtain ⟨h1, h2, h3⟩ := ih (i + 1) b h
      refine ⟨by omega, h2, ?_⟩
      intro j hj hlt
      by_cases hij : i = j
      · subst hij; exact absurd hlt hc
      · exact h3 j (by omega) hlt

theorem loop_none {s : Nat} : ∀ (n i : Nat), loop s n i = none ↔ ∀ j, i ≤ j → j < i + n → 2 ^ j ≤ s := by
  intro n
  induction n with
  | zero => intro i; simp [loop]; intro j; omega
  | succ n ih =>
    intro i
    simp only [loop]
    split_ifs with hc
    · simp
      exact ⟨i, Nat.le_refl _, by omega, hc⟩
    · rw [ih]
      constructor
      · intro h j hj hlt
        by_cases hij : i = j
        · subst hij; omega
        · exact h j (by omega) (by omega)
      · intro h j hj hlt
        exact h j (by omega) (by omega)

/-- **C124.** The size that the specification is checked with is right, as far as there is one. -/
theorem sizeBits_right {n b : Nat} (h : sizeBits n = some b) : Right n b ∧ b ≤ 28 := by
  unfold sizeBits at h
  generalize hs : (if n < 3 then 3 else n) = s at h
  have h3 : 3 ≤ s := by split_ifs at hs <;> omega
  have hn : n ≤ s := by split_ifs at hs <;> omega
  obtain ⟨-, h2, hl⟩ := loop_some _ _ _ h
  have hb2 : 2 ≤ b := by
    by_contra hlt
    have := Nat.pow_le_pow_right (n := 2) (by omega) (show b ≤ 1 by omega)
    omega
  refine ⟨⟨hb2, by omega, ?_⟩, ?_⟩
  · intro c hc hlt
    apply hl c (by omega)
    split_ifs at hs
    · have := Nat.pow_le_pow_right (n := 2) (by omega) hc
      omega
    · omega
  · by_contra hlt
    have hnone : loop s 29 0 = none := by
      rw [loop_none]
      intro j _ hj
      by_contra hc
      have := hl j (by omega) (by omega)
      omega
    rw [h] at hnone
    cases hnone

/-- **C124.** There is one exactly up to the largest CNode, of 28 bits. -/
theorem sizeBits_some (n : Nat) : (∃ b, sizeBits n = some b) ↔ n < 2 ^ 28 := by
  constructor
  · rintro ⟨b, h⟩
    obtain ⟨h1, h2⟩ := sizeBits_right h
    exact Nat.lt_of_lt_of_le h1.fits (Nat.pow_le_pow_right (by omega) h2)
  · intro h
    cases hb : sizeBits n with
    | some b => exact ⟨b, rfl⟩
    | none =>
      unfold sizeBits at hb
      rw [loop_none] at hb
      have := hb 28 (by omega) (by omega)
      split_ifs at this <;> omega

theorem right_unique {n a b : Nat} (ha : Right n a) (hb : Right n b) : a = b :=
  Nat.le_antisymm (ha.least b hb.two hb.fits) (hb.least a ha.two ha.fits)

/-- **C124.** The two programs agree on every last slot that a CNode can have, and on no other: both give the size
that is right. -/
theorem agree (n : Nat) : sizeBits n = some (calculate n) ↔ n < 2 ^ 28 := by
  constructor
  · intro h; exact (sizeBits_some n).1 ⟨_, h⟩
  · intro h
    obtain ⟨b, hb⟩ := (sizeBits_some n).2 h
    rw [hb, right_unique (sizeBits_right hb).1 (calculate_right n)]

theorem compare_none : ∀ (n i : Nat), i + n ≤ 2 ^ 28 → compare n i = none := by
  intro n
  induction n with
  | zero => intro i _; rfl
  | succ n ih =>
    intro i h
    simp only [compare]
    rw [if_pos ((agree i).2 (by omega)), ih (i + 1) (by omega)]

/-- **C124.** So the tool finds no difference. -/
theorem main_succeeds : main = none := by
  apply compare_none
  omega

theorem demo : [0, 1, 2, 3, 4, 7, 8, 1000, 2 ^ 28 - 1, 2 ^ 28].map (fun n => (calculate n, sizeBits n)) =
    [(2, some 2), (2, some 2), (2, some 2), (2, some 2), (3, some 3), (3, some 3), (4, some 4), (10, some 10),
      (28, some 28), (29, none)] := by
  decide +kernel

end Verif.CNodeSize
