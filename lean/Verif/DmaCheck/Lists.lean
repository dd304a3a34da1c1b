import Verif.DmaCheck.Spec
import Mathlib.Data.Fintype.Pigeonhole
import Mathlib.Data.List.Nodup

/-! # Linked lists and the search for a cycle -/

namespace Verif.DmaCheck

/-- The address after `i` steps. -/
def nth (next : Nat → Nat) (h : Nat) : Nat → Nat
  | 0 => h
  | i + 1 => next (nth next h i)

theorem nth_next (next : Nat → Nat) (h : Nat) : ∀ i, nth next (next h) i = nth next h (i + 1)
  | 0 => rfl
  | i + 1 => by simp only [nth]; rw [nth_next next h i]; rfl

theorem linked_of_zero (next : Nat → Nat) : ∀ n h, nth next h n = 0 → ∃ l, Linked next h l
  | 0, h, hz => ⟨[], hz⟩
  | n + 1, h, hz => by
    by_cases h0 : h = 0
    · exact ⟨[], h0⟩
    · rw [← nth_next] at hz
      obtain ⟨l, hl⟩ := linked_of_zero next n (next h) hz
      exact ⟨h :: l, rfl, h0, hl⟩

theorem linked_unique (next : Nat → Nat) : ∀ (l k : List Nat) (h : Nat), Linked next h l → Linked next h k → l = k
  | [], [], _, _, _ => rfl
  | [], b :: k, h, hl, hk => absurd (hk.1.symm.trans hl) hk.2.1
  | a :: l, [], h, hl, hk => absurd (hl.1.symm.trans hk) hl.2.1
  | a :: l, b :: k, h, ⟨ha, _, hl⟩, ⟨hb, _, hk⟩ => by
    subst ha; subst hb
    rw [linked_unique next l k _ hl hk]

theorem linked_suffix (next : Nat → Nat) : ∀ (l : List Nat) (h r : Nat), Linked next h l → r ∈ l →
    ∃ k, Linked next r (r :: k) ∧ k.length < l.length
  | [], _, _, _, hr => by simp at hr
  | a :: l, h, r, ⟨ha, h0, hl⟩, hr => by
    rcases List.mem_cons.1 hr with rfl | hr
    · exact ⟨l, ⟨rfl, h0, hl⟩, by simp⟩
    · obtain ⟨k, hk, hlen⟩ := linked_suffix next l _ r hl hr
      exact ⟨k, hk, by simp; omega⟩

theorem linked_not_mem (next : Nat → Nat) (a : Nat) (l : List Nat) (h : Linked next a (a :: l)) : a ∉ l := by
  intro hm
  obtain ⟨k, hk, hlen⟩ := linked_suffix next l _ a h.2.2 hm
  have := linked_unique next _ _ a h hk
  simp at this
  rw [this] at hlen
  omega

theorem linked_nodup (next : Nat → Nat) : ∀ (l : List Nat) (h : Nat), Linked next h l → l.Nodup
  | [], _, _ => List.nodup_nil
  | a :: l, h, hl => by
    have hl' : Linked next a (a :: l) := ⟨rfl, hl.2⟩
    exact List.nodup_cons.2 ⟨linked_not_mem next a l hl', linked_nodup next l _ hl.2.2⟩

theorem linked_ne_zero (next : Nat → Nat) : ∀ (l : List Nat) (h : Nat), Linked next h l → ∀ a ∈ l, a ≠ 0
  | [], _, _, _, ha => by simp at ha
  | a :: l, h, hl, x, hx => by
    rcases List.mem_cons.1 hx with rfl | hx
    · exact hl.2.1
    · exact linked_ne_zero next l _ hl.2.2 x hx

/-- On a list that ends, the search finds nothing. -/
theorem brent_pass (m : Mem) : ∀ (l : List Nat) (n t h p lam : Nat), l.length < n → Linked m.next h l → t ∉ l →
    brent m n t h p lam = .pass
  | l, 0, _, _, _, _, hn, _, _ => by omega
  | [], n + 1, t, h, p, lam, _, hl, _ => by
    have : h = 0 := hl
    simp [brent, this]
  | a :: l, n + 1, t, h, p, lam, hn, hl, ht => by
    obtain ⟨rfl, h0, hl'⟩ := hl
    have hth : t ≠ h := fun e => ht (by simp [e])
    have hn' : l.length < n := by simp at hn; omega
    unfold brent
    rw [if_neg h0, if_neg hth]
    by_cases hp : p = lam
    · rw [if_pos hp]
      exact brent_pass m l n h _ _ _ hn' hl' (linked_not_mem m.next h l ⟨rfl, h0, hl'⟩)
    · rw [if_neg hp]
      exact brent_pass m l n t _ _ _ hn' hl' (fun e => ht (by simp [e]))

/-- On a list that does not end, the search finds the cycle: `K` is a round whose tortoise is on the
cycle and that lasts long enough to go round it. -/
theorem brent_finds (m : Mem) (h mu la K : Nat) (hnz : ∀ i, nth m.next h i ≠ 0)
    (hper : ∀ i, mu ≤ i → nth m.next h (i + la) = nth m.next h i) (hla : 0 < la)
    (hK1 : mu + 1 ≤ 2 ^ K) (hK2 : la ≤ 2 ^ K) : ∀ (d k lam n : Nat), k ≤ K → 1 ≤ lam → lam ≤ 2 ^ k →
    (k = K → lam ≤ la) → 2 ^ k - 1 + lam + d = 2 ^ K - 1 + la → d < n →
    brent m n (nth m.next h (2 ^ k - 1)) (nth m.next h (2 ^ k - 1 + lam)) (2 ^ k) lam = .fail .cycle := by
  intro d
  induction d with
  | zero =>
    intro k lam n hk h1 h2 hkl hd hn
    obtain ⟨n, rfl⟩ : ∃ j, n = j + 1 := ⟨n - 1, by omega⟩
    have hkK : k = K := by
      rcases Nat.lt_or_ge k K with hlt | hge
      · have : 2 ^ (k + 1) ≤ 2 ^ K := Nat.pow_le_pow_right (by omega) hlt
        rw [Nat.pow_succ] at this
        omega
      · omega
    subst hkK
    have hlam : lam = la := by omega
    subst hlam
    unfold brent
    rw [if_neg (hnz _), if_pos (hper _ (by omega)).symm]
  | succ d ih =>
    intro k lam n hk h1 h2 hkl hd hn
    obtain ⟨n, rfl⟩ : ∃ j, n = j + 1 := ⟨n - 1, by omega⟩
    unfold brent
    rw [if_neg (hnz _)]
    by_cases ht : nth m.next h (2 ^ k - 1) = nth m.next h (2 ^ k - 1 + lam)
    · rw [if_pos ht]
    · rw [if_neg ht]
      by_cases hp : 2 ^ k = lam
      · rw [if_pos hp]
        have hkK : k < K := by
          rcases Nat.lt_or_ge k K with hlt | hge
          · exact hlt
          · have hkk : k = K := by omega
            have := hkl hkk
            subst hkk
            omega
        have hpos : 0 < 2 ^ k := Nat.pos_of_ne_zero (by simp)
        have e1 : 2 ^ k - 1 + lam = 2 ^ (k + 1) - 1 := by rw [Nat.pow_succ]; omega
        have := ih (k + 1) 1 n hkK (by omega) (Nat.one_le_two_pow) (fun _ => hla)
          (by rw [← e1]; omega) (by omega)
        rw [← Nat.pow_succ, Nat.zero_add, e1]
        exact this
      · rw [if_neg hp]
        have := ih k (lam + 1) n hk (by omega) (by omega)
          (fun e => by subst e; omega) (by omega) (by omega)
        exact this

/-- A sequence of addresses repeats itself. -/
theorem periodic (m : Mem) (hm : ∀ a, m.next a ≤ m.umax) (h : Nat) :
    ∃ mu la, 0 < la ∧ ∀ i, mu ≤ i → nth m.next h (i + la) = nth m.next h i := by
  obtain ⟨i, j, hij, he⟩ := Finite.exists_ne_map_eq_of_infinite
    (fun i : Nat => (⟨nth m.next h (i + 1), Nat.lt_succ_of_le (hm _)⟩ : Fin (m.umax + 1)))
  have he' : nth m.next h (i + 1) = nth m.next h (j + 1) := by simpa using he
  have key : ∀ a b, a < b → nth m.next h a = nth m.next h b →
      ∃ mu la, 0 < la ∧ ∀ i, mu ≤ i → nth m.next h (i + la) = nth m.next h i := by
    intro a b hab hE
    refine ⟨a, b - a, by omega, fun i hi => ?_⟩
    obtain ⟨c, rfl⟩ : ∃ c, i = a + c := ⟨i - a, by omega⟩
    have hstep : ∀ c, nth m.next h (b + c) = nth m.next h (a + c) := by
      intro c
      induction c with
      | zero => exact hE.symm
      | succ c ih => show m.next (nth m.next h (b + c)) = m.next (nth m.next h (a + c)); rw [ih]
    have : a + c + (b - a) = b + c := by omega
    rw [this]
    exact hstep c
  rcases Nat.lt_or_gt_of_ne hij with hlt | hgt
  · exact key _ _ (by omega) he'
  · exact key _ _ (by omega) he'.symm

theorem brent_cycle (m : Mem) (hm : ∀ a, m.next a ≤ m.umax) (h : Nat) (hno : ∀ l, ¬ Linked m.next h l) :
    ∃ n, ∀ k, n ≤ k → brent m k h (m.next h) 1 1 = .fail .cycle := by
  have hnz : ∀ i, nth m.next h i ≠ 0 := by
    intro i hz
    obtain ⟨l, hl⟩ := linked_of_zero m.next i h hz
    exact hno l hl
  obtain ⟨mu, la, hla, hper⟩ := periodic m hm h
  have hb : mu + 1 + la ≤ 2 ^ (mu + 1 + la) := Nat.le_of_lt Nat.lt_two_pow_self
  have hpos : 0 < 2 ^ (mu + 1 + la) := Nat.pos_of_ne_zero (by simp)
  refine ⟨2 ^ (mu + 1 + la) - 1 + la, fun k hk => ?_⟩
  have := brent_finds m h mu la (mu + 1 + la) hnz hper hla (by omega) (by omega)
    (2 ^ (mu + 1 + la) - 1 + la - 1) 0 1 k (by omega) (by omega) (by simp) (fun e => by omega)
    (by simp; omega) (by omega)
  simpa [nth] using this

end Verif.DmaCheck
