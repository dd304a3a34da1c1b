import Verif.Dma.Spec
import Mathlib.Data.Nat.Init
import Mathlib.Tactic.Ring
import Mathlib.Tactic.Linarith

namespace Verif.Dma

/-! ### Counting bytes -/

theorem count_append (x : Nat) (a b : List (Nat × Nat)) : count x (a ++ b) = count x a + count x b := by
  induction a with
  | nil => simp [count]
  | cons h t ih => simp [count, ih]; omega

theorem freeBlocks_append (a b : List Region) : freeBlocks (a ++ b) = freeBlocks a ++ freeBlocks b := by
  simp [freeBlocks]

/-- How many regions contain a byte. -/
def fcount (x : Nat) (l : List Region) : Nat := count x (freeBlocks l)

theorem fcount_append (x : Nat) (a b : List Region) : fcount x (a ++ b) = fcount x a + fcount x b := by
  simp [fcount, freeBlocks_append, count_append]

/-- Whether a byte is in a block. -/
def ind (a n x : Nat) : Nat := if a ≤ x ∧ x < a + n then 1 else 0

theorem fcount_cons (x : Nat) (r : Region) (l : List Region) :
    fcount x (r :: l) = ind r.vaddr r.size x + fcount x l := by
  simp [fcount, freeBlocks, count, ind]

theorem fcount_nil (x : Nat) : fcount x [] = 0 := rfl

/-- A block is its two parts. -/
theorem ind_split (a n m x : Nat) : ind a (n + m) x = ind a n x + ind (a + n) m x := by
  unfold ind
  by_cases h1 : a ≤ x ∧ x < a + n
  · rw [if_pos h1, if_pos (by omega), if_neg (by omega)]
  · by_cases h2 : a + n ≤ x ∧ x < a + n + m
    · rw [if_neg h1, if_pos (by omega), if_pos h2]
    · rw [if_neg h1, if_neg (by omega), if_neg h2]

theorem count_pos {x : Nat} {l : List (Nat × Nat)} {b : Nat × Nat} (hb : b ∈ l) (h : b.1 ≤ x ∧ x < b.1 + b.2) :
    1 ≤ count x l := by
  induction l with
  | nil => cases hb
  | cons c l ih =>
    simp only [count]
    rcases List.mem_cons.mp hb with rfl | hb
    · rw [if_pos h]; omega
    · have := ih hb; omega

/-- If no byte is in two blocks then the blocks are pairwise apart. -/
theorem apart_of_count (l : List (Nat × Nat)) (h : ∀ x, count x l ≤ 1) : l.Pairwise Apart := by
  induction l with
  | nil => exact .nil
  | cons b l ih =>
    rw [List.pairwise_cons]
    constructor
    · intro c hc x hx
      have := h x
      simp only [count] at this
      rw [if_pos hx.1] at this
      have := count_pos hc hx.2
      omega
    · apply ih
      intro x
      have := h x
      simp only [count] at this
      omega

/-! ### Sizes and alignments -/

theorem A_pos {e : Env} (he : EnvOk e) : 0 < e.A := by
  obtain ⟨m, hm⟩ := he.A_pow
  rw [hm]; exact Nat.two_pow_pos m

theorem roundSize_spec {e : Env} (he : EnvOk e) (size : Nat) :
    e.R ≤ roundSize e size ∧ size ≤ roundSize e size ∧ roundSize e size % e.A = 0 := by
  have hA := A_pos he
  have hup : ∀ s, s ≤ (s + e.A - 1) / e.A * e.A := by
    intro s
    have h1 := Nat.div_add_mod (s + e.A - 1) e.A
    have h2 := Nat.mod_lt (s + e.A - 1) hA
    have : e.A * ((s + e.A - 1) / e.A) = (s + e.A - 1) / e.A * e.A := Nat.mul_comm _ _
    omega
  unfold roundSize
  simp only
  split <;> split
  · rename_i h1 h2; have := hup e.R; exact ⟨this, by omega, Nat.mul_mod_left _ _⟩
  · rename_i h1 h2; exact ⟨Nat.le_refl _, by omega, by omega⟩
  · rename_i h1 h2; have := hup size; exact ⟨by omega, this, Nat.mul_mod_left _ _⟩
  · rename_i h1 h2; exact ⟨by omega, Nat.le_refl _, by omega⟩

/-- A size that is large enough and aligned is used as it is. -/
theorem roundSize_fix {e : Env} (size : Nat) (h1 : e.R ≤ size) (h2 : size % e.A = 0) : roundSize e size = size := by
  unfold roundSize
  simp only
  rw [if_neg (by omega : ¬ size < e.R), if_neg (by omega)]

theorem pow_dvd_of_le {a b : Nat} (h : (2 : Nat) ^ a ≤ 2 ^ b) : 2 ^ a ∣ 2 ^ b := by
  apply Nat.pow_dvd_pow
  by_contra hc
  have : (2 : Nat) ^ b < 2 ^ a := Nat.pow_lt_pow_right (by decide) (by omega)
  omega

theorem roundAlign_spec {e : Env} (he : EnvOk e) (align : Nat) (h : align = 0 ∨ ∃ k, align = 2 ^ k) :
    0 < roundAlign e align ∧ e.A ∣ roundAlign e align ∧ (align ≠ 0 → align ∣ roundAlign e align) := by
  obtain ⟨m, hm⟩ := he.A_pow
  have hA := A_pos he
  unfold roundAlign
  simp only
  rcases h with rfl | ⟨k, rfl⟩
  · simp only [if_true]
    split
    · exact ⟨hA, Nat.dvd_refl _, fun h => absurd rfl h⟩
    · have : e.A = 1 := by omega
      rw [this]; exact ⟨by omega, Nat.dvd_refl _, fun h => absurd rfl h⟩
  · have hk : (2 : Nat) ^ k ≠ 0 := by have := Nat.two_pow_pos k; omega
    rw [if_neg hk]
    split
    · rename_i hlt
      refine ⟨hA, Nat.dvd_refl _, fun _ => ?_⟩
      rw [hm] at hlt ⊢
      exact pow_dvd_of_le (Nat.le_of_lt hlt)
    · rename_i hge
      refine ⟨by omega, ?_, fun _ => Nat.dvd_refl _⟩
      rw [hm] at hge ⊢
      exact pow_dvd_of_le (by omega)

/-! ### Regions -/

/-- What holds of every node of the free list. -/
structure RegOk (e : Env) (r : Region) : Prop where
  large : e.R ≤ r.size
  pos : 0 < r.vaddr
  alignedStart : e.A ∣ r.vaddr
  alignedSize : e.A ∣ r.size
  contiguous : Contiguous e r.vaddr r.size
  pu : r.pu = 0 ∨ r.pu = e.paddr r.vaddr / 4096

theorem tryPaddr_ok {e : Env} (he : EnvOk e) {r : Region} (h : RegOk e r) : tryPaddr r = 0 ∨ tryPaddr r = e.paddr r.vaddr := by
  unfold tryPaddr
  have h4 := he.page r.vaddr
  rcases h.pu with h | h
  · left; simp [h]
  · split
    · right; rw [h]; omega
    · left; rfl

theorem extract_ok {e : Env} (he : EnvOk e) {r : Region} (h : RegOk e r) : extract e r = e.paddr r.vaddr := by
  unfold extract
  rcases tryPaddr_ok he h with h' | h'
  · rw [if_pos h']
  · split
    · rfl
    · exact h'

/-- Storing the address that was looked up, as the C code does, does not change what is seen later. -/
theorem extract_stored {e : Env} (he : EnvOk e) {r : Region} (h : RegOk e r) :
    extract e { r with pu := extract e r / 4096 } = extract e r ∧ RegOk e { r with pu := extract e r / 4096 } := by
  have hok : RegOk e { r with pu := extract e r / 4096 } :=
    ⟨h.large, h.pos, h.alignedStart, h.alignedSize, h.contiguous, .inr (by rw [extract_ok he h])⟩
  exact ⟨by rw [extract_ok he hok, extract_ok he h], hok⟩

theorem contiguous_sub {e : Env} {v n o m : Nat} (h : Contiguous e v n) (hm : o + m ≤ n) : Contiguous e (v + o) m := by
  intro k hk
  have h1 := h (o + k) (by omega)
  have h2 := h o (by omega)
  rw [Nat.add_assoc, h1, h2]
  omega

/-! ### Defragmentation (C44) -/

theorem findPartner_spec (e : Env) (p : Region) : ∀ before,
    (findPartner e p before = none → ∀ q ∈ before, follows e p q = false ∧ precedes e p q = false) ∧
    (∀ a q b k, findPartner e p before = some (a, q, b, k) → before = a ++ q :: b ∧
      (k = true → follows e p q = true) ∧ (k = false → precedes e p q = true ∧ follows e p q = false) ∧
      ∀ r ∈ a, follows e p r = false ∧ precedes e p r = false) := by
  intro before
  induction before with
  | nil => simp [findPartner]
  | cons q qs ih =>
    constructor
    · intro h
      simp only [findPartner] at h
      split at h
      · cases h
      · split at h
        · cases h
        · rename_i h1 h2
          cases hf : findPartner e p qs with
          | some t => obtain ⟨a, r, b, k⟩ := t; rw [hf] at h; cases h
          | none =>
            intro r hr
            rcases List.mem_cons.mp hr with rfl | hr
            · exact ⟨by simpa using h1, by simpa using h2⟩
            · exact ih.1 hf r hr
    · intro a r b k h
      simp only [findPartner] at h
      split at h
      · rename_i h1
        simp only [Option.some.injEq, Prod.mk.injEq] at h
        obtain ⟨rfl, rfl, rfl, rfl⟩ := h
        exact ⟨rfl, fun _ => h1, fun h => (by cases h), by simp⟩
      · rename_i h1
        split at h
        · rename_i h2
          simp only [Option.some.injEq, Prod.mk.injEq] at h
          obtain ⟨rfl, rfl, rfl, rfl⟩ := h
          exact ⟨rfl, fun h => (by cases h), fun _ => ⟨h2, by simpa using h1⟩, by simp⟩
        · rename_i h2
          cases hf : findPartner e p qs with
          | none => rw [hf] at h; cases h
          | some t =>
            obtain ⟨a', r', b', k'⟩ := t
            rw [hf] at h
            simp only [Option.some.injEq, Prod.mk.injEq] at h
            obtain ⟨rfl, rfl, rfl, rfl⟩ := h
            obtain ⟨i1, i2, i3, i4⟩ := ih.2 _ _ _ _ hf
            refine ⟨by rw [i1]; rfl, i2, i3, ?_⟩
            intro x hx
            rcases List.mem_cons.mp hx with rfl | hx
            · exact ⟨by simpa using h1, by simpa using h2⟩
            · exact i4 x hx

/-- Growing a node changes neither its start nor its physical start nor its flag. -/
theorem follows_grow (e : Env) (p q : Region) (n : Nat) : follows e (grow p n) q = follows e p q := rfl

theorem follows_iff {e : Env} {p q : Region} : follows e p q = true ↔
    p.vaddr = q.vaddr + q.size ∧ extract e p = extract e q + q.size ∧ p.cached = q.cached := by
  simp [follows, and_assoc]

theorem precedes_iff {e : Env} {p q : Region} : precedes e p q = true ↔
    p.vaddr + p.size = q.vaddr ∧ extract e p + p.size = extract e q ∧ p.cached = q.cached := by
  simp [precedes, and_assoc]

/-- Two regions that could be merged. -/
def Mergeable (e : Env) (p q : Region) : Prop :=
  (p.vaddr = q.vaddr + q.size ∧ extract e p = extract e q + q.size ∧ p.cached = q.cached) ∨
  (p.vaddr + p.size = q.vaddr ∧ extract e p + p.size = extract e q ∧ p.cached = q.cached)

/-- A property of regions that merging preserves. -/
structure MergeClosed (e : Env) (Q : Region → Prop) : Prop where
  follow : ∀ p q, Q p → Q q → follows e p q = true → Q (grow q p.size)
  precede : ∀ p q, Q p → Q q → precedes e p q = true → Q (grow p q.size)

theorem defragLoop_spec (e : Env) : ∀ (fuel : Nat) (before rest : List Region) (stale : Bool) (out : List Region),
    (stale = true → ∀ p rest', rest = p :: rest' → ∀ q ∈ before, follows e p q = false) →
    before.Pairwise (fun q p => ¬ Mergeable e p q) →
    defragLoop e fuel before rest stale = some out →
    (∀ x, fcount x out = fcount x before + fcount x rest) ∧ out.Pairwise (fun q p => ¬ Mergeable e p q) ∧
    (∀ Q, MergeClosed e Q → (∀ r ∈ before, Q r) → (∀ r ∈ rest, Q r) → ∀ r ∈ out, Q r) := by
  intro fuel
  induction fuel with
  | zero =>
    intro before rest stale out hst hpw h
    cases rest with
    | nil =>
      simp only [defragLoop, Option.some.injEq] at h
      subst h
      exact ⟨fun x => by rw [fcount_nil]; rfl, hpw, fun Q _ h1 _ => h1⟩
    | cons p rest => simp [defragLoop] at h
  | succ fuel ih =>
    intro before rest stale out hst hpw h
    cases rest with
    | nil =>
      simp only [defragLoop, Option.some.injEq] at h
      subst h
      exact ⟨fun x => by rw [fcount_nil]; rfl, hpw, fun Q _ h1 _ => h1⟩
    | cons p rest =>
      simp only [defragLoop] at h
      cases hf : findPartner e p before with
      | none =>
        rw [hf] at h
        simp only at h
        have hno := (findPartner_spec e p before).1 hf
        obtain ⟨i1, i2, i3⟩ := ih (before ++ [p]) rest false out (fun h => by cases h) (by
          rw [List.pairwise_append]
          refine ⟨hpw, by simp, ?_⟩
          intro q hq p' hp'
          simp only [List.mem_singleton] at hp'
          subst hp'
          rintro (hm | hm)
          · have := follows_iff.mpr hm; rw [(hno q hq).1] at this; cases this
          · have := precedes_iff.mpr hm; rw [(hno q hq).2] at this; cases this) h
        refine ⟨?_, i2, ?_⟩
        · intro x
          rw [i1 x, fcount_append, fcount_cons x p rest, fcount_cons x p [], fcount_nil]
          omega
        · intro Q hQ h1 h2
          apply i3 Q hQ
          · intro r hr
            rcases List.mem_append.mp hr with hr | hr
            · exact h1 r hr
            · simp only [List.mem_singleton] at hr; subst hr; exact h2 _ (by simp)
          · intro r hr; exact h2 r (by simp [hr])
      | some t =>
        obtain ⟨a, q, b, k⟩ := t
        obtain ⟨hb, hk1, hk2, ha⟩ := (findPartner_spec e p before).2 a q b k hf
        rw [hf] at h
        subst hb
        cases k with
        | true =>
          have hfol := hk1 rfl
          have hst' : stale = false := by
            cases stale with
            | false => rfl
            | true =>
              have := hst rfl p rest rfl q (by simp)
              rw [this] at hfol; cases hfol
          subst hst'
          simp only [Bool.false_eq_true, if_false] at h
          have hadj := (follows_iff.mp hfol).1
          have hcnt : ∀ x, fcount x (grow q p.size :: (b ++ rest)) = fcount x (q :: b) + fcount x (p :: rest) := by
            intro x
            rw [fcount_cons, fcount_append, fcount_cons, fcount_cons]
            simp only [grow]
            rw [hadj, ind_split]
            omega
          cases a with
          | nil =>
            simp only at h
            obtain ⟨i1, i2, i3⟩ := ih [grow q p.size] (b ++ rest) false out (fun h => by cases h) (by simp) h
            refine ⟨?_, i2, ?_⟩
            · intro x
              have := hcnt x
              rw [fcount_cons] at this
              rw [i1 x, fcount_cons x _ [], fcount_nil, List.nil_append]
              omega
            · intro Q hQ h1 h2
              apply i3 Q hQ
              · intro r hr
                simp only [List.mem_singleton] at hr
                subst hr
                exact hQ.follow p q (h2 p (by simp)) (h1 q (by simp)) hfol
              · intro r hr
                rcases List.mem_append.mp hr with hr | hr
                · exact h1 r (by simp [hr])
                · exact h2 r (by simp [hr])
          | cons a0 a =>
            simp only at h
            obtain ⟨i1, i2, i3⟩ := ih (a0 :: a) (grow q p.size :: b ++ rest) false out (fun h => by cases h)
              (List.pairwise_append.mp hpw).1 h
            refine ⟨?_, i2, ?_⟩
            · intro x
              have := hcnt x
              rw [i1 x, fcount_append x (a0 :: a) (q :: b), List.cons_append]
              omega
            · intro Q hQ h1 h2
              apply i3 Q hQ
              · intro r hr; exact h1 r (List.mem_append_left _ hr)
              · intro r hr
                rw [List.cons_append] at hr
                rcases List.mem_cons.mp hr with rfl | hr
                · exact hQ.follow p q (h2 p (by simp)) (h1 q (by simp)) hfol
                · rcases List.mem_append.mp hr with hr | hr
                  · exact h1 r (by simp [hr])
                  · exact h2 r (by simp [hr])
        | false =>
          simp only at h
          obtain ⟨hpre, _⟩ := hk2 rfl
          have hadj := (precedes_iff.mp hpre).1
          obtain ⟨p1, p2, p3⟩ := List.pairwise_append.mp hpw
          obtain ⟨i1, i2, i3⟩ := ih (a ++ b) (grow p q.size :: rest) (stale || b.isEmpty) out (by
            intro hs p' rest' he r hr
            simp only [List.cons.injEq] at he
            obtain ⟨rfl, rfl⟩ := he
            rw [follows_grow]
            rcases List.mem_append.mp hr with hr | hr
            · exact (ha r hr).1
            · simp only [Bool.or_eq_true] at hs
              rcases hs with hs | hs
              · exact hst hs p rest rfl r (by simp [hr])
              · rw [List.isEmpty_iff.mp hs] at hr; cases hr) (by
            rw [List.pairwise_append]
            exact ⟨p1, (List.pairwise_cons.mp p2).2, fun x hx y hy => p3 x hx y (by simp [hy])⟩) h
          refine ⟨?_, i2, ?_⟩
          · intro x
            rw [i1 x, fcount_append, fcount_append, fcount_cons, fcount_cons, fcount_cons]
            simp only [grow]
            rw [← hadj, ind_split]
            omega
          · intro Q hQ h1 h2
            apply i3 Q hQ
            · intro r hr
              rcases List.mem_append.mp hr with hr | hr
              · exact h1 r (by simp [hr])
              · exact h1 r (by simp [hr])
            · intro r hr
              rcases List.mem_cons.mp hr with rfl | hr
              · exact hQ.precede p q (h2 p (by simp)) (h1 q (by simp)) hpre
              · exact h2 r (by simp [hr])

/-- The loop ends within the bound, from every state. -/
theorem defragLoop_ends (e : Env) (N : Nat) : ∀ (fuel : Nat) (before rest : List Region) (stale : Bool),
    before.length + rest.length ≤ N →
    (2 * (before.length + rest.length) + (if stale then 1 else 0)) * (N + 1) + rest.length < fuel →
    ∃ out, defragLoop e fuel before rest stale = some out := by
  intro fuel
  induction fuel with
  | zero => intro before rest stale _ h; omega
  | succ fuel ih =>
    intro before rest stale hN h
    cases rest with
    | nil => exact ⟨before, rfl⟩
    | cons p rest =>
      simp only [List.length_cons] at hN h
      have key : ∀ (X Y l : Nat), X + 1 ≤ Y → l ≤ N → Y * (N + 1) + (rest.length + 1) < fuel + 1 → X * (N + 1) + l < fuel := by
        intro X Y l h1 h2 h3
        have h4 : (X + 1) * (N + 1) ≤ Y * (N + 1) := Nat.mul_le_mul_right _ h1
        rw [Nat.add_mul, Nat.one_mul] at h4
        omega
      simp only [defragLoop]
      cases hf : findPartner e p before with
      | none =>
        simp only
        apply ih
        · simp only [List.length_append, List.length_cons, List.length_nil]; omega
        · simp only [List.length_append, List.length_cons, List.length_nil, Bool.false_eq_true, if_false, Nat.add_zero]
          have : 2 * (before.length + (0 + 1) + rest.length) * (N + 1) ≤
              (2 * (before.length + (rest.length + 1)) + (if stale then 1 else 0)) * (N + 1) :=
            Nat.mul_le_mul_right _ (by split <;> omega)
          omega
      | some t =>
        obtain ⟨a, q, b, k⟩ := t
        obtain ⟨hb, _⟩ := (findPartner_spec e p before).2 a q b k hf
        subst hb
        simp only [List.length_append, List.length_cons] at hN h
        cases k with
        | true =>
          cases stale with
          | false =>
            simp only [Bool.false_eq_true, if_false, Nat.add_zero] at h ⊢
            cases a with
            | nil =>
              simp only
              apply ih
              · simp only [List.length_append, List.length_cons, List.length_nil] at hN ⊢; omega
              · simp only [List.length_append, List.length_cons, List.length_nil, Bool.false_eq_true, if_false, Nat.add_zero] at hN h ⊢
                exact key _ _ _ (by omega) (by omega) h
            | cons a0 a =>
              simp only
              apply ih
              · simp only [List.length_append, List.length_cons] at hN ⊢; omega
              · simp only [List.length_append, List.length_cons, Bool.false_eq_true, if_false, Nat.add_zero] at hN h ⊢
                exact key _ _ _ (by omega) (by omega) h
          | true =>
            simp only [if_true] at h ⊢
            cases a with
            | nil =>
              simp only
              apply ih
              · simp only [List.length_append, List.length_cons, List.length_nil] at hN ⊢; omega
              · simp only [List.length_append, List.length_cons, List.length_nil, Bool.false_eq_true, if_false, Nat.add_zero] at hN h ⊢
                exact key _ _ _ (by omega) (by omega) h
            | cons a0 a =>
              simp only
              apply ih
              · simp only [List.length_append, List.length_cons] at hN ⊢; omega
              · simp only [List.length_append, List.length_cons, Bool.false_eq_true, if_false, Nat.add_zero] at hN h ⊢
                exact key _ _ _ (by omega) (by omega) h
        | false =>
          simp only
          apply ih
          · simp only [List.length_append, List.length_cons] at hN ⊢; omega
          · simp only [List.length_append, List.length_cons] at hN h ⊢
            exact key _ _ _ (by split <;> split <;> omega) (by omega) h

theorem defrag_terminates (e : Env) (free : List Region) : ∃ out, defrag e free = some out := by
  apply defragLoop_ends e free.length
  · simp
  · simp only [List.length_nil, Bool.false_eq_true, if_false, Nat.add_zero, Nat.zero_add]
    have : 2 * free.length * (free.length + 1) ≤ (2 * free.length + 1) * (free.length + 1) :=
      Nat.mul_le_mul_right _ (by omega)
    omega

/-- C44: on every free list, defragmentation ends, every byte is free as often as before (so the free
bytes are the same, and regions that were disjoint stay disjoint), and no two regions that could be
merged are left. -/
theorem defrag_spec (e : Env) (free : List Region) : ∃ out, defrag e free = some out ∧
    (∀ x, count x (freeBlocks out) = count x (freeBlocks free)) ∧
    out.Pairwise (fun q p => ¬ Mergeable e p q) := by
  obtain ⟨out, h⟩ := defrag_terminates e free
  obtain ⟨h1, h2, _⟩ := defragLoop_spec e _ [] free false out (fun h => by cases h) .nil h
  refine ⟨out, h, ?_, h2⟩
  intro x
  have := h1 x
  rw [fcount_nil, Nat.zero_add] at this
  exact this

/-- C44: regions that were pairwise disjoint stay so. -/
theorem defrag_disjoint (e : Env) (free out : List Region) (h : defrag e free = some out)
    (hd : ∀ x, count x (freeBlocks free) ≤ 1) : (freeBlocks out).Pairwise Apart := by
  obtain ⟨out', h', h1, _⟩ := defrag_spec e free
  rw [h] at h'
  cases h'
  apply apart_of_count
  intro x
  rw [h1 x]
  exact hd x

theorem defrag_closed (e : Env) (free out : List Region) (h : defrag e free = some out) (Q : Region → Prop)
    (hQ : MergeClosed e Q) (hall : ∀ r ∈ free, Q r) : ∀ r ∈ out, Q r :=
  (defragLoop_spec e _ [] free false out (fun h => by cases h) .nil h).2.2 Q hQ (by simp) hall

theorem contiguous_join {e : Env} {v n m : Nat} (h1 : Contiguous e v n) (h2 : Contiguous e (v + n) m)
    (h : e.paddr (v + n) = e.paddr v + n) : Contiguous e v (n + m) := by
  intro k hk
  by_cases hlt : k < n
  · exact h1 k hlt
  · have := h2 (k - n) (by omega)
    have e1 : v + n + (k - n) = v + k := by omega
    rw [e1, h] at this
    omega

theorem regOk_closed {e : Env} (he : EnvOk e) : MergeClosed e (RegOk e) := by
  constructor
  · intro p q hp hq hf
    obtain ⟨h1, h2, _⟩ := follows_iff.mp hf
    rw [extract_ok he hp, extract_ok he hq, h1] at h2
    refine ⟨?_, hq.pos, hq.alignedStart, ?_, ?_, hq.pu⟩
    · have := hq.large; simp only [grow]; omega
    · exact Nat.dvd_add hq.alignedSize hp.alignedSize
    · exact contiguous_join hq.contiguous (h1 ▸ hp.contiguous) h2
  · intro p q hp hq hf
    obtain ⟨h1, h2, _⟩ := precedes_iff.mp hf
    rw [extract_ok he hp, extract_ok he hq, ← h1] at h2
    refine ⟨?_, hp.pos, hp.alignedStart, ?_, ?_, hp.pu⟩
    · have := hp.large; simp only [grow]; omega
    · exact Nat.dvd_add hp.alignedSize hq.alignedSize
    · have h3 : Contiguous e (p.vaddr + p.size) q.size := by rw [h1]; exact hq.contiguous
      exact contiguous_join hp.contiguous h3 h2.symm

/-! ### Allocation (C43) -/

theorem place_spec (e : Env) (p : Region) (size align : Nat) : ∀ (fuel q0 q : Nat), q0 % align = 0 →
    place e p size align fuel q0 = some q →
    (q = p.vaddr ∨ p.vaddr + e.R ≤ q) ∧ q ≤ q0 ∧ q % align = 0 ∧
    (p.vaddr + p.size - (q + size) = 0 ∨ e.R ≤ p.vaddr + p.size - (q + size)) := by
  intro fuel
  induction fuel with
  | zero => intro q0 q _ h; cases h
  | succ fuel ih =>
    intro q0 q hmod h
    simp only [place] at h
    split at h
    · rename_i hc
      split at h
      · have hm : (q0 - align) % align = 0 := by
          by_cases hle : align ≤ q0
          · rw [← Nat.mod_eq_sub_mod hle]; exact hmod
          · rw [Nat.sub_eq_zero_of_le (by omega)]; exact Nat.zero_mod _
        obtain ⟨i1, i2, i3, i4⟩ := ih (q0 - align) q hm h
        exact ⟨i1, by omega, i3, i4⟩
      · rename_i hs
        cases h
        exact ⟨hc, Nat.le_refl _, hmod, by omega⟩
    · cases h

/-- The scan never steps below zero: within the loop, the position is at least the alignment. -/
theorem place_no_wrap (p : Region) (R align q : Nat) (hp : 0 < p.vaddr) (hm : q % align = 0)
    (hc : q = p.vaddr ∨ p.vaddr + R ≤ q) : align ≤ q := by
  by_contra hlt
  have : q % align = q := Nat.mod_eq_of_lt (by omega)
  omega

theorem newPu_ok {e : Env} (he : EnvOk e) {p : Region} (hp : RegOk e p) (o : Nat) (ho : o < p.size) :
    newPu p o = 0 ∨ newPu p o = e.paddr (p.vaddr + o) / 4096 := by
  unfold newPu
  split
  · right
    rcases tryPaddr_ok he hp with h | h
    · contradiction
    · rw [h, hp.contiguous o ho]
  · left; rfl

/-- What carving a block out of a region does. -/
theorem carve_spec {e : Env} (he : EnvOk e) (junk : Nat → Bool) (p : Region) (size align : Nat) (hp : RegOk e p)
    (hle : size ≤ p.size) (hA : e.A ∣ size) (hal : e.A ∣ align) (q : Nat) (repl front : List Region)
    (h : carve e junk p size align = some (q, repl, front)) :
    q % align = 0 ∧ p.vaddr ≤ q ∧ q + size ≤ p.vaddr + p.size ∧
    (∀ x, fcount x [p] = ind q size x + fcount x front + fcount x repl) ∧
    (∀ r ∈ front ++ repl, RegOk e r ∧ p.vaddr ≤ r.vaddr ∧ r.vaddr + r.size ≤ p.vaddr + p.size ∧
      (r.cached = p.cached ∨ r.cached = junk r.vaddr)) := by
  have hRpos := he.R_pos
  unfold carve at h
  simp only at h
  cases hpl : place e p size align (p.vaddr + p.size - size + 1)
      (p.vaddr + p.size - size - (p.vaddr + p.size - size) % align) with
  | none => rw [hpl] at h; cases h
  | some q' =>
    rw [hpl] at h
    simp only at h
    obtain ⟨s1, s2, s3, s4⟩ := place_spec e p size align _ _ q' (by
      rw [Nat.sub_mod_eq_zero_of_mod_eq (Nat.mod_mod _ _).symm]) hpl
    have hq2 : q' + size ≤ p.vaddr + p.size := by omega
    have hqA : e.A ∣ q' := Nat.dvd_trans hal (Nat.dvd_of_mod_eq_zero s3)
    split at h
    · rename_i heq
      split at h
      · rename_i hsz
        simp only [Option.some.injEq, Prod.mk.injEq] at h
        obtain ⟨rfl, rfl, rfl⟩ := h
        refine ⟨s3, by omega, by omega, ?_, by simp⟩
        intro x
        rw [fcount_cons, fcount_nil, heq, hsz]
      · rename_i hsz
        simp only [Option.some.injEq, Prod.mk.injEq] at h
        obtain ⟨rfl, rfl, rfl⟩ := h
        refine ⟨s3, by omega, by omega, ?_, ?_⟩
        · intro x
          rw [fcount_cons, fcount_nil, fcount_cons, fcount_nil, heq]
          simp only
          have := ind_split p.vaddr size (p.size - size) x
          rw [Nat.add_sub_cancel' hle] at this
          omega
        · intro r hr
          simp only [List.nil_append, List.mem_singleton] at hr
          subst hr
          refine ⟨⟨?_, ?_, ?_, ?_, ?_, ?_⟩, by simp, by simp only; omega, .inr rfl⟩
          · simp only; omega
          · have := hp.pos; simp only; omega
          · exact Nat.dvd_add hp.alignedStart hA
          · exact Nat.dvd_sub hp.alignedSize hA
          · exact contiguous_sub hp.contiguous (by dsimp only; omega)
          · exact newPu_ok he hp size (by omega)
    · rename_i hne
      have hge : p.vaddr + e.R ≤ q' := by
        rcases s1 with h | h
        · exact absurd h hne
        · exact h
      have hsub : e.A ∣ q' - p.vaddr := Nat.dvd_sub hqA hp.alignedStart
      split at h
      · rename_i hz
        simp only [Option.some.injEq, Prod.mk.injEq] at h
        obtain ⟨rfl, rfl, rfl⟩ := h
        refine ⟨s3, by omega, by omega, ?_, ?_⟩
        · intro x
          rw [fcount_cons, fcount_nil, fcount_cons, fcount_nil]
          simp only [shrink]
          have := ind_split p.vaddr (p.size - size) size x
          rw [Nat.sub_add_cancel hle, show p.vaddr + (p.size - size) = q' by omega] at this
          omega
        · intro r hr
          simp only [List.nil_append, List.mem_singleton] at hr
          subst hr
          refine ⟨⟨?_, hp.pos, hp.alignedStart, ?_, ?_, hp.pu⟩, by simp [shrink], by simp only [shrink]; omega, .inl rfl⟩
          · simp only [shrink]; omega
          · exact Nat.dvd_sub hp.alignedSize hA
          · intro k hk
            simp only [shrink] at hk ⊢
            exact hp.contiguous k (by omega)
      · rename_i hz
        simp only [Option.some.injEq, Prod.mk.injEq] at h
        obtain ⟨rfl, rfl, rfl⟩ := h
        refine ⟨s3, by omega, by omega, ?_, ?_⟩
        · intro x
          rw [fcount_cons, fcount_nil, fcount_cons, fcount_nil, fcount_cons, fcount_nil]
          simp only
          have e1 := ind_split p.vaddr (q' - p.vaddr) (p.size - (q' - p.vaddr)) x
          have e2 := ind_split q' size (p.size - (q' - p.vaddr + size)) x
          rw [show q' - p.vaddr + (p.size - (q' - p.vaddr)) = p.size by omega,
            show p.vaddr + (q' - p.vaddr) = q' by omega] at e1
          rw [show size + (p.size - (q' - p.vaddr + size)) = p.size - (q' - p.vaddr) by omega] at e2
          omega
        · intro r hr
          simp only [List.cons_append, List.nil_append, List.mem_cons, List.not_mem_nil, or_false] at hr
          rcases hr with rfl | rfl
          · have hsum : q' + size = p.vaddr + (q' - p.vaddr + size) := by omega
            refine ⟨⟨?_, ?_, ?_, ?_, ?_, ?_⟩, by simp only; omega, by simp only; omega, .inr rfl⟩
            · simp only; omega
            · have := hp.pos; simp only; omega
            · exact Nat.dvd_add hqA hA
            · exact Nat.dvd_sub hp.alignedSize (Nat.dvd_add hsub hA)
            · simp only
              rw [hsum]
              exact contiguous_sub hp.contiguous (by omega)
            · simp only
              rw [hsum]
              exact newPu_ok he hp _ (by omega)
          · refine ⟨⟨?_, hp.pos, hp.alignedStart, hsub, ?_, hp.pu⟩, by simp, by simp only; omega, .inl rfl⟩
            · simp only; omega
            · intro k hk
              simp only at hk ⊢
              exact hp.contiguous k (by omega)

/-- What an allocation from the list does. -/
theorem tryAlloc_spec {e : Env} (he : EnvOk e) (junk : Nat → Bool) (size align : Nat) (cached : Bool)
    (hA : e.A ∣ size) (hal : e.A ∣ align) : ∀ (free : List Region), (∀ r ∈ free, RegOk e r) →
    ∀ (q : Nat) (free' front : List Region), tryAlloc e junk size align cached free = some (q, free', front) →
    q % align = 0 ∧
    (∃ p ∈ free, p.cached = cached ∧ p.vaddr ≤ q ∧ q + size ≤ p.vaddr + p.size) ∧
    (∀ x, fcount x free = ind q size x + fcount x front + fcount x free') ∧
    (∀ r ∈ front ++ free', RegOk e r ∧ ∃ p ∈ free, p.vaddr ≤ r.vaddr ∧ r.vaddr + r.size ≤ p.vaddr + p.size ∧
      (r.cached = p.cached ∨ r.cached = junk r.vaddr)) := by
  intro free
  induction free with
  | nil => intro _ q free' front h; cases h
  | cons p ps ih =>
    intro hall q free' front h
    have hp := hall p (by simp)
    simp only [tryAlloc] at h
    by_cases hc : p.size < size ∨ p.cached ≠ cached
    · rw [if_pos hc] at h
      simp only at h
      cases ht : tryAlloc e junk size align cached ps with
      | none => rw [ht] at h; cases h
      | some t =>
        obtain ⟨q', ps', fr'⟩ := t
        rw [ht] at h
        simp only [Option.some.injEq, Prod.mk.injEq] at h
        obtain ⟨rfl, rfl, rfl⟩ := h
        obtain ⟨i1, ⟨p', hp', i2⟩, i3, i4⟩ := ih (fun r hr => hall r (by simp [hr])) _ _ _ ht
        refine ⟨i1, ⟨p', by simp [hp'], i2⟩, ?_, ?_⟩
        · intro x; rw [fcount_cons, fcount_cons, i3 x]; omega
        · intro r hr
          rcases List.mem_append.mp hr with hr | hr
          · obtain ⟨j1, p'', hp'', j2⟩ := i4 r (List.mem_append_left _ hr)
            exact ⟨j1, p'', by simp [hp''], j2⟩
          · rcases List.mem_cons.mp hr with rfl | hr
            · exact ⟨hp, r, by simp, Nat.le_refl _, Nat.le_refl _, .inl rfl⟩
            · obtain ⟨j1, p'', hp'', j2⟩ := i4 r (List.mem_append_right _ hr)
              exact ⟨j1, p'', by simp [hp''], j2⟩
    · rw [if_neg hc] at h
      have hsz : size ≤ p.size := by
        by_contra hlt; exact hc (.inl (by omega))
      have hca : p.cached = cached := by
        by_contra hne; exact hc (.inr hne)
      cases hcv : carve e junk p size align with
      | some t =>
        obtain ⟨q', repl, fr'⟩ := t
        rw [hcv] at h
        simp only [Option.some.injEq, Prod.mk.injEq] at h
        obtain ⟨rfl, rfl, rfl⟩ := h
        obtain ⟨c1, c2, c3, c4, c5⟩ := carve_spec he junk p size align hp hsz hA hal _ _ _ hcv
        refine ⟨c1, ⟨p, by simp, hca, c2, c3⟩, ?_, ?_⟩
        · intro x
          have := c4 x
          rw [fcount_cons, fcount_nil] at this
          rw [fcount_cons, fcount_append]
          omega
        · intro r hr
          rcases List.mem_append.mp hr with hr | hr
          · obtain ⟨j1, j2⟩ := c5 r (List.mem_append_left _ hr)
            exact ⟨j1, p, by simp, j2⟩
          · rcases List.mem_append.mp hr with hr | hr
            · obtain ⟨j1, j2⟩ := c5 r (List.mem_append_right _ hr)
              exact ⟨j1, p, by simp, j2⟩
            · exact ⟨hall r (by simp [hr]), r, by simp [hr], Nat.le_refl _, Nat.le_refl _, .inl rfl⟩
      | none =>
        rw [hcv] at h
        simp only at h
        cases ht : tryAlloc e junk size align cached ps with
        | none => rw [ht] at h; cases h
        | some t =>
          obtain ⟨q', ps', fr'⟩ := t
          rw [ht] at h
          simp only [Option.some.injEq, Prod.mk.injEq] at h
          obtain ⟨rfl, rfl, rfl⟩ := h
          obtain ⟨i1, ⟨p', hp', i2⟩, i3, i4⟩ := ih (fun r hr => hall r (by simp [hr])) _ _ _ ht
          refine ⟨i1, ⟨p', by simp [hp'], i2⟩, ?_, ?_⟩
          · intro x; rw [fcount_cons, fcount_cons, i3 x]; omega
          · intro r hr
            rcases List.mem_append.mp hr with hr | hr
            · obtain ⟨j1, p'', hp'', j2⟩ := i4 r (List.mem_append_left _ hr)
              exact ⟨j1, p'', by simp [hp''], j2⟩
            · rcases List.mem_cons.mp hr with rfl | hr
              · exact ⟨hp, r, by simp, Nat.le_refl _, Nat.le_refl _, .inl rfl⟩
              · obtain ⟨j1, p'', hp'', j2⟩ := i4 r (List.mem_append_right _ hr)
                exact ⟨j1, p'', by simp [hp''], j2⟩

/-- A flag that describes the memory: every byte of the region is in frames with that flag. -/
def FlagOk (e : Env) (r : Region) : Prop := ∀ x, r.vaddr ≤ x → x < r.vaddr + r.size → e.frame x = some r.cached

theorem flagOk_closed (e : Env) : MergeClosed e (FlagOk e) := by
  constructor
  · intro p q hp hq hf x h1 h2
    obtain ⟨g1, _, g3⟩ := follows_iff.mp hf
    simp only [grow] at h1 h2 ⊢
    by_cases hlt : x < q.vaddr + q.size
    · exact hq x h1 hlt
    · rw [← g3]; exact hp x (by omega) (by omega)
  · intro p q hp hq hf x h1 h2
    obtain ⟨g1, _, g3⟩ := precedes_iff.mp hf
    simp only [grow] at h1 h2 ⊢
    by_cases hlt : x < p.vaddr + p.size
    · exact hp x h1 hlt
    · rw [g3]; exact hq x (by omega) (by omega)

/-- Unassigned memory that happens to contain the right flags. -/
def JunkOk (e : Env) (junk : Nat → Bool) : Prop := ∀ x c, e.frame x = some c → junk x = c

/-- What `camkes_dma_alloc` does. -/
theorem dmaAlloc_spec {e : Env} (he : EnvOk e) (junk : Nat → Bool) (free : List Region) (size align : Nat) (cached : Bool)
    (hal : align = 0 ∨ ∃ k, align = 2 ^ k) (hall : ∀ r ∈ free, RegOk e r) :
    let res := dmaAlloc e junk free size align cached
    (∀ r ∈ res.2, RegOk e r) ∧
    ((∀ r ∈ free, FlagOk e r) → JunkOk e junk → ∀ r ∈ res.2, FlagOk e r) ∧
    (res.1 = none → ∀ x, fcount x res.2 = fcount x free) ∧
    (∀ q, res.1 = some q → (align ≠ 0 → q % align = 0) ∧ e.A ∣ q ∧ 0 < q ∧ Contiguous e q (roundSize e size) ∧
      (∀ x, fcount x free = ind q (roundSize e size) x + fcount x res.2) ∧
      ((∀ r ∈ free, FlagOk e r) → ∀ x, q ≤ x → x < q + roundSize e size → e.frame x = some cached)) := by
  obtain ⟨r1, r2, r3⟩ := roundSize_spec he size
  obtain ⟨a1, a2, a3⟩ := roundAlign_spec he align hal
  have hstep : ∀ (fr : List Region), (∀ r ∈ fr, RegOk e r) → ∀ q fr',
      allocFrom e junk fr (roundSize e size) (roundAlign e align) cached = some (q, fr') →
      (∀ r ∈ fr', RegOk e r) ∧ ((∀ r ∈ fr, FlagOk e r) → JunkOk e junk → ∀ r ∈ fr', FlagOk e r) ∧
      (align ≠ 0 → q % align = 0) ∧ e.A ∣ q ∧ 0 < q ∧ Contiguous e q (roundSize e size) ∧
      (∀ x, fcount x fr = ind q (roundSize e size) x + fcount x fr') ∧
      ((∀ r ∈ fr, FlagOk e r) → ∀ x, q ≤ x → x < q + roundSize e size → e.frame x = some cached) := by
    intro fr hok q fr' h
    unfold allocFrom at h
    cases ht : tryAlloc e junk (roundSize e size) (roundAlign e align) cached fr with
    | none => rw [ht] at h; cases h
    | some t =>
      obtain ⟨q', f', front⟩ := t
      rw [ht] at h
      simp only [Option.some.injEq, Prod.mk.injEq] at h
      obtain ⟨rfl, rfl⟩ := h
      obtain ⟨t1, ⟨p, hp, t2, t3, t4⟩, t5, t6⟩ := tryAlloc_spec he junk _ _ cached (Nat.dvd_of_mod_eq_zero r3) a2 fr hok _ _ _ ht
      have hpok := hok p hp
      refine ⟨fun r hr => (t6 r hr).1, ?_, ?_, ?_, ?_, ?_, ?_, ?_⟩
      · intro hfl hj r hr
        obtain ⟨j1, p', hp', j2, j3, j4⟩ := t6 r hr
        intro x hx1 hx2
        have hx := hfl p' hp' x (by omega) (by omega)
        rcases j4 with j4 | j4
        · rw [j4]; exact hx
        · have hR := j1.large
          have hRp := he.R_pos
          have := hfl p' hp' r.vaddr (by omega) (by omega)
          rw [j4, hj _ _ this]; exact hx
      · intro hne
        exact Nat.mod_eq_zero_of_dvd (Nat.dvd_trans (a3 hne) (Nat.dvd_of_mod_eq_zero t1))
      · exact Nat.dvd_trans a2 (Nat.dvd_of_mod_eq_zero t1)
      · have := hpok.pos; omega
      · have := contiguous_sub (o := q' - p.vaddr) (m := roundSize e size) hpok.contiguous (by omega)
        rwa [Nat.add_sub_cancel' t3] at this
      · intro x; rw [t5 x, fcount_append]; omega
      · intro hfl x hx1 hx2
        rw [← t2]
        exact hfl p hp x (by omega) (by omega)
  simp only
  unfold dmaAlloc
  split
  · exact ⟨hall, fun h _ => h, fun _ _ => rfl, fun q h => by cases h⟩
  · simp only
    cases h1 : allocFrom e junk free (roundSize e size) (roundAlign e align) cached with
    | some t =>
      obtain ⟨q, fr'⟩ := t
      obtain ⟨s1, s2, s3⟩ := hstep free hall q fr' h1
      refine ⟨s1, s2, fun h => (by cases h), ?_⟩
      intro q' hq'
      cases hq'
      exact s3
    | none =>
      simp only
      split
      · cases hd : defrag e free with
        | none => exact ⟨hall, fun h _ => h, fun _ _ => rfl, fun q h => by cases h⟩
        | some fr =>
          have hok := defrag_closed e free fr hd _ (regOk_closed he) hall
          have hcnt : ∀ x, fcount x fr = fcount x free := by
            obtain ⟨out, ho, hc, _⟩ := defrag_spec e free
            rw [hd] at ho; cases ho
            exact hc
          have hfl : (∀ r ∈ free, FlagOk e r) → ∀ r ∈ fr, FlagOk e r := defrag_closed e free fr hd _ (flagOk_closed e)
          simp only
          cases h2 : allocFrom e junk fr (roundSize e size) (roundAlign e align) cached with
          | some t =>
            obtain ⟨q, fr'⟩ := t
            obtain ⟨s1, s2, s3, s4, s5, s6, s7, s8⟩ := hstep fr hok q fr' h2
            refine ⟨s1, fun h => s2 (hfl h), fun h => (by cases h), ?_⟩
            intro q' hq'
            cases hq'
            exact ⟨s3, s4, s5, s6, fun x => by rw [← hcnt x]; exact s7 x, fun h => s8 (hfl h)⟩
          | none => exact ⟨hok, fun h _ => hfl h, fun _ => hcnt, fun q h => by cases h⟩
      · exact ⟨hall, fun h _ => h, fun _ _ => rfl, fun q h => by cases h⟩

/-! ### Initialisation -/

theorem addPages_spec {e : Env} (page : Nat) (cached : Bool) (hround : roundSize e page = page) : ∀ (n base : Nat) (free : List Region),
    (∀ x, fcount x (addPages e page cached n base free) = ind base (n * page) x + fcount x free) ∧
    (∀ r ∈ addPages e page cached n base free, r ∈ free ∨ ∃ i < n, r = ⟨base + i * page, page, 0, cached⟩) := by
  intro n
  induction n with
  | zero =>
    intro base free
    refine ⟨?_, fun r hr => .inl hr⟩
    intro x
    rw [addPages, ind, if_neg (by omega)]
    omega
  | succ n ih =>
    intro base free
    obtain ⟨i1, i2⟩ := ih (base + page) (freeRegion e free base page cached)
    rw [addPages]
    constructor
    · intro x
      rw [i1 x, freeRegion, fcount_cons]
      simp only [hround]
      rw [Nat.add_mul, Nat.one_mul, Nat.add_comm (n * page), ind_split]
      omega
    · intro r hr
      rcases i2 r hr with h | ⟨i, hi, h⟩
      · rcases List.mem_cons.mp h with rfl | h
        · right
          exact ⟨0, by omega, by rw [hround, Nat.zero_mul, Nat.add_zero]⟩
        · left; exact h
      · right
        refine ⟨i + 1, by omega, ?_⟩
        rw [h, Nat.add_mul, Nat.one_mul, Nat.add_assoc, Nat.add_comm page]

theorem pow2_of (n : Nat) (h : isPow2 n = true) : ∃ k, n = 2 ^ k := by
  simp only [isPow2, Bool.and_eq_true, decide_eq_true_eq] at h
  exact Nat.ne_zero_and_sub_one_eq_zero_iff_isPowerOfTwo.mp h

theorem contiguousEnd_all {e : Env} : ∀ (n limit expected : Nat), 0 < limit →
    (∀ k < n, e.paddr (limit + k) = expected + k ∧ e.paddr (limit + k) ≠ 0) →
    contiguousEnd e n limit expected = some (limit + n) := by
  intro n
  induction n with
  | zero => intro limit expected _ _; rfl
  | succ n ih =>
    intro limit expected hpos h
    obtain ⟨h1, h2⟩ := h 0 (by omega)
    simp only [Nat.add_zero] at h1 h2
    rw [contiguousEnd, if_neg (by omega), if_neg h2, if_neg (by omega), ih (limit + 1) (expected + 1) (by omega)]
    · congr 1; omega
    · intro k hk
      have := h (k + 1) (by omega)
      rw [show limit + 1 + k = limit + (k + 1) by omega]
      omega

/-- A disagreement with the documentation of `camkes_dma_init`: when it is asked to find out about page
sizes by itself, a physically contiguous pool that is larger than a node is never added to the free
list, although success is reported; so every later allocation from it fails. (The test of the size is
the wrong way round.) -/
theorem init_introspect_adds_nothing {e : Env} (he : EnvOk e) (free : List Region) (pool size : Nat) (cached : Bool)
    (hpos : 0 < pool) (hal : pool % e.A = 0) (hsize : e.R < size) (hc : Contiguous e pool size)
    (hp : ∀ k < size, e.paddr (pool + k) ≠ 0) : dmaInit e free pool size 0 cached = some free := by
  have hA := A_pos he
  unfold dmaInit
  rw [if_neg (by simp), if_neg (by omega), if_neg (by simp), if_neg (by simp)]
  obtain ⟨m, rfl⟩ : ∃ m, size = m + 1 := ⟨size - 1, by omega⟩
  have h0 := hp 0 (by omega)
  rw [Nat.add_zero] at h0
  rw [addParts, if_pos (by omega), if_neg h0, contiguousEnd_all _ _ _ (by omega)]
  · simp only
    rw [if_neg (by omega)]
    have hup : pool + (m + 1) ≤ (pool + 1 + (pool + (m + 1) - (pool + 1)) + e.A - 1) / e.A * e.A := by
      have h1 := Nat.div_add_mod (pool + 1 + (pool + (m + 1) - (pool + 1)) + e.A - 1) e.A
      have h2 := Nat.mod_lt (pool + 1 + (pool + (m + 1) - (pool + 1)) + e.A - 1) hA
      rw [Nat.mul_comm] at h1
      omega
    cases m with
    | zero => rw [addParts]
    | succ m => rw [addParts, if_neg (by omega)]
  · intro k hk
    have h1 := hc (k + 1) (by omega)
    have h2 := hp (k + 1) (by omega)
    rw [show pool + 1 + k = pool + (k + 1) by omega]
    exact ⟨by omega, h2⟩

/-! ### Histories -/

/-- The invariant of all histories. -/
structure Inv (e : Env) (s : State) : Prop where
  free : ∀ r ∈ s.free, RegOk e r
  live : ∀ a ∈ s.live, 0 < a.1 ∧ e.A ∣ a.1 ∧ Contiguous e a.1 (roundSize e a.2)
  partition : ∀ x, count x (freeBlocks s.free) + count x (liveBlocks e s.live) = count x s.given
  once : ∀ x, count x s.given ≤ 1
  frames : ∀ x, count x s.given ≠ 0 → ∃ c, e.frame x = some c

theorem dmaInit_spec {e : Env} (he : EnvOk e) (free free' : List Region) (pool n page : Nat) (cached : Bool) (hpage : page ≠ 0)
    (h : dmaInit e free pool (n * page) page cached = some free') :
    (∀ x, fcount x free' = ind pool (n * page) x + fcount x free) ∧
    (∀ r ∈ free', r ∈ free ∨ ∃ i < n, r = ⟨pool + i * page, page, 0, cached⟩) ∧
    0 < pool ∧ e.A ∣ pool ∧ e.A ∣ page ∧ e.R ≤ page := by
  unfold dmaInit at h
  split at h
  · cases h
  · rename_i h1
    split at h
    · cases h
    · rename_i h2
      split at h
      · cases h
      · rename_i h3
        simp only [Option.some.injEq] at h
        subst h
        have hR : e.R < page := by
          by_contra hc; exact h1 ⟨hpage, .inl (by omega)⟩
        have hpow : isPow2 page = true := by
          cases hp : isPow2 page with
          | true => rfl
          | false => exact absurd ⟨hpage, .inl hp⟩ h3
        have hge : e.A ≤ page := by
          by_contra hc; exact h3 ⟨hpage, .inr (by omega)⟩
        have hdvd : e.A ∣ page := by
          obtain ⟨k, hk⟩ := pow2_of page hpow
          obtain ⟨m, hm⟩ := he.A_pow
          rw [hk, hm] at hge ⊢
          exact pow_dvd_of_le hge
        have hround : roundSize e page = page := roundSize_fix page (by omega) (Nat.mod_eq_zero_of_dvd hdvd)
        have hn : (n * page + page - 1) / page = n := by
          rw [Nat.div_eq_iff (by omega)]
          constructor <;> omega
        rw [hn]
        obtain ⟨i1, i2⟩ := addPages_spec page cached hround n pool free
        refine ⟨i1, i2, by omega, Nat.dvd_of_mod_eq_zero (by omega), hdvd, by omega⟩

/-- C43: a pool of pages that are larger than a node is accepted, and exactly its bytes become free. -/
theorem init_adds {e : Env} (he : EnvOk e) (free : List Region) (pool n m : Nat) (cached : Bool) (hpos : 0 < pool)
    (hbig : e.R < 2 ^ m) (hal : pool % 2 ^ m = 0) : ∃ free', dmaInit e free pool (n * 2 ^ m) (2 ^ m) cached = some free' ∧
      ∀ x, count x (freeBlocks free') = (if pool ≤ x ∧ x < pool + n * 2 ^ m then 1 else 0) + count x (freeBlocks free) := by
  have hne : (2 : Nat) ^ m ≠ 0 := by have := Nat.two_pow_pos m; omega
  have hAR : e.A ≤ e.R := Nat.le_of_dvd he.R_pos (Nat.dvd_of_mod_eq_zero he.A_R)
  have hdvd : e.A ∣ 2 ^ m := by
    obtain ⟨k, hk⟩ := he.A_pow
    rw [hk] at hAR ⊢
    exact pow_dvd_of_le (by omega)
  have hpow : isPow2 (2 ^ m) = true := by
    unfold isPow2
    simp only [ne_eq, Bool.and_eq_true, decide_eq_true_eq]
    refine ⟨hne, ?_⟩
    rw [Nat.and_two_pow_sub_one_eq_mod, Nat.mod_self]
  have : ∃ free', dmaInit e free pool (n * 2 ^ m) (2 ^ m) cached = some free' := by
    unfold dmaInit
    rw [if_neg (by intro h; rcases h.2 with h | h <;> omega), if_neg, if_neg, if_pos hne]
    · exact ⟨_, rfl⟩
    · rintro ⟨_, h | h⟩
      · rw [hpow] at h; cases h
      · omega
    · rintro (h | h)
      · omega
      · exact h (Nat.mod_eq_zero_of_dvd (Nat.dvd_trans hdvd (Nat.dvd_of_mod_eq_zero hal)))
  obtain ⟨free', hf⟩ := this
  exact ⟨free', hf, (dmaInit_spec he free free' pool n (2 ^ m) cached hne hf).1⟩

theorem reachable_inv {e : Env} (he : EnvOk e) (J : (Nat → Bool) → Prop) (s : State) (h : Reachable e J s) : Inv e s := by
  induction h with
  | start => exact ⟨by simp, by simp, fun x => rfl, fun x => by simp [count], fun x h => absurd rfl h⟩
  | init s pool n page cached free hs hpage hinit hfresh hcont hframe ih =>
    obtain ⟨i1, i2, i3, i4, i5, i6⟩ := dmaInit_spec he s.free free pool n page cached hpage hinit
    refine ⟨?_, ih.live, ?_, ?_, ?_⟩
    · intro r hr
      rcases i2 r hr with h | ⟨i, hi, rfl⟩
      · exact ih.free r h
      · exact ⟨i6, by simp only; omega, Nat.dvd_add i4 (Nat.dvd_mul_left_of_dvd i5 i), i5, hcont i hi, .inl rfl⟩
    · intro x
      have h1 := i1 x
      have h2 := ih.partition x
      simp only [fcount, ind] at h1
      simp only [count]
      omega
    · intro x
      have h2 := ih.once x
      simp only [count]
      split
      · rename_i hx
        rw [hfresh x hx.1 hx.2]
      · omega
    · intro x hx
      simp only [count] at hx
      by_cases hin : pool ≤ x ∧ x < pool + n * page
      · exact ⟨cached, hframe x hin.1 hin.2⟩
      · rw [if_neg hin, Nat.zero_add] at hx
        exact ih.frames x hx
  | alloc s junk size align cached hs hj hal ih =>
    obtain ⟨d1, _, d3, d4⟩ := dmaAlloc_spec he junk s.free size align cached hal ih.free
    cases hres : (dmaAlloc e junk s.free size align cached).1 with
    | none =>
      refine ⟨d1, ih.live, ?_, ih.once, ih.frames⟩
      intro x
      have := d3 hres x
      simp only [fcount] at this
      have h2 := ih.partition x
      simp only
      omega
    | some q =>
      obtain ⟨g1, g2, g3, g4, g5, _⟩ := d4 q hres
      refine ⟨d1, ?_, ?_, ih.once, ih.frames⟩
      · intro a ha
        simp only at ha
        rcases List.mem_cons.mp ha with rfl | ha
        · exact ⟨g3, g2, g4⟩
        · exact ih.live a ha
      · intro x
        have h1 := g5 x
        have h2 := ih.partition x
        simp only [fcount, ind] at h1
        simp only [liveBlocks, List.map_cons, count] at h2 ⊢
        omega
  | free s before after ptr size hs hlive ih =>
    obtain ⟨l1, l2, l3⟩ := ih.live (ptr, size) (by rw [hlive]; simp)
    obtain ⟨r1, r2, r3⟩ := roundSize_spec he size
    have hRp := he.R_pos
    have hgiven : count ptr s.given ≠ 0 := by
      have := ih.partition ptr
      have h1 : 1 ≤ count ptr (liveBlocks e s.live) :=
        count_pos (b := (ptr, roundSize e size)) (by rw [hlive]; simp [liveBlocks]) ⟨Nat.le_refl _, by simp only; omega⟩
      omega
    obtain ⟨c, hc⟩ := ih.frames ptr hgiven
    have hfree : dmaFree e s.free ptr size = ⟨ptr, roundSize e size, 0, c⟩ :: s.free := by
      simp only at l1
      rw [dmaFree, if_neg (by omega), hc]
      rfl
    refine ⟨?_, ?_, ?_, ih.once, ih.frames⟩
    · intro r hr
      simp only [hfree] at hr
      rcases List.mem_cons.mp hr with rfl | hr
      · exact ⟨r1, l1, l2, Nat.dvd_of_mod_eq_zero r3, l3, .inl rfl⟩
      · exact ih.free r hr
    · intro a ha
      apply ih.live a
      rw [hlive]
      simp only at ha
      rcases List.mem_append.mp ha with h | h
      · exact List.mem_append_left _ h
      · exact List.mem_append_right _ (by simp [h])
    · intro x
      have h2 := ih.partition x
      rw [hlive] at h2
      simp only [hfree, liveBlocks, List.map_append, List.map_cons, count_append, count, freeBlocks] at h2 ⊢
      omega

/-- C43: in every history, the free regions and the live allocations together make up exactly the
memory that was given, each byte exactly once; in particular they are all pairwise apart. -/
theorem pool_partition {e : Env} (he : EnvOk e) (J : (Nat → Bool) → Prop) (s : State) (h : Reachable e J s) :
    (∀ x, count x (freeBlocks s.free) + count x (liveBlocks e s.live) = count x s.given) ∧
    (∀ x, count x s.given ≤ 1) ∧ (freeBlocks s.free ++ liveBlocks e s.live).Pairwise Apart := by
  have hinv := reachable_inv he J s h
  refine ⟨hinv.partition, hinv.once, ?_⟩
  apply apart_of_count
  intro x
  rw [count_append, hinv.partition x]
  exact hinv.once x

/-- C43: in every history, an allocation that succeeds is aligned as requested, lies in memory that was
given to the allocator, is physically contiguous, and overlaps neither a live allocation nor what is
free afterwards. -/
theorem alloc_sound {e : Env} (he : EnvOk e) (J : (Nat → Bool) → Prop) (s : State) (h : Reachable e J s)
    (junk : Nat → Bool) (size align : Nat) (cached : Bool) (hal : align = 0 ∨ ∃ k, align = 2 ^ k) (q : Nat)
    (hq : (dmaAlloc e junk s.free size align cached).1 = some q) :
    (align ≠ 0 → q % align = 0) ∧ Contiguous e q size ∧
    (∀ x, q ≤ x → x < q + size → count x s.given = 1) ∧
    (∀ b ∈ liveBlocks e s.live, Apart (q, size) b) ∧
    (∀ b ∈ freeBlocks (dmaAlloc e junk s.free size align cached).2, Apart (q, size) b) := by
  have hinv := reachable_inv he J s h
  obtain ⟨_, _, _, d4⟩ := dmaAlloc_spec he junk s.free size align cached hal hinv.free
  obtain ⟨g1, g2, g3, g4, g5, _⟩ := d4 q hq
  obtain ⟨r1, r2, r3⟩ := roundSize_spec he size
  refine ⟨g1, fun k hk => g4 k (by omega), ?_, ?_, ?_⟩
  · intro x h1 h2
    have := g5 x
    rw [ind, if_pos ⟨h1, by omega⟩] at this
    have h3 := hinv.partition x
    have h4 := hinv.once x
    simp only [fcount] at this
    omega
  · intro b hb x hx
    have := g5 x
    simp only at hx
    rw [ind, if_pos ⟨hx.1.1, by omega⟩] at this
    have h3 := hinv.partition x
    have h4 := hinv.once x
    have h5 := count_pos hb hx.2
    simp only [fcount] at this
    omega
  · intro b hb x hx
    have := g5 x
    simp only at hx
    rw [ind, if_pos ⟨hx.1.1, by omega⟩] at this
    have h3 := hinv.partition x
    have h4 := hinv.once x
    have h5 := count_pos hb hx.2
    simp only [fcount] at this
    omega

/-! ### The cached flag (C45) -/

theorem reachable_flags {e : Env} (he : EnvOk e) (s : State) (h : Reachable e (JunkOk e) s) :
    (∀ r ∈ s.free, FlagOk e r) ∧
    (∀ a ∈ s.live, ∃ c, ∀ x, a.1 ≤ x → x < a.1 + roundSize e a.2 → e.frame x = some c) := by
  induction h with
  | start => simp
  | init s pool n page cached free hs hpage hinit hfresh hcont hframe ih =>
    obtain ⟨_, i2, _⟩ := dmaInit_spec he s.free free pool n page cached hpage hinit
    refine ⟨?_, ih.2⟩
    intro r hr
    rcases i2 r hr with h | ⟨i, hi, rfl⟩
    · exact ih.1 r h
    · intro x h1 h2
      simp only at h1 h2
      have : (i + 1) * page ≤ n * page := Nat.mul_le_mul_right _ hi
      rw [Nat.add_mul, Nat.one_mul] at this
      exact hframe x (by omega) (by omega)
  | alloc s junk size align cached hs hj hal ih =>
    have hinv := reachable_inv he _ s hs
    obtain ⟨_, d2, _, d4⟩ := dmaAlloc_spec he junk s.free size align cached hal hinv.free
    refine ⟨d2 ih.1 hj, ?_⟩
    cases hres : (dmaAlloc e junk s.free size align cached).1 with
    | none => exact ih.2
    | some q =>
      intro a ha
      rcases List.mem_cons.mp ha with rfl | ha
      · exact ⟨cached, (d4 q hres).2.2.2.2.2 ih.1⟩
      · exact ih.2 a ha
  | free s before after ptr size hs hlive ih =>
    refine ⟨?_, ?_⟩
    · intro r hr
      simp only [dmaFree] at hr
      split at hr
      · exact ih.1 r hr
      · obtain ⟨c, hc⟩ := ih.2 (ptr, size) (by rw [hlive]; simp)
        have hR := (roundSize_spec he size).1
        have hRp := he.R_pos
        have hp : e.frame ptr = some c := hc ptr (Nat.le_refl _) (by simp only; omega)
        rw [hp] at hr
        rcases List.mem_cons.mp hr with rfl | hr
        · exact hc
        · exact ih.1 r hr
    · intro a ha
      apply ih.2 a
      rw [hlive]
      simp only at ha
      rcases List.mem_append.mp ha with h | h
      · exact List.mem_append_left _ h
      · exact List.mem_append_right _ (by simp [h])

/-- C45: in every history in which the bytes of a split-off node that are never written happen to hold
the flag of its memory, an allocation only returns memory in frames given with the flag asked for.
(Without that hypothesis the claim is false: see `cached_flag_wrong`.) -/
theorem cached_flag_partial {e : Env} (he : EnvOk e) (s : State) (h : Reachable e (JunkOk e) s)
    (junk : Nat → Bool) (size align : Nat) (cached : Bool) (hal : align = 0 ∨ ∃ k, align = 2 ^ k) (q : Nat)
    (hq : (dmaAlloc e junk s.free size align cached).1 = some q) :
    ∀ x, q ≤ x → x < q + size → e.frame x = some cached := by
  have hinv := reachable_inv he _ s h
  obtain ⟨_, _, _, d4⟩ := dmaAlloc_spec he junk s.free size align cached hal hinv.free
  intro x h1 h2
  have := (roundSize_spec he size).2.1
  exact (d4 q hq).2.2.2.2.2 (reachable_flags he s h).1 x h1 (by omega)

/-! ### Enough memory (C61) -/

/-- The scan finds a place in every region that is large enough. -/
theorem place_live (e : Env) (p : Region) (size align : Nat) (hal : 0 < align) (hbig : size + align + 2 * e.R ≤ p.size) :
    ∀ (fuel q suffix : Nat), q + size + suffix = p.vaddr + p.size → suffix < e.R + align → e.R < fuel + suffix →
    0 < fuel → ∃ r, place e p size align fuel q = some r := by
  intro fuel
  induction fuel with
  | zero =>
    intro q suffix h1 h2 h3 h4
    omega
  | succ fuel ih =>
    intro q suffix h1 h2 h3 _
    simp only [place]
    rw [if_pos (.inr (by omega))]
    split
    · rename_i hs
      exact ih (q - align) (suffix + align) (by omega) (by omega) (by omega) (by omega)
    · exact ⟨_, rfl⟩

theorem carve_live (e : Env) (junk : Nat → Bool) (p : Region) (size align : Nat) (hal : 0 < align)
    (hbig : size + align + 2 * e.R ≤ p.size) : ∃ r, carve e junk p size align = some r := by
  have hlt := Nat.mod_lt (p.vaddr + p.size - size) hal
  have hle := Nat.mod_le (p.vaddr + p.size - size) align
  obtain ⟨q, hq⟩ := place_live e p size align hal hbig (p.vaddr + p.size - size + 1)
    (p.vaddr + p.size - size - (p.vaddr + p.size - size) % align) ((p.vaddr + p.size - size) % align)
    (by omega) (by omega) (by omega) (by omega)
  unfold carve
  simp only [hq]
  split
  · split <;> exact ⟨_, rfl⟩
  · split <;> exact ⟨_, rfl⟩

theorem tryAlloc_live (e : Env) (junk : Nat → Bool) (size align : Nat) (hal : 0 < align) (cached : Bool) (p : Region)
    (hc : p.cached = cached) (hbig : size + align + 2 * e.R ≤ p.size) : ∀ free : List Region, p ∈ free →
    ∃ r, tryAlloc e junk size align cached free = some r := by
  intro free
  induction free with
  | nil => intro h; cases h
  | cons r free ih =>
    intro hm
    simp only [tryAlloc]
    rcases List.mem_cons.mp hm with rfl | hm
    · rw [if_neg (by intro h; rcases h with h | h; · omega
                     · exact h hc)]
      obtain ⟨⟨q, a, b⟩, hr⟩ := carve_live e junk p size align hal hbig
      rw [hr]
      exact ⟨_, rfl⟩
    · obtain ⟨⟨q, a, b⟩, hr⟩ := ih hm
      rw [hr]
      split
      · exact ⟨_, rfl⟩
      · exact ⟨_, rfl⟩

theorem allocFrom_live (e : Env) (junk : Nat → Bool) (size align : Nat) (hal : 0 < align) (cached : Bool) (free : List Region)
    (p : Region) (hp : p ∈ free) (hc : p.cached = cached) (hbig : size + align + 2 * e.R ≤ p.size) :
    ∃ r, allocFrom e junk free size align cached = some r := by
  obtain ⟨⟨q, a, b⟩, hr⟩ := tryAlloc_live e junk size align hal cached p hc hbig free hp
  unfold allocFrom
  rw [hr]
  exact ⟨_, rfl⟩

theorem roundSize_le {e : Env} (he : EnvOk e) (size : Nat) : roundSize e size ≤ size + e.R + e.A := by
  have hA := A_pos he
  unfold roundSize
  dsimp only
  have h : ∀ s, (s + e.A - 1) / e.A * e.A ≤ s + e.A - 1 := fun s => Nat.div_mul_le_self _ _
  have h1 := h e.R
  have h2 := h size
  by_cases hs : size < e.R
  · rw [if_pos hs]; split <;> omega
  · rw [if_neg hs]; split <;> omega

theorem roundAlign_le {e : Env} (he : EnvOk e) (align : Nat) : 0 < roundAlign e align ∧ roundAlign e align ≤ align + e.A := by
  have hA := A_pos he
  unfold roundAlign
  dsimp only
  split <;> split <;> omega

theorem mergeable_symm {e : Env} {p q : Region} (h : Mergeable e p q) : Mergeable e q p := by
  rcases h with ⟨h1, h2, h3⟩ | ⟨h1, h2, h3⟩
  · exact .inr ⟨h1.symm, h2.symm, h3.symm⟩
  · exact .inl ⟨h1.symm, h2.symm, h3.symm⟩

theorem forall_of_pairwise {α : Type} {R : α → α → Prop} (hs : ∀ a b, R a b → R b a) {l : List α} (h : l.Pairwise R) :
    ∀ a ∈ l, ∀ b ∈ l, a ≠ b → R a b := by
  induction h with
  | nil => intro a ha; cases ha
  | cons h1 _ ih =>
    intro a ha b hb hne
    rcases List.mem_cons.mp ha with ha1 | ha1
    · rcases List.mem_cons.mp hb with hb1 | hb1
      · exact absurd (ha1.trans hb1.symm) hne
      · rw [ha1]; exact h1 b hb1
    · rcases List.mem_cons.mp hb with hb1 | hb1
      · rw [hb1]; exact hs _ _ (h1 a ha1)
      · exact ih a ha1 b hb1 hne

theorem mem_of_fcount {x : Nat} : ∀ {l : List Region}, fcount x l ≠ 0 → ∃ r ∈ l, r.vaddr ≤ x ∧ x < r.vaddr + r.size := by
  intro l
  induction l with
  | nil => intro h; exact absurd (fcount_nil x) h
  | cons r l ih =>
    intro h
    rw [fcount_cons] at h
    by_cases hr : r.vaddr ≤ x ∧ x < r.vaddr + r.size
    · exact ⟨r, by simp, hr⟩
    · have hz : ind r.vaddr r.size x = 0 := if_neg hr
      obtain ⟨r', h1, h2⟩ := ih (by omega)
      exact ⟨r', by simp [h1], h2⟩

/-- After defragmentation, a physically contiguous run of free bytes with one flag lies in one region. -/
theorem run_in_region {e : Env} (he : EnvOk e) (free out : List Region) (hall : ∀ r ∈ free, RegOk e r)
    (honce : ∀ x, count x (freeBlocks free) ≤ 1) (hd : defrag e free = some out) (cached : Bool) (a n : Nat) (hn : 0 < n)
    (hfree : ∀ x, a ≤ x → x < a + n → ∃ r ∈ free, r.vaddr ≤ x ∧ x < r.vaddr + r.size ∧ r.cached = cached)
    (hc : Contiguous e a n) : ∃ r ∈ out, r.cached = cached ∧ r.vaddr ≤ a ∧ a + n ≤ r.vaddr + r.size := by
  have hok := defrag_closed e free out hd _ (regOk_closed he) hall
  obtain ⟨out', ho, hcnt, hpw⟩ := defrag_spec e free
  rw [hd] at ho; cases ho
  have hapart : ∀ r ∈ out, ∀ r' ∈ out, r ≠ r' → Apart (r.vaddr, r.size) (r'.vaddr, r'.size) := by
    have h := defrag_disjoint e free out hd honce
    unfold freeBlocks at h
    rw [List.pairwise_map] at h
    exact forall_of_pairwise (fun p q h x hx => h x ⟨hx.2, hx.1⟩) h
  have hmerge : ∀ r ∈ out, ∀ r' ∈ out, r ≠ r' → ¬ Mergeable e r r' :=
    forall_of_pairwise (R := fun q p => ¬ Mergeable e q p) (fun p q h hm => h (mergeable_symm hm))
      (hpw.imp (fun h hm => h (mergeable_symm hm)))
  let F : Nat → Bool → Prop := fun x c => ∃ r ∈ free, r.vaddr ≤ x ∧ x < r.vaddr + r.size ∧ r.cached = c
  have hQ : MergeClosed e (fun r => ∀ x, r.vaddr ≤ x → x < r.vaddr + r.size → F x r.cached) := by
    constructor
    · intro p q hp hq hf x h1 h2
      obtain ⟨g1, _, g3⟩ := follows_iff.mp hf
      simp only [grow] at h1 h2 ⊢
      by_cases hlt : x < q.vaddr + q.size
      · exact hq x h1 hlt
      · rw [← g3]; exact hp x (by omega) (by omega)
    · intro p q hp hq hf x h1 h2
      obtain ⟨g1, _, g3⟩ := precedes_iff.mp hf
      simp only [grow] at h1 h2 ⊢
      by_cases hlt : x < p.vaddr + p.size
      · exact hp x h1 hlt
      · rw [g3]; exact hq x (by omega) (by omega)
  have hflag := defrag_closed e free out hd _ hQ (fun r hr x h1 h2 => ⟨r, hr, h1, h2, rfl⟩)
  have huniq : ∀ x c c', F x c → F x c' → c = c' := by
    rintro x c c' ⟨r, hr, h1, h2, rfl⟩ ⟨r', hr', h3, h4, rfl⟩
    by_cases hne : r = r'
    · rw [hne]
    · have h := apart_of_count _ honce
      unfold freeBlocks at h
      rw [List.pairwise_map] at h
      have := forall_of_pairwise (R := fun p q : Region => Apart (p.vaddr, p.size) (q.vaddr, q.size))
        (fun p q h x hx => h x ⟨hx.2, hx.1⟩) h r hr r' hr' hne x
      exact absurd ⟨⟨h1, h2⟩, ⟨h3, h4⟩⟩ this
  have hcover : ∀ x, a ≤ x → x < a + n → ∃ r ∈ out, r.vaddr ≤ x ∧ x < r.vaddr + r.size ∧ r.cached = cached := by
    intro x h1 h2
    obtain ⟨r, hr, h3, h4, h5⟩ := hfree x h1 h2
    have hpos : 0 < count x (freeBlocks free) :=
      count_pos (b := (r.vaddr, r.size)) (List.mem_map.mpr ⟨r, hr, rfl⟩) ⟨h3, h4⟩
    have : fcount x out ≠ 0 := by
      have := hcnt x
      unfold fcount
      omega
    obtain ⟨r', hr', h6, h7⟩ := mem_of_fcount this
    exact ⟨r', hr', h6, h7, huniq x _ _ (hflag r' hr' x h6 h7) ⟨r, hr, h3, h4, h5⟩⟩
  obtain ⟨r, hr, h1, h2, h3⟩ := hcover a (Nat.le_refl _) (by omega)
  refine ⟨r, hr, h3, h1, ?_⟩
  by_contra hlt
  obtain ⟨r', hr', g1, g2, g3⟩ := hcover (r.vaddr + r.size) (by omega) (by omega)
  have hne : r ≠ r' := by rintro rfl; omega
  have hv : r'.vaddr = r.vaddr + r.size := by
    by_contra hv
    exact hapart r hr r' hr' hne (r.vaddr + r.size - 1) ⟨⟨by omega, by dsimp only; omega⟩, ⟨by dsimp only; omega, by dsimp only; omega⟩⟩
  apply hmerge r' hr' r hr (fun h => hne h.symm)
  refine .inl ⟨hv, ?_, by rw [g3, h3]⟩
  rw [extract_ok he (hok r hr), extract_ok he (hok r' hr'), hv]
  have e1 := hc (r.vaddr + r.size - a) (by omega)
  have e2 := hc (r.vaddr + r.size - 1 - a) (by omega)
  have e3 := (hok r hr).contiguous (r.size - 1) (by omega)
  have s1 : a + (r.vaddr + r.size - a) = r.vaddr + r.size := by omega
  have s2 : a + (r.vaddr + r.size - 1 - a) = r.vaddr + (r.size - 1) := by omega
  rw [s1] at e1
  rw [s2] at e2
  omega

/-- C61: in every history, an allocation succeeds if there is a physically contiguous run of free bytes
with the flag asked for that is longer than the request by the alignment, three nodes and two node
alignments, however fragmented the free list is. Partial: for requests that are not larger than a
node, the run must be in one region of the free list (see `small_request_fails`), and the slack is
needed (see `start_of_region_missed`). -/
theorem alloc_succeeds_partial {e : Env} (he : EnvOk e) (J : (Nat → Bool) → Prop) (s : State) (h : Reachable e J s)
    (junk : Nat → Bool) (size align : Nat) (cached : Bool) (a n : Nat)
    (hfree : ∀ x, a ≤ x → x < a + n → ∃ r ∈ s.free, r.vaddr ≤ x ∧ x < r.vaddr + r.size ∧ r.cached = cached)
    (hc : Contiguous e a n) (hn : size + align + 3 * e.R + 2 * e.A ≤ n)
    (hsize : e.R < size ∨ ∃ r ∈ s.free, r.vaddr ≤ a ∧ a + n ≤ r.vaddr + r.size) :
    ∃ q, (dmaAlloc e junk s.free size align cached).1 = some q := by
  have hinv := reachable_inv he J s h
  have hRp := he.R_pos
  have h1 := roundSize_le he size
  obtain ⟨h2, h3⟩ := roundAlign_le he align
  have honce : ∀ x, count x (freeBlocks s.free) ≤ 1 := by
    intro x
    have := hinv.partition x
    have := hinv.once x
    omega
  have hne : s.free ≠ [] := by
    obtain ⟨r, hr, _⟩ := hfree a (Nat.le_refl _) (by omega)
    intro hnil; rw [hnil] at hr; cases hr
  unfold dmaAlloc
  rw [if_neg hne]
  dsimp only
  cases hf : allocFrom e junk s.free (roundSize e size) (roundAlign e align) cached with
  | some t => obtain ⟨q, f⟩ := t; exact ⟨q, rfl⟩
  | none =>
    dsimp only
    rcases hsize with hsize | ⟨r, hr, g1, g2⟩
    · have hbig : roundSize e size > e.R := by
        have := (roundSize_spec he size).2.1
        omega
      rw [if_pos hbig]
      obtain ⟨out, hd, _, _⟩ := defrag_spec e s.free
      rw [hd]
      dsimp only
      obtain ⟨r, hr, g1, g2, g3⟩ := run_in_region he s.free out hinv.free honce hd cached a n (by omega) hfree hc
      obtain ⟨⟨q, f⟩, hq⟩ := allocFrom_live e junk (roundSize e size) (roundAlign e align) h2 cached out r hr g1 (by omega)
      rw [hq]
      exact ⟨q, rfl⟩
    · exfalso
      obtain ⟨r', hr', k1, k2, k3⟩ := hfree a (Nat.le_refl _) (by omega)
      have hrr : r = r' := by
        by_contra hne
        have h := apart_of_count _ honce
        unfold freeBlocks at h
        rw [List.pairwise_map] at h
        exact forall_of_pairwise (R := fun p q : Region => Apart (p.vaddr, p.size) (q.vaddr, q.size))
          (fun p q h x hx => h x ⟨hx.2, hx.1⟩) h r hr r' hr' hne a ⟨⟨g1, by dsimp only; omega⟩, ⟨k1, k2⟩⟩
      subst hrr
      obtain ⟨t, ht⟩ := allocFrom_live e junk (roundSize e size) (roundAlign e align) h2 cached s.free r hr k3 (by omega)
      rw [hf] at ht
      cases ht

/-! ### Examples -/

/-- Physical addresses equal to virtual ones and uncached frames from 4096 to 8192. -/
def demoEnv : Env := ⟨32, 8, id, fun x => if 4096 ≤ x ∧ x < 8192 then some false else none⟩

theorem demoEnv_ok : EnvOk demoEnv := ⟨⟨3, rfl⟩, by decide, by decide, fun x => rfl⟩

/-- Give the page at 4096 to the allocator. -/
theorem demo_init (J : (Nat → Bool) → Prop) : Reachable demoEnv J ⟨[⟨4096, 4096, 0, false⟩], [(4096, 4096)], []⟩ := by
  refine Reachable.init ⟨[], [], []⟩ 4096 1 4096 false _ .start (by decide) rfl (fun x _ _ => rfl) ?_ ?_
  · intro i hi k hk
    simp [demoEnv]
  · intro x h1 h2
    simp only [demoEnv]
    rw [if_pos (by omega)]

/-- The first allocation: 64 bytes aligned to 4096, with the flag byte of the new node holding `b`. -/
theorem demo_alloc (b : Bool) : dmaAlloc demoEnv (fun _ => b) [⟨4096, 4096, 0, false⟩] 64 4096 false =
    (some 4096, [⟨4160, 4032, 0, b⟩]) := by
  cases b <;> decide

/-- C43 is about something: the allocation succeeds, and both blocks are as claimed. -/
example : (dmaAlloc demoEnv (fun _ => false) [⟨4096, 4096, 0, false⟩] 64 4096 false).1 = some 4096 ∧
    Contiguous demoEnv 4096 64 := by
  refine ⟨by decide, ?_⟩
  exact (alloc_sound demoEnv_ok (fun _ => True) _ (demo_init _) (fun _ => false) 64 4096 false (.inr ⟨12, rfl⟩) 4096 (by decide)).2.1

/-- C45 fails in general: after one uncached allocation, a cached allocation returns memory of an
uncached frame, when the flag byte of the node that was split off happens to be set. The pool only ever
contained uncached memory. -/
theorem cached_flag_wrong : ∃ (s : State) (junk : Nat → Bool) (q : Nat), Reachable demoEnv (fun _ => True) s ∧
    (dmaAlloc demoEnv junk s.free 64 0 true).1 = some q ∧ demoEnv.frame q = some false ∧
    ∀ x c, demoEnv.frame x = some c → c = false := by
  have h := Reachable.alloc ⟨[⟨4096, 4096, 0, false⟩], [(4096, 4096)], []⟩ (fun _ => true) 64 4096 false
    (demo_init (fun _ => True)) trivial (.inr ⟨12, rfl⟩)
  rw [demo_alloc true] at h
  refine ⟨_, fun _ => true, 8128, h, by decide, by decide, ?_⟩
  intro x c hx
  simp only [demoEnv] at hx
  split at hx
  · cases hx; rfl
  · cases hx

/-- The hypotheses of `alloc_succeeds_partial` can be met. -/
example (junk : Nat → Bool) : ∃ q, (dmaAlloc demoEnv junk [⟨4096, 4096, 0, false⟩] 64 256 false).1 = some q :=
  alloc_succeeds_partial demoEnv_ok (fun _ => True) _ (demo_init _) junk 64 256 false 4096 4096
    (fun x h1 h2 => ⟨⟨4096, 4096, 0, false⟩, by simp, h1, h2, rfl⟩) (fun k _ => by simp [demoEnv]) (by decide) (.inl (by decide))

/-- A pool of one page of 128 bytes. -/
theorem demo_small (J : (Nat → Bool) → Prop) : Reachable demoEnv J ⟨[⟨4096, 128, 0, false⟩], [(4096, 128)], []⟩ := by
  refine Reachable.init ⟨[], [], []⟩ 4096 1 128 false _ .start (by decide) rfl (fun x _ _ => rfl) ?_ ?_
  · intro i hi k hk
    simp [demoEnv]
  · intro x h1 h2
    simp only [demoEnv]
    rw [if_pos (by omega)]

/-- C61 does not hold in full: all 128 bytes of the pool are free and nothing was ever allocated, but a
request for 88 bytes aligned to 16 fails, although the start of the pool is suitable. (The scan from the
end of the region stops before it reaches the start.) -/
theorem start_of_region_missed : ∃ s : State, Reachable demoEnv (fun _ => True) s ∧ s.given = [(4096, 128)] ∧ s.live = [] ∧
    4096 % 16 = 0 ∧ (dmaAlloc demoEnv (fun _ => false) s.free 88 16 false).1 = none :=
  ⟨_, demo_small _, rfl, rfl, by decide, by decide⟩

/-- C61 does not hold in full: after three allocations that have all been freed again, a request for 32
bytes aligned to 64 fails, because requests of the size of a node never lead to defragmentation. On the
fresh pool it succeeds. -/
theorem small_request_fails : (dmaAlloc demoEnv (fun _ => false) [⟨4096, 128, 0, false⟩] 32 64 false).1 = some 4160 ∧
    ∃ s : State, Reachable demoEnv (fun _ => True) s ∧ s.given = [(4096, 128)] ∧ s.live = [] ∧
      (dmaAlloc demoEnv (fun _ => false) s.free 32 64 false).1 = none := by
  refine ⟨by decide, ?_⟩
  have a1 := Reachable.alloc _ (fun _ => false) 40 0 false (demo_small (fun _ => True)) trivial (.inl rfl)
  rw [show dmaAlloc demoEnv (fun _ => false) [⟨4096, 128, 0, false⟩] 40 0 false = (some 4184, [⟨4096, 88, 0, false⟩]) by decide] at a1
  have a2 := Reachable.alloc _ (fun _ => false) 40 0 false a1 trivial (.inl rfl)
  rw [show dmaAlloc demoEnv (fun _ => false) [⟨4096, 88, 0, false⟩] 40 0 false = (some 4144, [⟨4096, 48, 0, false⟩]) by decide] at a2
  have a3 := Reachable.alloc _ (fun _ => false) 48 0 false a2 trivial (.inl rfl)
  rw [show dmaAlloc demoEnv (fun _ => false) [⟨4096, 48, 0, false⟩] 48 0 false = (some 4096, []) by decide] at a3
  have f1 := Reachable.free _ [] _ _ _ a3 rfl
  have f2 := Reachable.free _ [] _ _ _ f1 rfl
  have f3 := Reachable.free _ [] _ _ _ f2 rfl
  exact ⟨_, f3, rfl, rfl, by decide⟩

/-- The hypothesis of `cached_flag_partial` can be met. -/
example : ∀ x, 4096 ≤ x → x < 4160 → demoEnv.frame x = some false :=
  cached_flag_partial demoEnv_ok _ (demo_init (JunkOk demoEnv)) (fun _ => false) 64 4096 false (.inr ⟨12, rfl⟩) 4096 (by decide)

/-- `init_introspect_adds_nothing` is about something. -/
example : dmaInit demoEnv [] 4096 4096 0 false = some [] :=
  init_introspect_adds_nothing demoEnv_ok [] 4096 4096 false (by decide) (by decide) (by decide)
    (fun k _ => rfl) (fun k _ => by simp [demoEnv])

/-- C44 is about something: three regions that only merge in two steps become one. -/
example : defrag demoEnv [⟨4096, 64, 0, false⟩, ⟨4224, 64, 0, false⟩, ⟨4160, 64, 0, false⟩, ⟨4288, 64, 0, true⟩] =
    some [⟨4096, 192, 0, false⟩, ⟨4288, 64, 0, true⟩] := by decide

end Verif.Dma
