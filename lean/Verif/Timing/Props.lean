import Verif.Timing.Spec
import Mathlib.Data.List.Induction
import Mathlib.Tactic.ByContra
import Mathlib.Tactic.Tauto
import Mathlib.Tactic.Ring

/-!
# C107: the time stamps of a connector
-/

namespace Verif.Timing

open Spec (IsFirst passes Passed Known Countable)

/-! ### Points -/

theorem find_lt (points : List String) (p : String) : find points p < points.length ↔ p ∈ points := by
  induction points with
  | nil => simp [find]
  | cons q l ih =>
    unfold find
    by_cases h : q = p
    · simp [h]
    · have h' : ¬ p = q := fun e => h e.symm
      simp [h, h', ih]

theorem find_get (points : List String) (p : String) (h : p ∈ points) :
    points[find points p]? = some p := by
  induction points with
  | nil => simp at h
  | cons q l ih =>
    unfold find
    by_cases hq : q = p
    · simp [hq]
    · have : p ∈ l := by
        rcases List.mem_cons.1 h with h | h
        · exact absurd h.symm hq
        · exact h
      simp [hq, ih this]

theorem find_inj (points : List String) (p q : String) (hp : p ∈ points) (hq : q ∈ points)
    (h : find points p = find points q) : p = q := by
  have h1 := find_get points p hp
  have h2 := find_get points q hq
  rw [h, h2] at h1
  exact (Option.some.inj h1).symm

theorem find_zero (points : List String) (p : String) (hp : p ∈ points) :
    find points p = 0 ↔ points.head? = some p := by
  cases points with
  | nil => simp at hp
  | cons q l =>
    unfold find
    by_cases h : q = p <;> simp [h]

/-! ### Histories -/

theorem passes_reset (points : List String) (nameAt : Nat → String) (l : List Event) :
    passes points nameAt (l ++ [.reset]) = 0 := by
  induction l with
  | nil => simp [passes]
  | cons e l ih => cases e <;> simp [passes, ih]

theorem passes_stamp (points : List String) (nameAt : Nat → String) (l : List Event)
    (site t : Nat) :
    passes points nameAt (l ++ [.stamp site t])
      = passes points nameAt l + (if IsFirst points nameAt site then 1 else 0) := by
  induction l with
  | nil => simp [passes]
  | cons e l ih =>
    cases e with
    | reset => simp [passes, ih]
    | stamp s' t' =>
      simp only [List.cons_append, passes, ih]
      have : Event.reset ∈ l ++ [.stamp site t] ↔ Event.reset ∈ l := by simp
      simp only [this]
      omega

theorem passed_reset (points : List String) (nameAt : Nat → String) (l : List Event) (n : Nat)
    (p : String) (t : Nat) : ¬ Passed points nameAt (l ++ [.reset]) n p t := by
  rintro ⟨b, site, a, he, _, hr, _⟩
  apply hr
  rcases List.eq_nil_or_concat a with rfl | ⟨a', x, rfl⟩
  · have := congrArg List.getLast? he
    simp at this
  · have h2 : (l ++ [Event.reset]).getLast? = (b ++ .stamp site t :: a'.concat x).getLast? := by
      rw [he]
    simp only [List.concat_eq_append] at h2
    rw [show b ++ Event.stamp site t :: (a' ++ [x]) = (b ++ Event.stamp site t :: a') ++ [x] by simp]
      at h2
    simp only [List.getLast?_append, List.getLast?_singleton, Option.some_or, Option.some.injEq]
      at h2
    rw [← h2]
    simp

theorem passed_stamp (points : List String) (nameAt : Nat → String) (l : List Event) (n : Nat)
    (p : String) (t : Nat) (site now : Nat) :
    Passed points nameAt (l ++ [.stamp site now]) n p t ↔
      if nameAt site = p ∧ passes points nameAt (l ++ [.stamp site now]) = n + 1 then t = now
      else Passed points nameAt l n p t := by
  by_cases hc : nameAt site = p ∧ passes points nameAt (l ++ [.stamp site now]) = n + 1
  · rw [if_pos hc]
    constructor
    · rintro ⟨b, s', a, he, hn, hr, hp, hl⟩
      rcases List.eq_nil_or_concat a with rfl | ⟨a', x, rfl⟩
      · have := List.append_inj' he rfl
        simp at this
        exact this.2.2.symm
      · exfalso
        simp only [List.concat_eq_append] at he hl
        rw [show b ++ Event.stamp s' t :: (a' ++ [x]) = (b ++ Event.stamp s' t :: a') ++ [x] by simp]
          at he
        obtain ⟨h1, h2⟩ := List.append_inj' he rfl
        simp only [List.cons.injEq, and_true] at h2
        subst h2
        apply hl a' site now [] (by simp) hc.1
        rw [h1] at hc
        simpa using hc.2
    · rintro rfl
      exact ⟨l, site, [], rfl, hc.1, by simp, hc.2, by simp⟩
  · rw [if_neg hc]
    constructor
    · rintro ⟨b, s', a, he, hn, hr, hp, hl⟩
      rcases List.eq_nil_or_concat a with rfl | ⟨a', x, rfl⟩
      · exfalso
        obtain ⟨h1, h2⟩ := List.append_inj' he rfl
        simp only [List.cons.injEq, and_true, Event.stamp.injEq] at h2
        rw [← h1, ← h2.1, ← h2.2] at hp
        exact hc ⟨h2.1 ▸ hn, hp⟩
      · simp only [List.concat_eq_append] at he hl hr
        rw [show b ++ Event.stamp s' t :: (a' ++ [x]) = (b ++ Event.stamp s' t :: a') ++ [x] by simp]
          at he
        obtain ⟨h1, h2⟩ := List.append_inj' he rfl
        refine ⟨b, s', a', h1, hn, fun h => hr (List.mem_append_left _ h), hp, ?_⟩
        intro mid s2 t2 rest hm
        exact hl mid s2 t2 (rest ++ [x]) (by rw [hm]; simp)
    · rintro ⟨b, s', a, he, hn, hr, hp, hl⟩
      refine ⟨b, s', a ++ [.stamp site now], by rw [he]; simp, hn, by simp [hr], hp, ?_⟩
      intro mid s2 t2 rest hm hn2
      rcases List.eq_nil_or_concat rest with rfl | ⟨r', x, rfl⟩
      · obtain ⟨h1, h2⟩ := List.append_inj' hm rfl
        simp only [List.cons.injEq, and_true, Event.stamp.injEq] at h2
        subst h1
        intro h
        apply hc
        rw [h2.1, h2.2, he]
        exact ⟨hn2, by simpa using h⟩
      · simp only [List.concat_eq_append] at hm
        rw [show mid ++ Event.stamp s2 t2 :: (r' ++ [x]) = (mid ++ Event.stamp s2 t2 :: r') ++ [x]
          by simp] at hm
        obtain ⟨h1, _⟩ := List.append_inj' hm rfl
        exact hl mid s2 t2 r' h1 hn2

/-! ### Places in the buffer -/

theorem toSize_nat (k : Nat) (h : k < wordMod) : toSize (k : Int) = k := by
  unfold toSize
  rw [Int.emod_eq_of_lt (by omega) (by omega)]
  simp

theorem slot_nat (points : List String) (k i : Nat) (hN : points.length < 2 ^ 32) (hk : k < 2 ^ 31)
    (hi : i < points.length) : slot points (k : Int) i = k * points.length + i := by
  unfold slot
  rw [toSize_nat k (by unfold wordMod; omega)]
  apply Nat.mod_eq_of_lt
  have : k * points.length ≤ (2 ^ 31 - 1) * (2 ^ 32 - 1) := Nat.mul_le_mul (by omega) (by omega)
  unfold wordMod
  omega

theorem slot_start (points : List String) (i : Nat) (hN : points.length < 2 ^ 32)
    (hi : i < points.length) : ¬ slot points (-1) i < entries := by
  have h1 : toSize (-1) = wordMod - 1 := by decide
  have h2 : (wordMod - 1) * points.length + i
      = (wordMod - points.length + i) + wordMod * (points.length - 1) := by
    obtain ⟨m, hm⟩ : ∃ m, points.length = m + 1 := ⟨points.length - 1, by omega⟩
    rw [hm] at hN ⊢
    unfold wordMod
    simp only [Nat.add_sub_cancel]
    omega
  unfold slot
  rw [h1, h2, Nat.add_mul_mod_self_left, Nat.mod_eq_of_lt (by unfold wordMod; omega)]
  unfold entries wordMod
  omega

theorem place_inj (N n i n' i' : Nat) (hi : i < N) (hi' : i' < N) (h : n * N + i = n' * N + i') :
    n = n' ∧ i = i' := by
  have hN : 0 < N := by omega
  have h1 : (n * N + i) / N = n := by
    rw [Nat.add_comm, Nat.add_mul_div_right _ _ hN, Nat.div_eq_of_lt hi]; omega
  have h2 : (n' * N + i') / N = n' := by
    rw [Nat.add_comm, Nat.add_mul_div_right _ _ hN, Nat.div_eq_of_lt hi']; omega
  have : n = n' := by rw [← h1, ← h2, h]
  subst this
  exact ⟨rfl, by omega⟩

/-! ### The invariant -/

/-- The state that a history leads to. -/
structure Inv (points : List String) (nameAt : Nat → String) (hist : List Event) (s : State) :
    Prop where
  iteration : s.iteration = (passes points nameAt hist : Int) - 1
  count : passes points nameAt hist ≤ 2 ^ 31
  size : s.buffer.length = entries
  index : ∀ site i, s.index site = some i →
    nameAt site ∈ points ∧ i = find points (nameAt site)
  value : ∀ n p, p ∈ points → n * points.length + find points p < entries →
    ∃ v, s.buffer[n * points.length + find points p]? = some v
      ∧ (Passed points nameAt hist n p v
          ∨ (v = 0 ∧ ∀ t, ¬ Passed points nameAt hist n p t))

theorem inv_start (points : List String) (nameAt : Nat → String) :
    Inv points nameAt [] start := by
  refine ⟨by simp [start, passes], by simp [passes], by simp [start], by simp [start], ?_⟩
  intro n p _ h
  refine ⟨0, by simp only [start]; rw [List.getElem?_replicate, if_pos h], .inr ⟨rfl, ?_⟩⟩
  rintro t ⟨b, site, a, he, _⟩
  simp at he

theorem inv_reset (points : List String) (nameAt : Nat → String) (hist : List Event) (s : State)
    (h : Inv points nameAt hist s) : Inv points nameAt (hist ++ [.reset]) (reset s) := by
  refine ⟨by simp [reset, passes_reset], by simp [passes_reset], by simp [reset], h.index, ?_⟩
  intro n p _ hlt
  refine ⟨0, by simp only [reset]; rw [List.getElem?_replicate, if_pos hlt], .inr ⟨rfl, ?_⟩⟩
  exact fun t => passed_reset points nameAt hist n p t

/-- The index at a use of the macro. -/
theorem stamp_index (points : List String) (nameAt : Nat → String) (hist : List Event) (s : State)
    (h : Inv points nameAt hist s) (site : Nat) :
    indexAt points site (nameAt site) s
      = if nameAt site ∈ points then some (find points (nameAt site)) else none := by
  unfold indexAt
  cases hi : s.index site with
  | none => simp only [find_lt]
  | some i =>
    obtain ⟨h1, h2⟩ := h.index site i hi
    simp [h1, h2]

theorem inv_stamp (points : List String) (nameAt : Nat → String) (hist : List Event) (s s' : State)
    (hN : points.length < 2 ^ 32) (h : Inv points nameAt hist s) (site now : Nat)
    (hs : stamp points site (nameAt site) now s = .ok s') :
    Inv points nameAt (hist ++ [.stamp site now]) s' := by
  unfold stamp at hs
  rw [stamp_index points nameAt hist s h site] at hs
  by_cases hm : nameAt site ∈ points
  · rw [if_pos hm] at hs
    simp only at hs
    have hlt : find points (nameAt site) < points.length := (find_lt _ _).2 hm
    have hz := find_zero points (nameAt site) hm
    have hindex : ∀ x i, (if x = site then some (find points (nameAt site)) else s.index x) = some i →
        nameAt x ∈ points ∧ i = find points (nameAt x) := by
      intro x i hx
      by_cases he : x = site
      · rw [if_pos he] at hx
        subst he
        exact ⟨hm, (Option.some.inj hx).symm⟩
      · rw [if_neg he] at hx
        exact h.index x i hx
    by_cases ho : find points (nameAt site) = 0 ∧ s.iteration = intMax
    · rw [if_pos ho] at hs; simp at hs
    · rw [if_neg ho] at hs
      -- the number of passes
      have hp := passes_stamp points nameAt hist site now
      have hif : (if IsFirst points nameAt site then 1 else 0)
          = if find points (nameAt site) = 0 then 1 else 0 := by
        unfold IsFirst; simp only [hz]
      rw [hif] at hp
      have hiter := h.iteration
      have hcount := h.count
      obtain ⟨it, hit⟩ : ∃ it, it = (if find points (nameAt site) = 0 then s.iteration + 1
        else s.iteration) := ⟨_, rfl⟩
      have hit' : it = (passes points nameAt (hist ++ [.stamp site now]) : Int) - 1 := by
        rw [hp, hit]; split <;> omega
      have hcount' : passes points nameAt (hist ++ [.stamp site now]) ≤ 2 ^ 31 := by
        rw [hp]
        by_cases hf : find points (nameAt site) = 0
        · rw [if_pos hf]
          have : s.iteration ≠ intMax := fun e => ho ⟨hf, e⟩
          unfold intMax at this
          omega
        · rw [if_neg hf]; omega
      rw [← hit] at hs
      -- which place is written
      have hslot : ∀ k, passes points nameAt (hist ++ [.stamp site now]) = k + 1 →
          slot points it (find points (nameAt site))
            = k * points.length + find points (nameAt site) := by
        intro k hk
        rw [hit', hk]
        have : ((k + 1 : Nat) : Int) - 1 = (k : Int) := by omega
        rw [this]
        exact slot_nat points k _ hN (by omega) hlt
      have hnone : passes points nameAt (hist ++ [.stamp site now]) = 0 →
          ¬ slot points it (find points (nameAt site)) < entries := by
        intro hk
        have : it = -1 := by rw [hit', hk]; rfl
        rw [this]
        exact slot_start points _ hN hlt
      by_cases hw : slot points it (find points (nameAt site)) < entries
      · rw [if_pos hw] at hs
        obtain rfl := Except.ok.inj hs
        refine ⟨hit', hcount', by simp [h.size], hindex, ?_⟩
        obtain ⟨k, hk⟩ : ∃ k, passes points nameAt (hist ++ [.stamp site now]) = k + 1 := by
          cases hq : passes points nameAt (hist ++ [.stamp site now]) with
          | zero => exact absurd hw (hnone hq)
          | succ k => exact ⟨k, rfl⟩
        have hsl := hslot k hk
        intro n p hpm hlt'
        simp only [passed_stamp]
        simp only [hk]
        by_cases hc : nameAt site = p ∧ k + 1 = n + 1
        · obtain ⟨rfl, hkn⟩ := hc
          obtain rfl : k = n := by omega
          refine ⟨now, ?_, .inl ?_⟩
          · rw [hsl, List.getElem?_set_self (by rw [h.size]; exact hlt')]
          · simp
        · simp only [if_neg hc]
          obtain ⟨v, hv, hv'⟩ := h.value n p hpm hlt'
          refine ⟨v, ?_, hv'⟩
          rw [hsl, List.getElem?_set_ne, hv]
          intro he
          obtain ⟨h1, h2⟩ := place_inj points.length _ _ _ _ hlt ((find_lt _ _).2 hpm) he
          exact hc ⟨find_inj points _ _ hm hpm h2, by omega⟩
      · rw [if_neg hw] at hs
        obtain rfl := Except.ok.inj hs
        refine ⟨hit', hcount', h.size, hindex, ?_⟩
        intro n p hpm hlt'
        simp only [passed_stamp]
        have hc : ¬ (nameAt site = p ∧ passes points nameAt (hist ++ [.stamp site now]) = n + 1) := by
          rintro ⟨rfl, hk⟩
          rw [hslot n hk] at hw
          exact hw hlt'
        simp only [if_neg hc]
        exact h.value n p hpm hlt'
  · rw [if_neg hm] at hs
    simp at hs

theorem inv_run (points : List String) (nameAt : Nat → String) (hN : points.length < 2 ^ 32)
    (l hist : List Event) (s s' : State) (h : Inv points nameAt hist s)
    (hr : runFrom points nameAt s l = .ok s') : Inv points nameAt (hist ++ l) s' := by
  induction l generalizing hist s with
  | nil =>
    unfold runFrom at hr
    obtain rfl := Except.ok.inj hr
    simpa using h
  | cons e l ih =>
    unfold runFrom at hr
    cases he : step points nameAt s e with
    | error f => rw [he] at hr; simp at hr
    | ok s1 =>
      rw [he] at hr
      have h1 : Inv points nameAt (hist ++ [e]) s1 := by
        cases e with
        | reset =>
          obtain rfl := Except.ok.inj he
          exact inv_reset points nameAt hist s h
        | stamp site now => exact inv_stamp points nameAt hist s s1 hN h site now he
      have := ih (hist ++ [e]) s1 h1 hr
      simpa using this

/-- **C107.**  A program that only passes points that are known, and resets before the iterations
cannot be counted any more, never goes wrong in `TIMESTAMP`. -/
theorem run_defined (points : List String) (nameAt : Nat → String) (hist : List Event)
    (hN : points.length < 2 ^ 32) (hk : Known points nameAt hist)
    (hc : Countable points nameAt hist) : ∃ s, run points nameAt hist = .ok s := by
  have main : ∀ (l pre : List Event) (s : State), Inv points nameAt pre s → pre ++ l = hist →
      ∃ s', runFrom points nameAt s l = .ok s' := by
    intro l
    induction l with
    | nil => intro pre s _ _; exact ⟨s, rfl⟩
    | cons e l ih =>
      intro pre s hi hp
      have hstep : ∃ s1, step points nameAt s e = .ok s1 := by
        cases e with
        | reset => exact ⟨_, rfl⟩
        | stamp site now =>
          have hm : nameAt site ∈ points := hk site now (by rw [← hp]; simp)
          unfold step stamp
          simp only [stamp_index points nameAt pre s hi site, if_pos hm]
          have hcl := hc (pre ++ [.stamp site now]) ⟨l, by rw [← hp]; simp⟩
          rw [passes_stamp] at hcl
          have hit := hi.iteration
          by_cases ho : find points (nameAt site) = 0 ∧ s.iteration = intMax
          · exfalso
            have hf : IsFirst points nameAt site := (find_zero points _ hm).1 ho.1
            rw [if_pos hf] at hcl
            have := ho.2
            unfold intMax at this
            omega
          · rw [if_neg ho]
            split <;> split <;> exact ⟨_, rfl⟩
      obtain ⟨s1, hs1⟩ := hstep
      have h1 : Inv points nameAt (pre ++ [e]) s1 :=
        inv_run points nameAt hN [e] pre s s1 hi (by
          unfold runFrom
          rw [hs1]
          rfl)
      obtain ⟨s', hs'⟩ := ih (pre ++ [e]) s1 h1 (by rw [← hp]; simp)
      refine ⟨s', ?_⟩
      unfold runFrom
      rw [hs1]
      exact hs'
  exact main hist [] start (inv_start points nameAt) (by simp)

/-- **C107.**  After any history, the entry of a point in an iteration that the buffer has room for
is the cycle count when the program last passed it in that iteration, and zero if it did not pass
it there since the last reset. -/
theorem entry_recorded (points : List String) (nameAt : Nat → String) (hist : List Event)
    (s : State) (hN : points.length < 2 ^ 32) (hr : run points nameAt hist = .ok s) (n : Nat)
    (p : String) (hp : p ∈ points) (hfit : (n + 1) * points.length ≤ 4096) :
    ∃ v, getEntry points n p s = .ok v
      ∧ (Passed points nameAt hist n p v ∨ (v = 0 ∧ ∀ t, ¬ Passed points nameAt hist n p t)) := by
  have hi := inv_run points nameAt hN hist [] start s (inv_start points nameAt) hr
  simp only [List.nil_append] at hi
  have hlt : find points p < points.length := (find_lt _ _).2 hp
  have hle : n * points.length + find points p < entries := by
    have : (n + 1) * points.length = n * points.length + points.length := by ring
    unfold entries
    omega
  have hw : n * points.length + find points p < wordMod := by
    unfold entries at hle
    unfold wordMod
    omega
  obtain ⟨v, hv, hv'⟩ := hi.value n p hp hle
  refine ⟨v, ?_, hv'⟩
  unfold getEntry
  rw [if_pos (by rw [Nat.mod_eq_of_lt (by omega)]; omega), if_pos hlt, Nat.mod_eq_of_lt hw, hv]

/-- The last pass is unique, so the entry is settled by the history. -/
theorem passed_unique (points : List String) (nameAt : Nat → String) (hist : List Event) (n : Nat)
    (p : String) (t t' : Nat) (h : Passed points nameAt hist n p t)
    (h' : Passed points nameAt hist n p t') : t = t' := by
  induction hist using List.reverseRecOn with
  | nil => obtain ⟨b, site, a, he, _⟩ := h; simp at he
  | append_singleton l e ih =>
    cases e with
    | reset => exact absurd h (passed_reset points nameAt l n p t)
    | stamp site now =>
      rw [passed_stamp] at h h'
      split at h
      · rw [if_pos ‹_›] at h'; rw [h, h']
      · rw [if_neg ‹_›] at h'; exact ih h h'

/-- **C107.**  After a reset every entry is zero. -/
theorem reset_clears (points : List String) (nameAt : Nat → String) (hist : List Event)
    (s : State) (hN : points.length < 2 ^ 32) (hr : run points nameAt (hist ++ [.reset]) = .ok s)
    (n : Nat) (p : String) (hp : p ∈ points) (hfit : (n + 1) * points.length ≤ 4096) :
    getEntry points n p s = .ok 0 := by
  obtain ⟨v, hv, h | ⟨rfl, _⟩⟩ := entry_recorded points nameAt _ s hN hr n p hp hfit
  · exact absurd h (passed_reset points nameAt hist n p v)
  · exact hv

/-- **C107.**  A point that is not known has the entry zero. -/
theorem unknown_point (points : List String) (s : State) (n : Nat) (p : String) (hp : p ∉ points)
    (hfit : n * points.length < 4096) : getEntry points n p s = .ok 0 := by
  unfold getEntry
  rw [if_pos (by rw [Nat.mod_eq_of_lt (by unfold wordMod; omega)]; exact hfit),
    if_neg (by rw [find_lt]; exact hp)]

/-- **C107.**  Passing a point that is not known fails an assertion. -/
theorem unknown_stamp (points : List String) (nameAt : Nat → String) (hist : List Event) (s : State)
    (hN : points.length < 2 ^ 32) (hr : run points nameAt hist = .ok s) (site now : Nat)
    (hp : nameAt site ∉ points) :
    run points nameAt (hist ++ [.stamp site now]) = .error .assertion := by
  have hi := inv_run points nameAt hN hist [] start s (inv_start points nameAt) hr
  have happ : ∀ (l : List Event) (a b : State), runFrom points nameAt a l = .ok b →
      runFrom points nameAt a (l ++ [.stamp site now])
        = runFrom points nameAt b [.stamp site now] := by
    intro l
    induction l with
    | nil => intro a b h; obtain rfl := Except.ok.inj h; rfl
    | cons e l ih =>
      intro a b h
      unfold runFrom at h
      simp only [List.cons_append]
      rw [runFrom]
      cases he : step points nameAt a e with
      | error f => rw [he] at h; simp at h
      | ok a' => rw [he] at h; exact ih a' b h
  unfold run at hr ⊢
  rw [happ hist start s hr]
  unfold runFrom step stamp
  simp only [stamp_index points nameAt _ s hi site, if_neg hp]

/-- The points that are reported are those of the interface. -/
theorem points_reported (points : List String) :
    (getPoints points).1 = points ∧ (getPoints points).2 = points.length := ⟨rfl, rfl⟩

/-! A run that records. -/

/-- Three points, passed twice (the second time without the last one), at three uses. -/
def demoHist : List Event :=
  [.stamp 1 5, .stamp 0 10, .stamp 1 20, .stamp 2 30, .stamp 0 40, .stamp 1 50, .stamp 1 60]

/-- The points. -/
def demoPoints : List String := ["in", "work", "out"]

/-- The point at each use. -/
def demoAt : Nat → String := fun i => demoPoints.getD i "out"

theorem demo_recorded :
    (run demoPoints demoAt demoHist).toOption.map (fun s =>
      [(0, "in"), (0, "work"), (0, "out"), (1, "work"), (1, "out")].map fun q =>
        (getEntry demoPoints q.1 q.2 s).toOption)
      = some [some 10, some 20, some 30, some 60, some 0] := by
  decide +kernel

theorem demo_known : Known demoPoints demoAt demoHist ∧ Countable demoPoints demoAt demoHist := by
  constructor
  · intro site t h
    simp only [demoHist, List.mem_cons, Event.stamp.injEq, List.not_mem_nil, or_false] at h
    rcases h with h | h | h | h | h | h | h <;> obtain ⟨rfl, _⟩ := h <;> decide
  · intro l hl
    have : ∀ l : List Event, passes demoPoints demoAt l ≤ l.length := by
      intro l
      induction l with
      | nil => simp [passes]
      | cons e l ih =>
        cases e with
        | reset => simp only [passes, List.length_cons]; omega
        | stamp a b => simp only [passes, List.length_cons]; split <;> omega
    have h1 := this l
    have h2 := hl.length_le
    have : demoHist.length = 7 := rfl
    omega

/-! ### Where the code disagrees -/

/-- **Disagreement with C107.**  Where the number of points does not divide the number of entries,
asking for a late point of the last iteration passes the assertion and reads outside the
buffer. -/
theorem entry_out_of_bounds (points : List String) (nameAt : Nat → String) (hist : List Event)
    (s : State) (hN : points.length < 2 ^ 32) (hr : run points nameAt hist = .ok s) (n : Nat)
    (p : String) (hp : p ∈ points) (h1 : n * points.length < 4096)
    (h2 : 4096 ≤ n * points.length + find points p) :
    getEntry points n p s = .error .undefined := by
  have hi := inv_run points nameAt hN hist [] start s (inv_start points nameAt) hr
  have hlt : find points p < points.length := (find_lt _ _).2 hp
  unfold getEntry
  rw [if_pos (by rw [Nat.mod_eq_of_lt (by unfold wordMod; omega)]; exact h1), if_pos hlt,
    Nat.mod_eq_of_lt (by unfold wordMod; omega)]
  have : s.buffer[n * points.length + find points p]? = none := by
    rw [List.getElem?_eq_none_iff, hi.size]
    exact h2
  rw [this]

/-- Three points are enough for that. -/
theorem demo_out_of_bounds :
    ∃ s, run demoPoints demoAt [] = .ok s ∧ getEntry demoPoints 1365 "work" s = .error .undefined := by
  refine ⟨start, rfl, entry_out_of_bounds demoPoints demoAt [] start (by decide) rfl 1365 "work"
    (by decide) (by decide) (by decide)⟩

/-- **C107.**  Where the number of points divides the number of entries, no entry is read outside
the buffer. -/
theorem entry_in_bounds (points : List String) (nameAt : Nat → String) (hist : List Event)
    (s : State) (hr : run points nameAt hist = .ok s) (n k : Nat) (hk : k * points.length = 4096)
    (hn : n < 2 ^ 32) (p : String) : getEntry points n p s ≠ .error .undefined := by
  have hpos : 0 < points.length := by
    rcases Nat.eq_zero_or_pos points.length with h | h
    · rw [h] at hk; simp at hk
    · exact h
  have hN : points.length ≤ 4096 := by
    have : points.length ∣ 4096 := ⟨k, by rw [← hk]; ring⟩
    exact Nat.le_of_dvd (by decide) this
  by_cases hp : p ∈ points
  · by_cases hfit : n < k
    · obtain ⟨v, hv, _⟩ := entry_recorded points nameAt hist s (by omega) hr n p hp (by
        rw [← hk]; exact Nat.mul_le_mul_right _ hfit)
      rw [hv]; simp
    · have h1 : ¬ n * points.length % wordMod < entries := by
        have : n * points.length ≤ (2 ^ 32 - 1) * 4096 := Nat.mul_le_mul (by omega) hN
        rw [Nat.mod_eq_of_lt (by unfold wordMod; omega)]
        have : k * points.length ≤ n * points.length := Nat.mul_le_mul_right _ (by omega)
        unfold entries
        omega
      unfold getEntry
      rw [if_neg h1]
      simp
  · unfold getEntry
    split
    · rw [if_neg (by rw [find_lt]; exact hp)]; simp
    · simp

/-- **C107.**  Where timing is switched on, the functions that are defined are those that the
header declares. -/
theorem names_defined (i : List Char) : definedNames true i = declaredNames i := rfl

/-- **Disagreement with C107.**  Where timing is switched off, none of the functions that the
header declares for the interface is defined. -/
theorem names_undefined (i : List Char) : ∀ n ∈ declaredNames i, n ∉ definedNames false i := by
  intro n hn
  unfold declaredNames at hn
  unfold definedNames
  simp only [Bool.false_eq_true, if_false, List.mem_cons, List.not_mem_nil, or_false] at hn ⊢
  rcases hn with rfl | rfl | rfl <;>
    simp only [List.append_cancel_left_eq] <;> decide +kernel

end Verif.Timing
