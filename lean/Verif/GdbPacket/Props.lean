import Verif.GdbPacket.Spec
import Mathlib.Tactic.IntervalCases
import Mathlib.Data.List.Induction

/-!
# Properties: packets of the debugger (C74)
-/

namespace Verif.GdbPacket

/-! ## Characters -/

theorem foldl_mod (l : List Nat) (a : Nat) : l.foldl (fun sum c => (sum + c) % 256) a % 256 = (a + l.sum) % 256 := by
  induction l generalizing a with
  | nil => simp
  | cons c l ih => simp only [List.foldl_cons, ih, List.sum_cons]; omega

theorem foldl_lt (l : List Nat) (a : Nat) (h : a < 256) : l.foldl (fun sum c => (sum + c) % 256) a < 256 := by
  induction l generalizing a with
  | nil => simpa
  | cons c l ih => exact ih _ (Nat.mod_lt _ (by decide))

theorem checksum_eq (l : List Nat) : checksum l = sumOf l := by
  have h := foldl_mod l 0
  have := foldl_lt l 0 (by decide)
  unfold checksum sumOf
  rw [Nat.mod_eq_of_lt this] at h
  simpa using h

theorem hexDigit_of {d c : Nat} (h : Digit d c) : hexDigit c = some d ∧ d < 16 := by
  have hd : d < 16 := by
    by_contra hc
    have h1 : lowerDigits[d]? = none := List.getElem?_eq_none (by simp [lowerDigits]; omega)
    have h2 : upperDigits[d]? = none := List.getElem?_eq_none (by simp [upperDigits]; omega)
    rcases h with h | h <;> simp_all
  refine ⟨?_, hd⟩
  interval_cases d <;> rcases h with h | h <;> simp [lowerDigits, upperDigits] at h <;> subst h <;> rfl

theorem digit_upper {d : Nat} (h : d < 16) : Digit d (upper d) := by
  right
  interval_cases d <;> rfl

theorem digit_fun {c d e : Nat} (h : Digit d c) (h' : Digit e c) : d = e := by
  have := (hexDigit_of h).1
  rw [(hexDigit_of h').1] at this
  simpa using this.symm

theorem digit_ne {d c : Nat} (h : Digit d c) : isSpace c = false ∧ c ≠ 45 ∧ c ≠ 43 ∧ c ≠ 120 ∧ c ≠ 88 ∧ c ≠ 0 ∧ c ≠ 36 := by
  obtain ⟨h1, h2⟩ := hexDigit_of h
  have : (48 ≤ c ∧ c ≤ 57) ∨ (97 ≤ c ∧ c ≤ 102) ∨ (65 ≤ c ∧ c ≤ 70) := by
    unfold hexDigit at h1
    by_contra hc
    rw [if_neg (by omega), if_neg (by omega), if_neg (by omega)] at h1
    cases h1
  simp only [isSpace]
  refine ⟨?_, by omega, by omega, by omega, by omega, by omega, by omega⟩
  simp only [Bool.or_eq_false_iff, decide_eq_false_iff_not, Bool.and_eq_false_iff]
  omega

/-- The zeros after what was stored. -/
@[irreducible] def zeros : List Nat := List.replicate 512 0

theorem zeros_length : zeros.length = 512 := by unfold zeros; exact List.length_replicate

theorem zeros_get (i : Nat) : zeros[i]? = if i < 512 then some 0 else none := by
  unfold zeros; exact List.getElem?_replicate

theorem zeros_cons : ∃ r, zeros = 0 :: r := ⟨List.replicate 511 0, by unfold zeros; rfl⟩

/-- Two digits and the end of the string. -/
theorem strtolByte_digits {a b c1 c2 : Nat} (h1 : Digit a c1) (h2 : Digit b c2) (n : Nat) :
    strtolByte (([c1, c2] ++ zeros).take n) =
      if 3 ≤ n then some (16 * a + b) else none := by
  obtain ⟨s1, m1, p1, x1, X1, z1, _⟩ := digit_ne h1
  obtain ⟨s2, m2, p2, x2, X2, z2, _⟩ := digit_ne h2
  obtain ⟨v1, l1⟩ := hexDigit_of h1
  obtain ⟨v2, l2⟩ := hexDigit_of h2
  have h0 : hexDigit 0 = none := rfl
  match n with
  | 0 => simp [strtolByte]
  | 1 =>
    simp only [List.cons_append, List.take_succ_cons, List.take_zero, strtolByte, s1]
    simp [signed, m1, p1, afterPrefix]
    intro _
    simp [digits, v1]
  | 2 =>
    simp only [List.cons_append, List.take_succ_cons, List.take_zero, strtolByte, s1]
    simp [signed, m1, p1, afterPrefix, x2, X2, digits, v1, v2]
  | n + 3 =>
    obtain ⟨r, hr⟩ := zeros_cons
    simp only [List.cons_append, List.nil_append, hr, List.take_succ_cons, strtolByte, s1]
    simp [signed, m1, p1, afterPrefix, x2, X2, digits, v1, v2, h0]
    omega

/-! ## The buffer -/

/-- The buffer holds the characters `t`, as far as they fit. -/
def Holds (s : State) (t : List Nat) : Prop :=
  s.data = (t ++ zeros).take 512 ∧ s.length = min 512 t.length

theorem Holds.push {s : State} {t : List Nat} (h : Holds s t) (c : Nat) : Holds (push s c) (t ++ [c]) := by
  obtain ⟨h1, h2⟩ := h
  unfold GdbPacket.push bufSize
  by_cases hl : s.length = 512
  · rw [if_pos hl]
    have : 512 ≤ t.length := by omega
    refine ⟨?_, by simp; omega⟩
    rw [h1, List.take_append_of_le_length this, List.append_assoc, List.take_append_of_le_length this]
  · rw [if_neg hl]
    have ht : t.length < 512 := by omega
    have hs : s.length = t.length := by omega
    refine ⟨?_, by simp [hs]; omega⟩
    simp only [h1, hs]
    apply List.ext_getElem?
    intro i
    simp only [List.getElem?_set, List.getElem?_take, List.getElem?_append, zeros_get, List.length_take,
      List.length_append, zeros_length, List.length_cons, List.length_nil]
    by_cases hi : t.length = i
    · subst hi
      simp [ht]
    · rw [if_neg hi]
      by_cases h5 : i < 512
      · simp only [h5, if_true]
        by_cases h6 : i < t.length
        · have h7 : i < t.length + (0 + 1) := by omega
          simp [h6, h7]
        · have h7 : ¬ i < t.length + (0 + 1) := by omega
          simp [h6, h7]
          have h8 : i - t.length < 512 := by omega
          have h9 : i - (t.length + 1) < 512 := by omega
          simp [h8, h9]
      · simp [h5]

theorem Holds.clear {s : State} {t : List Nat} (h : Holds s t) : Holds (clear s) [] := by
  obtain ⟨h1, h2⟩ := h
  refine ⟨?_, rfl⟩
  simp only [GdbPacket.clear, h1, h2]
  apply List.ext_getElem?
  intro i
  simp only [List.getElem?_append, List.getElem?_replicate, zeros_get, List.getElem?_drop, List.getElem?_take,
    List.length_replicate, List.length_nil]
  by_cases h5 : i < 512
  · by_cases h6 : i < min 512 t.length
    · simp only [h5, h6, if_true]
      simp [h5]
    · have e : min 512 t.length + (i - min 512 t.length) = i := by omega
      have h7 : ¬ i < t.length := by omega
      have h8 : i - t.length < 512 := by omega
      simp only [h6, e, h5, h7, h8, if_true, if_false]
      simp [h5]
  · have h6 : ¬ i < min 512 t.length := by omega
    have e : min 512 t.length + (i - min 512 t.length) = i := by omega
    simp only [h6, e, h5, if_false]

theorem holds_initial : Holds initial [] := by
  refine ⟨?_, rfl⟩
  rw [List.nil_append, List.take_of_length_le (by rw [zeros_length])]
  unfold zeros
  rfl

/-- The state while and after the characters `s` arrived. -/
structure Inv (s : List Nat) (st : State) : Prop where
  holds : ∃ t, Holds st t
  waiting : st.wait = true → ∃ pre tail, s = pre ++ 36 :: tail ∧ 36 ∉ tail ∧ Holds st (36 :: tail) ∧
    ((35 ∉ tail ∧ st.index = 0 ∧ st.count = 0) ∨
      ∃ d r, tail = d ++ 35 :: r ∧ 35 ∉ d ∧ st.index = min 512 (1 + d.length) ∧ st.count = r.length ∧ r.length < 2)

theorem inv_initial : Inv [] initial := ⟨⟨_, holds_initial⟩, fun h => by cases h⟩

theorem handleChar_dollar (st : State) :
    handleChar st 36 = (push (clear { st with wait := true }) 36, false) := by
  have : (push (clear { st with wait := true }) 36).count = 0 := by
    unfold push; split <;> rfl
  simp [handleChar, this]

theorem push_fields (st : State) (c : Nat) :
    (push st c).count = st.count ∧ (push st c).index = st.index ∧ (push st c).wait = st.wait := by
  unfold push; split <;> exact ⟨rfl, rfl, rfl⟩

/-- A character arrives: there is a command exactly if it completes a packet, and then the buffer holds the packet. -/
theorem handleChar_cases {s : List Nat} {st : State} (h : Inv s st) (c : Nat) :
    ((handleChar st c).2 = false ∧ Inv (s ++ [c]) (handleChar st c).1) ∨
    ((handleChar st c).2 = true ∧ ∃ pre d c1, s ++ [c] = pre ++ frame d c1 c ∧ Plain d ∧ c1 ≠ 36 ∧ c ≠ 36 ∧
      Holds (handleChar st c).1 (frame d c1 c) ∧ (handleChar st c).1.index = min 512 (1 + d.length)) := by
  by_cases hc : c = 36
  · subst hc
    left
    rw [handleChar_dollar]
    obtain ⟨t, ht⟩ := h.holds
    have hw : Holds { st with wait := true } t := ht
    have hh : Holds (push (clear { st with wait := true }) 36) [36] := by simpa using hw.clear.push 36
    refine ⟨rfl, ⟨_, hh⟩, fun _ => ⟨s, [], by simp, by simp, hh, Or.inl ⟨by simp, ?_, ?_⟩⟩⟩
    · rw [(push_fields _ _).2.1]; rfl
    · rw [(push_fields _ _).1]; rfl
  · -- another character
    cases hwait : st.wait with
    | false =>
      left
      obtain ⟨t, ht⟩ := h.holds
      have hw : (handleChar st c).1.wait = false := by
        simp only [handleChar, if_neg hc]
        rw [(push_fields _ _).2.2]
        split
        · exact hwait
        · split <;> exact hwait
      refine ⟨?_, ⟨t ++ [c], ?_⟩, fun hf => by rw [hw] at hf; cases hf⟩
      · have : (handleChar st c).2 = decide ((handleChar st c).1.count = 2 ∧ (handleChar st c).1.wait = true) := rfl
        rw [this, hw]
        simp
      · simp only [handleChar, if_neg hc]
        split
        · exact Holds.push (s := { st with count := st.count + 1 }) ht c
        · split
          · exact Holds.push (s := { st with index := st.length }) ht c
          · exact ht.push c
    | true =>
      obtain ⟨pre, tail, hs, htail, hh, hcase⟩ := h.waiting hwait
      have htc : 36 ∉ tail ++ [c] := by simp [htail]; exact fun h => hc h.symm
      rcases hcase with ⟨h35, hidx, hcnt⟩ | ⟨d, r, hdr, h35, hidx, hcnt, hr⟩
      · left
        by_cases hh35 : c = 35
        · have e : (handleChar st c).1 = push { st with index := st.length } c := by
            simp [handleChar, hc, hidx, hh35]
          have hp : Holds (handleChar st c).1 (36 :: (tail ++ [c])) := by
            rw [e]; exact Holds.push (s := { st with index := st.length }) hh c
          have h2 : (handleChar st c).2 = false := by
            have : (handleChar st c).2 = decide ((handleChar st c).1.count = 2 ∧ (handleChar st c).1.wait = true) := rfl
            rw [this, e, (push_fields _ _).1, hcnt]
            simp
          refine ⟨h2, ⟨_, hp⟩, fun _ => ⟨pre, tail ++ [c], by simp [hs], htc, hp, Or.inr ⟨tail, [], by simp [hh35], h35, ?_, ?_, by simp⟩⟩⟩
          · rw [e, (push_fields _ _).2.1]
            have := hh.2
            simp only [List.length_cons] at this
            show st.length = _
            omega
          · rw [e, (push_fields _ _).1]
            exact hcnt
        · have e : (handleChar st c).1 = push st c := by
            simp [handleChar, hc, hidx, hh35]
          have hp : Holds (handleChar st c).1 (36 :: (tail ++ [c])) := by
            rw [e]; exact hh.push c
          have h2 : (handleChar st c).2 = false := by
            have : (handleChar st c).2 = decide ((handleChar st c).1.count = 2 ∧ (handleChar st c).1.wait = true) := rfl
            rw [this, e, (push_fields _ _).1, hcnt]
            simp
          refine ⟨h2, ⟨_, hp⟩, fun _ => ⟨pre, tail ++ [c], by simp [hs], htc, hp, Or.inl ⟨?_, ?_, ?_⟩⟩⟩
          · simp [h35]; exact fun h => hh35 h.symm
          · rw [e, (push_fields _ _).2.1, hidx]
          · rw [e, (push_fields _ _).1, hcnt]
      · have hne : st.index ≠ 0 := by omega
        have e : (handleChar st c).1 = push { st with count := st.count + 1 } c := by
          simp [handleChar, hc, hne]
        have hp : Holds (handleChar st c).1 (36 :: (tail ++ [c])) := by
          rw [e]; exact Holds.push (s := { st with count := st.count + 1 }) hh c
        have h2 : (handleChar st c).2 = decide (st.count + 1 = 2) := by
          have : (handleChar st c).2 = decide ((handleChar st c).1.count = 2 ∧ (handleChar st c).1.wait = true) := rfl
          rw [this, e, (push_fields _ _).1, (push_fields _ _).2.2]
          simp [hwait]
        match r, hcnt, hr, hdr with
        | [], hcnt, _, hdr =>
          left
          refine ⟨by rw [h2, hcnt]; rfl, ⟨_, hp⟩, fun _ => ⟨pre, tail ++ [c], by simp [hs], htc, hp, Or.inr ⟨d, [c], by simp [hdr], h35, ?_, ?_, by simp⟩⟩⟩
          · rw [e, (push_fields _ _).2.1]; exact hidx
          · rw [e, (push_fields _ _).1]; simp [hcnt]
        | [c1], hcnt, _, hdr =>
          right
          have hd : 36 ∉ d ∧ c1 ≠ 36 := by
            rw [hdr] at htail
            simp only [List.mem_append, List.mem_cons, List.not_mem_nil] at htail
            exact ⟨fun h => htail (Or.inl h), fun h => htail (Or.inr (Or.inr (Or.inl h.symm)))⟩
          refine ⟨by rw [h2, hcnt]; rfl, pre, d, c1, by simp [hs, hdr, frame], ⟨hd.1, h35⟩, hd.2, hc, ?_, ?_⟩
          · have : frame d c1 c = 36 :: (tail ++ [c]) := by simp [frame, hdr]
            rw [this]; exact hp
          · rw [e, (push_fields _ _).2.1]; exact hidx

theorem step_inv {s : List Nat} {st : State} (h : Inv s st) (c : Nat) : Inv (s ++ [c]) (step st c).1 := by
  unfold step
  rcases handleChar_cases h c with ⟨h1, h2⟩ | ⟨h1, pre, d, c1, _, _, _, _, hh, _⟩
  · simp only [h1]; exact h2
  · simp only [h1, if_true]
    exact ⟨⟨_, hh.clear⟩, fun hf => by cases hf⟩

theorem run_append (s : State) (a b : List Nat) :
    run s (a ++ b) = ((run (run s a).1 b).1, (run s a).2 ++ (run (run s a).1 b).2) := by
  induction a generalizing s with
  | nil => simp [run]
  | cons c a ih => simp [run, ih]

theorem run_inv {s t : List Nat} {st : State} (h : Inv s st) : Inv (s ++ t) (run st t).1 := by
  induction t generalizing s st with
  | nil => simpa [run] using h
  | cons c t ih =>
    have := ih (step_inv h c)
    simpa [run] using this

/-- What is done with a packet that is in the buffer. -/
theorem handleGdb_frame {st : State} {d : List Nat} {c1 c2 : Nat} (h : Holds st (frame d c1 c2))
    (hi : st.index = min 512 (1 + d.length)) :
    handleGdb st = match strtolByte (([c1, c2] ++ zeros).take (510 - d.length)) with
      | none => [.outside]
      | some v => if sumOf (cString d) ≠ v then [.nack] else [.ack, .exec (cString d)] := by
  unfold handleGdb
  have hdrop : st.data.drop (st.index + 1) = ([c1, c2] ++ zeros).take (510 - d.length) := by
    rw [h.1, hi, List.drop_take]
    by_cases hd : d.length ≤ 510
    · have e : frame d c1 c2 ++ zeros = (36 :: d ++ [35]) ++ ([c1, c2] ++ zeros) := by
        simp [frame]
      rw [e, List.drop_append_of_le_length (by simp; omega), List.drop_eq_nil_of_le (by simp; omega), List.nil_append]
      congr 1
      omega
    · have e1 : 512 - (min 512 (1 + d.length) + 1) = 0 := by omega
      have e2 : 510 - d.length = 0 := by omega
      rw [e1, e2]
      simp
  simp only
  rw [hdrop]
  cases hv : strtolByte (([c1, c2] ++ zeros).take (510 - d.length)) with
  | none => rfl
  | some v =>
    have hd : d.length ≤ 510 := by
      by_contra hc
      have : 510 - d.length = 0 := by omega
      rw [this] at hv
      simp [strtolByte] at hv
    have htake : (st.data.drop 1).take (st.index - 1) = d := by
      have : st.index - 1 = d.length := by omega
      rw [this, h.1, List.drop_take]
      have e : (frame d c1 c2 ++ zeros).drop 1 = d ++ ([35, c1, c2] ++ zeros) := by
        simp [frame]
      rw [e, List.take_take, List.take_append_of_le_length (by omega)]
      exact List.take_of_length_le (by omega)
    simp only [htake, checksum_eq]
    have : sumOf (cString d ++ List.replicate (st.index - 1 - (cString d).length) 0) = sumOf (cString d) := by
      simp [sumOf]
    rw [this]

/-- A packet whose first character, data and so on arrive after anything else. -/
theorem run_frame (junk d : List Nat) (c1 c2 : Nat) (hd : Plain d) (h1 : c1 ≠ 36) (h2 : c2 ≠ 36) :
    (run (run initial junk).1 (frame d c1 c2)).2 =
      match strtolByte (([c1, c2] ++ zeros).take (510 - d.length)) with
      | none => [.outside]
      | some v => if sumOf (cString d) ≠ v then [.nack] else [.ack, .exec (cString d)] := by
  have hinv : Inv junk (run initial junk).1 := by simpa using run_inv (t := junk) inv_initial
  generalize (run initial junk).1 = st at hinv
  obtain ⟨t, ht⟩ := hinv.holds
  -- after the dollar and the data
  have key : ∀ e, e <+: d → ∃ st', run st (36 :: e) = (st', []) ∧ st'.wait = true ∧ Holds st' (36 :: e) ∧ st'.index = 0 ∧ st'.count = 0 := by
    intro e
    induction e using List.reverseRecOn with
    | nil =>
      intro _
      refine ⟨push (clear { st with wait := true }) 36, ?_, ?_, ?_, ?_, ?_⟩
      · simp [run, step, handleChar_dollar]
      · rw [(push_fields _ _).2.2]; rfl
      · have hw : Holds { st with wait := true } t := ht
        simpa using hw.clear.push 36
      · rw [(push_fields _ _).2.1]; rfl
      · rw [(push_fields _ _).1]; rfl
    | append_singleton e c ih =>
      intro hp
      obtain ⟨st', hr, hw, hh, hi, hc⟩ := ih ((List.prefix_append e [c]).trans hp)
      have hcd : c ∈ d := hp.subset (by simp)
      have c36 : c ≠ 36 := fun h => hd.1 (h ▸ hcd)
      have c35 : c ≠ 35 := fun h => hd.2 (h ▸ hcd)
      have e1 : handleChar st' c = (push st' c, false) := by
        have : (push st' c).count = 0 := by rw [(push_fields _ _).1, hc]
        simp [handleChar, c36, c35, hi, this]
      refine ⟨push st' c, ?_, ?_, hh.push c, ?_, ?_⟩
      · rw [← List.cons_append, run_append, hr]
        simp [run, step, e1]
      · rw [(push_fields _ _).2.2, hw]
      · rw [(push_fields _ _).2.1, hi]
      · rw [(push_fields _ _).1, hc]
  obtain ⟨sa, hr, hw, hh, hi, hc⟩ := key d (List.prefix_refl d)
  -- the hash
  have hb : handleChar sa 35 = (push { sa with index := sa.length } 35, false) := by
    have : (push { sa with index := sa.length } 35).count = 0 := by rw [(push_fields _ _).1]; exact hc
    simp [handleChar, hi, this]
  set sb := push { sa with index := sa.length } 35 with hsb
  have hhb : Holds sb (36 :: d ++ [35]) := Holds.push (s := { sa with index := sa.length }) hh 35
  have hib : sb.index = min 512 (1 + d.length) := by
    rw [hsb, (push_fields _ _).2.1]
    have := hh.2
    simp only [List.length_cons] at this
    show sa.length = _
    omega
  have hwb : sb.wait = true := by rw [hsb, (push_fields _ _).2.2]; exact hw
  have hcb : sb.count = 0 := by rw [hsb, (push_fields _ _).1]; exact hc
  have hnb : sb.index ≠ 0 := by omega
  -- the first digit
  have hcc : handleChar sb c1 = (push { sb with count := 1 } c1, false) := by
    have : (push { sb with count := 1 } c1).count = 1 := by rw [(push_fields _ _).1]
    simp [handleChar, h1, hnb, hcb, this]
  set sc := push { sb with count := 1 } c1 with hsc
  have hhc : Holds sc (36 :: d ++ [35] ++ [c1]) := Holds.push (s := { sb with count := 1 }) hhb c1
  have hic : sc.index = min 512 (1 + d.length) := by rw [hsc, (push_fields _ _).2.1]; exact hib
  have hwc : sc.wait = true := by rw [hsc, (push_fields _ _).2.2]; exact hwb
  have hccnt : sc.count = 1 := by rw [hsc, (push_fields _ _).1]
  have hnc : sc.index ≠ 0 := by omega
  -- the second digit
  have hdd : handleChar sc c2 = (push { sc with count := 2 } c2, true) := by
    have e1 : (push { sc with count := 2 } c2).count = 2 := by rw [(push_fields _ _).1]
    have e2 : (push { sc with count := 2 } c2).wait = true := by rw [(push_fields _ _).2.2]; exact hwc
    simp [handleChar, h2, hnc, hccnt, e1, e2]
  have hhd : Holds (push { sc with count := 2 } c2) (frame d c1 c2) := by
    have := Holds.push (s := { sc with count := 2 }) hhc c2
    simpa [frame] using this
  have hid : (push { sc with count := 2 } c2).index = min 512 (1 + d.length) := by
    rw [(push_fields _ _).2.1]; exact hic
  have e : frame d c1 c2 = (36 :: d) ++ [35, c1, c2] := rfl
  rw [e, run_append, hr]
  have s1 : step sa 35 = (sb, []) := by simp [step, hb]
  have s2 : step sb c1 = (sc, []) := by simp [step, hcc]
  have s3 : (step sc c2).2 = handleGdb (push { sc with count := 2 } c2) := by simp [step, hdd]
  simp only [run, s1, s2, s3, List.nil_append, List.append_nil]
  exact handleGdb_frame hhd hid

/-! ## The properties -/

theorem cString_plain {d : List Nat} (h : 0 ∉ d) : cString d = d := by
  induction d with
  | nil => rfl
  | cons c d ih =>
    simp only [List.mem_cons, not_or] at h
    have hc : c ≠ 0 := fun e => h.1 e.symm
    simp only [cString, List.takeWhile_cons] at ih ⊢
    simp only [hc, ne_eq, not_false_eq_true, decide_true, if_true]
    rw [ih h.2]

theorem says_ne {c1 c2 v : Nat} (h : Says c1 c2 v) : c1 ≠ 36 ∧ c2 ≠ 36 := by
  obtain ⟨a, b, h1, h2, _⟩ := h
  exact ⟨(digit_ne h1).2.2.2.2.2.2, (digit_ne h2).2.2.2.2.2.2⟩

/-- **C74.** Whatever arrived before, a packet without zeros that fits in the buffer and has the right sum is acknowledged
and its data are executed, exactly once and exactly as they were sent. -/
theorem delivered_partial (junk d : List Nat) (c1 c2 : Nat) (hd : Plain d) (h0 : 0 ∉ d) (hl : d.length ≤ 507)
    (hs : Says c1 c2 (sumOf d)) :
    (run (run initial junk).1 (frame d c1 c2)).2 = [.ack, .exec d] := by
  rw [run_frame junk d c1 c2 hd (says_ne hs).1 (says_ne hs).2]
  obtain ⟨a, b, h1, h2, hv⟩ := hs
  rw [strtolByte_digits h1 h2, if_pos (by omega), cString_plain h0, hv]
  simp

/-- **C74.** With a wrong sum it is refused and not executed. -/
theorem corrupted_partial (junk d : List Nat) (c1 c2 v : Nat) (hd : Plain d) (h0 : 0 ∉ d) (hl : d.length ≤ 507)
    (hs : Says c1 c2 v) (hv : v ≠ sumOf d) :
    (run (run initial junk).1 (frame d c1 c2)).2 = [.nack] := by
  rw [run_frame junk d c1 c2 hd (says_ne hs).1 (says_ne hs).2]
  obtain ⟨a, b, h1, h2, hv'⟩ := hs
  rw [strtolByte_digits h1 h2, if_pos (by omega), cString_plain h0]
  simp only
  rw [if_pos (by omega)]

/-- **C74.** Nothing else is executed: if anything happens after the characters `s ++ [c]`, a packet has just arrived, and
what is executed is what was sent in it, up to a zero, with that sum if the sum is in digits. -/
theorem only_packets (s : List Nat) (c : Nat) (ev : Event) (h : ev ∈ (step (run initial s).1 c).2) :
    ∃ pre d c1, s ++ [c] = pre ++ frame d c1 c ∧ Plain d ∧
      ∀ x, ev = .exec x → x = cString d ∧ d.length ≤ 510 ∧ ∀ v, Says c1 c v → v = sumOf x := by
  have hinv : Inv s (run initial s).1 := by simpa using run_inv (t := s) inv_initial
  rcases handleChar_cases hinv c with ⟨h1, _⟩ | ⟨h1, pre, d, c1, hs, hp, n1, n2, hh, hi⟩
  · simp [step, h1] at h
  · refine ⟨pre, d, c1, hs, hp, ?_⟩
    rintro x rfl
    simp only [step, h1, if_true] at h
    rw [handleGdb_frame hh hi] at h
    cases hv : strtolByte (([c1, c] ++ zeros).take (510 - d.length)) with
    | none => rw [hv] at h; simp at h
    | some v =>
      rw [hv] at h
      have hd : d.length ≤ 510 := by
        by_contra hc
        have : 510 - d.length = 0 := by omega
        rw [this] at hv
        simp [strtolByte] at hv
      by_cases hne : sumOf (cString d) = v
      · simp [hne] at h
        subst h
        refine ⟨rfl, hd, ?_⟩
        rintro w ⟨a, b, ha, hb, rfl⟩
        rw [strtolByte_digits ha hb] at hv
        split at hv
        · rw [hne]; simpa using hv
        · cases hv
      · simp [hne] at h

/-- **Disagreement with C74.** Binary data may contain zeros: what follows the first one is lost. The packet is refused
however often it is sent, or, if what follows adds up to nothing, it is acknowledged and cut. -/
theorem zero_byte_lost (junk a b : List Nat) (c1 c2 : Nat) (hd : Plain (a ++ 0 :: b)) (h0 : 0 ∉ a)
    (hl : (a ++ 0 :: b).length ≤ 507) (hs : Says c1 c2 (sumOf (a ++ 0 :: b))) :
    (run (run initial junk).1 (frame (a ++ 0 :: b) c1 c2)).2 = if b.sum % 256 = 0 then [.ack, .exec a] else [.nack] := by
  rw [run_frame junk _ c1 c2 hd (says_ne hs).1 (says_ne hs).2]
  obtain ⟨x, y, h1, h2, hv⟩ := hs
  have hc : cString (a ++ 0 :: b) = a := by
    unfold cString
    rw [List.takeWhile_append_of_pos]
    · simp
    · intro y hy
      simp
      exact fun h => h0 (h ▸ hy)
  rw [strtolByte_digits h1 h2, if_pos (by omega), hc]
  simp only [← hv]
  simp only [sumOf, List.sum_append, List.sum_cons]
  by_cases hb : b.sum % 256 = 0
  · rw [if_pos hb, if_neg (by omega)]
  · rw [if_neg hb, if_pos (by omega)]

/-- **Disagreement with C74.** A longer packet makes the server read memory after its buffer. -/
theorem long_reads_outside (junk d : List Nat) (c1 c2 v : Nat) (hd : Plain d) (hl : 508 ≤ d.length)
    (hs : Says c1 c2 v) : (run (run initial junk).1 (frame d c1 c2)).2 = [.outside] := by
  rw [run_frame junk d c1 c2 hd (says_ne hs).1 (says_ne hs).2]
  obtain ⟨a, b, h1, h2, hv⟩ := hs
  rw [strtolByte_digits h1 h2, if_neg (by omega)]

/-- **Disagreement with C74.** The characters after `#` need not be digits: ` g` is read as 0 and `-f` as 241, so that
packets with these are executed. -/
theorem no_digits_accepted :
    (run initial (frame [200, 56] 32 103)).2 = [.ack, .exec [200, 56]] ∧
    (run initial (frame [120, 121] 45 102)).2 = [.ack, .exec [120, 121]] ∧
    ¬ ∃ v, Says 32 103 v := by
  refine ⟨?_, ?_, ?_⟩
  · have := run_frame [] [200, 56] 32 103 (by decide) (by decide) (by decide)
    simpa [run, strtolByte, signed, isSpace, afterPrefix, digits, hexDigit, sumOf, cString] using this
  · have := run_frame [] [120, 121] 45 102 (by decide) (by decide) (by decide)
    obtain ⟨r, hr⟩ := zeros_cons
    simpa [run, strtolByte, signed, isSpace, afterPrefix, digits, hexDigit, sumOf, cString, hr] using this
  · rintro ⟨v, a, b, h, _⟩
    have := (digit_ne h).1
    simp [isSpace] at this

theorem putchar_flatMap {l : List Nat} (h : 10 ∉ l) : l.flatMap putchar = l := by
  induction l with
  | nil => rfl
  | cons c l ih =>
    simp only [List.mem_cons, not_or] at h
    have hc : c ≠ 10 := fun hc => h.1 hc.symm
    simp [putchar, ih h.2, hc]

/-- **C74.** An answer is a packet with the right sum, followed by the end of the line. -/
theorem answer_right (m rest : List Nat) (h0 : 0 ∉ m) (h10 : 10 ∉ m) (hl : m.length ≤ 250) (len : Nat)
    (hlen : len = 0 ∨ len = m.length + 1) :
    ∃ c1 c2, sendMessage m rest len = frame m c1 c2 ++ [13, 10] ∧ Says c1 c2 (sumOf m) := by
  have hlt : sumOf m < 256 := Nat.mod_lt _ (by decide)
  have hc := cString_plain h0
  refine ⟨upper (sumOf m / 16), upper (sumOf m % 16), ?_, _, _, digit_upper (by omega), digit_upper (by omega), by omega⟩
  unfold sendMessage
  rw [hc]
  have e1 : (if len = 0 then m.length + 1 else len) = m.length + 1 := by
    rcases hlen with h | h
    · rw [if_pos h]
    · rw [if_neg (by omega), h]
  have e2 : (m ++ 0 :: rest).take (m.length + 1) = m ++ [0] := by
    have : m ++ 0 :: rest = (m ++ [0]) ++ rest := by simp
    rw [this, List.take_append_of_le_length (by simp)]
    exact List.take_of_length_le (by simp)
  have e3 : sumOf (m ++ [0]) = sumOf m := by simp [sumOf]
  simp only [e1, e2, checksum_eq, e3]
  have hu : ∀ d, d < 16 → upper d ≠ 0 ∧ upper d ≠ 10 := by
    intro d hd
    unfold upper
    split <;> omega
  have u1 := hu (sumOf m / 16) (by omega)
  have u2 := hu (sumOf m % 16) (by omega)
  have hz : (0 : Nat) ∉ 36 :: m ++ [35, upper (sumOf m / 16), upper (sumOf m % 16), 10] := by
    simp [h0, Ne.symm u1.1, Ne.symm u2.1]
  unfold printf maxPrintf
  rw [cString_plain hz, List.take_of_length_le (by simp; omega)]
  have hn : (10 : Nat) ∉ 36 :: m ++ [35, upper (sumOf m / 16), upper (sumOf m % 16)] := by
    simp [h10, Ne.symm u1.2, Ne.symm u2.2]
  have e4 : 36 :: m ++ [35, upper (sumOf m / 16), upper (sumOf m % 16), 10] =
      (36 :: m ++ [35, upper (sumOf m / 16), upper (sumOf m % 16)]) ++ [10] := by simp
  rw [e4, List.flatMap_append, putchar_flatMap hn]
  simp [frame, cString, putchar]

/-- **C74.** No character of an answer is lost on the line, if the hardware has as much room as the code assumes: what left
the hardware and what is still in it is what was written. -/
theorem line_right {depth room : Nat} {cs : List Nat} {l : Line} (hr : depth ≤ room) (h : Line.Run depth room cs l) :
    l.lost = false ∧ l.left ++ l.fifo = cs := by
  suffices l.lost = false ∧ l.left ++ l.fifo = cs ∧ l.fifo.length ≤ l.used ∧ l.used ≤ depth from ⟨this.1, this.2.1⟩
  induction h with
  | start => simp [Line.start]
  | silent _ hs ih =>
    obtain ⟨i1, i2, i3, i4⟩ := ih
    cases hs with
    | send c rest hf =>
      rw [hf] at i2 i3
      simp at i3
      exact ⟨i1, by simpa using i2, by simp; omega, i4⟩
    | waited hu hf => exact ⟨i1, i2, by simp [hf], by simp⟩
  | write _ hs ih =>
    obtain ⟨i1, i2, i3, i4⟩ := ih
    cases hs with
    | write hu =>
      rename_i l c _ _
      have : l.fifo.length < room := by omega
      refine ⟨by simp [i1, this], ?_, ?_, ?_⟩
      · simp only [this, if_true]
        rw [← i2, List.append_assoc]
      · simp only [this, if_true]
        simp; omega
      · show l.used + 1 ≤ depth
        omega

/-- Writing can always go on, once the hardware has sent what it has. -/
theorem line_live {depth room : Nat} {cs : List Nat} {l : Line} (hd : 0 < depth) (h : Line.Run depth room cs l) (c : Nat) :
    ∃ l', Line.Run depth room cs l' ∧ ∃ m, Line.Step depth room l' (some c) m := by
  by_cases hu : l.used = depth
  · have key : ∀ n l, l.fifo.length = n → l.used = depth → Line.Run depth room cs l →
        ∃ l', Line.Run depth room cs l' ∧ l'.used = depth ∧ l'.fifo = [] := by
      intro n
      induction n with
      | zero => exact fun l h1 h2 h3 => ⟨l, h3, h2, List.length_eq_zero_iff.1 h1⟩
      | succ n ih =>
        intro l h1 h2 h3
        match hf : l.fifo with
        | [] => simp [hf] at h1
        | x :: xs =>
          refine ih _ ?_ ?_ (h3.silent (.send l x xs hf))
          · simpa [hf] using h1
          · exact h2
    obtain ⟨l', r', u', f'⟩ := key _ l rfl hu h
    exact ⟨_, r'.silent (.waited l' u' f'), _, .write _ c (by simp; omega)⟩
  · exact ⟨l, h, _, .write l c hu⟩

/-! ## Examples -/

/-- `$m1000,4#8e` after noise that contains a part of a packet. -/
example : (run (run initial [43, 36, 103, 35]).1 (frame [109, 49, 48, 48, 48, 44, 52] 56 101)).2 =
    [.ack, .exec [109, 49, 48, 48, 48, 44, 52]] :=
  delivered_partial _ _ _ _ (by decide) (by decide) (by decide) ⟨8, 14, Or.inl rfl, Or.inl rfl, rfl⟩

/-- With `8f` instead. -/
example : (run (run initial [43]).1 (frame [109, 49, 48, 48, 48, 44, 52] 56 102)).2 = [.nack] :=
  corrupted_partial _ _ _ _ 143 (by decide) (by decide) (by decide) ⟨8, 15, Or.inl rfl, Or.inl rfl, rfl⟩ (by decide)

/-- `OK` is answered as `$OK#9A`. -/
example : sendMessage [79, 75] [] 0 = [36, 79, 75, 35, 57, 65, 13, 10] := by decide

/-- A zero in binary data. -/
example : (run (run initial []).1 (frame ([88] ++ 0 :: [5]) 53 100)).2 = [.nack] := by
  have := zero_byte_lost [] [88] [5] 53 100 (by decide) (by decide) (by decide) ⟨5, 13, Or.inl rfl, Or.inl rfl, rfl⟩
  simpa using this

/-- The hypotheses of `long_reads_outside`. -/
example (n : Nat) : Plain (List.replicate n 65) ∧ (List.replicate n 65).length = n ∧ Says 97 70 175 :=
  ⟨by constructor <;> (intro h; have := List.eq_of_mem_replicate h; omega), by simp, 10, 15, Or.inl rfl, Or.inr rfl, rfl⟩

/-- Two characters with a depth of 1. -/
example : ∃ l, Line.Run 1 16 [65, 66] l ∧ l.left = [65] ∧ l.fifo = [66] := by
  refine ⟨_, Line.Run.write (cs := [65]) (.silent (.silent (.write (cs := []) .start (.write _ 65 (by decide))) (.send _ 65 [] rfl))
    (.waited _ rfl rfl)) (.write _ 66 (by decide)), rfl, rfl⟩

end Verif.GdbPacket
