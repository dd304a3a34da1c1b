import Verif.GdbRegs.Spec
import Verif.GdbMem.Props

/-!
# Properties: registers and breakpoints in the debugger (C76)
-/

namespace Verif.GdbRegs

open GdbMem

/-! ## Words -/

theorem leBytes_lt (v : Nat) : ∀ b ∈ leBytes v, b < 256 := by
  intro b hb
  simp only [leBytes, List.mem_cons, List.not_mem_nil, or_false] at hb
  omega

theorem hex2_mod (v : Nat) : hex2 v = hex2 (v % 256) := by
  unfold hex2
  rw [Nat.mod_mod, Nat.mod_mod_of_dvd v (by decide : 16 ∣ 256)]

theorem parts {a b c d : Nat} (ha : a < 256) (hb : b < 256) (hc : c < 256) (hd : d < 256) :
    (a * 2 ^ 24 + b * 2 ^ 16 + c * 2 ^ 8 + d) / 2 ^ 24 % 256 = a ∧ (a * 2 ^ 24 + b * 2 ^ 16 + c * 2 ^ 8 + d) / 2 ^ 16 % 256 = b ∧
    (a * 2 ^ 24 + b * 2 ^ 16 + c * 2 ^ 8 + d) / 2 ^ 8 % 256 = c ∧ (a * 2 ^ 24 + b * 2 ^ 16 + c * 2 ^ 8 + d) % 256 = d := by
  refine ⟨?_, ?_, ?_, ?_⟩ <;> omega

theorem bswap_parts (v : Nat) : bswap v / 2 ^ 24 % 256 = v % 256 ∧ bswap v / 2 ^ 16 % 256 = v / 2 ^ 8 % 256 ∧
    bswap v / 2 ^ 8 % 256 = v / 2 ^ 16 % 256 ∧ bswap v % 256 = v / 2 ^ 24 % 256 :=
  parts (Nat.mod_lt _ (by decide)) (Nat.mod_lt _ (by decide)) (Nat.mod_lt _ (by decide)) (Nat.mod_lt _ (by decide))

theorem hex8_bswap (v : Nat) : hex8 (bswap v) = hexBytes (leBytes v) := by
  rw [← hexBytes_eq (leBytes_lt v)]
  have e : (leBytes v).flatMap hex2 =
      hex2 (v % 256) ++ (hex2 (v / 2 ^ 8 % 256) ++ (hex2 (v / 2 ^ 16 % 256) ++ (hex2 (v / 2 ^ 24 % 256) ++ []))) := rfl
  obtain ⟨h1, h2, h3, h4⟩ := bswap_parts v
  unfold hex8
  rw [hex2_mod (bswap v / 2 ^ 24), hex2_mod (bswap v / 2 ^ 16), hex2_mod (bswap v / 2 ^ 8), hex2_mod (bswap v), h1, h2, h3,
    h4, e]
  simp

/-- The digits of the bytes of a word. -/
def wordDigits (v : Nat) : List Nat := (leBytes v).flatMap fun b => [b / 16, b % 16]

theorem hexBytes_word (v : Nat) : hexBytes (leBytes v) = text (wordDigits v) := rfl

theorem wordDigits_small (v : Nat) : ∀ d ∈ wordDigits v, d < 16 := by
  intro d hd
  obtain ⟨b, hb, hd⟩ := List.mem_flatMap.1 hd
  have := leBytes_lt v b hb
  simp only [List.mem_cons, List.not_mem_nil, or_false] at hd
  omega

theorem number_word {v : Nat} (h : v < 2 ^ 32) : bswap (number 16 (wordDigits v)) = v ∧ number 16 (wordDigits v) < 2 ^ 32 := by
  have e : number 16 (wordDigits v) =
      v % 256 * 2 ^ 24 + v / 2 ^ 8 % 256 * 2 ^ 16 + v / 2 ^ 16 % 256 * 2 ^ 8 + v / 2 ^ 24 % 256 := by
    simp only [number, wordDigits, leBytes, List.flatMap_cons, List.flatMap_nil, List.cons_append, List.nil_append,
      List.foldl_cons, List.foldl_nil]
    omega
  rw [e]
  constructor
  · obtain ⟨h1, h2, h3, h4⟩ := parts (Nat.mod_lt v (by decide : 256 > 0)) (Nat.mod_lt (v / 2 ^ 8) (by decide : 256 > 0))
      (Nat.mod_lt (v / 2 ^ 16) (by decide : 256 > 0)) (Nat.mod_lt (v / 2 ^ 24) (by decide : 256 > 0))
    unfold bswap
    rw [h1, h2, h3, h4]
    clear h1 h2 h3 h4 e
    omega
  · omega

theorem digits_append {ds : List Nat} (h : ∀ d ∈ ds, d < 16) (acc : Nat) (rest : List Nat) :
    digits 16 acc (text ds ++ rest) = digits 16 (ds.foldl (fun n d => 16 * n + d) acc) rest := by
  induction ds generalizing acc with
  | nil => rfl
  | cons d ds ih =>
    rw [text_cons, List.cons_append, digits, digit16 (h d (by simp))]
    exact ih (fun x hx => h x (by simp [hx])) _

theorem digits_stop {base acc : Nat} {rest : List Nat} (h : ∀ c, rest.head? = some c → digit base c = none) :
    digits base acc rest = acc := by
  cases rest with
  | nil => rfl
  | cons c cs => rw [digits, h c rfl]

theorem wordData_text (w : World) {v : Nat} (h : v < 2 ^ 32)
    (ha : ∀ c, w.after.head? = some c → digit 16 c = none) :
    bswap (wordData w (hexBytes (leBytes v))) = v := by
  have hm := fun c => hexBytes_mem (leBytes_lt v) (c := c)
  have e1 : (hexBytes (leBytes v)).takeWhile (· ≠ 0) = hexBytes (leBytes v) := by
    have := takeWhile_stop (p := (· ≠ 0)) (tok := hexBytes (leBytes v)) (t := [])
      (fun c hc => by have := hm c hc; simp; omega) (by simp)
    simpa using this
  have e2 : (hexBytes (leBytes v)).length = 8 := by rw [hexBytes_length]; rfl
  unfold wordData
  simp only [e1]
  rw [List.take_of_length_le (by omega), e2]
  simp only [Nat.sub_self, List.replicate_zero, List.append_nil]
  rw [hexBytes_word, digits_append (wordDigits_small v), digits_stop ha]
  have hn := number_word h
  have : min (number 16 (wordDigits v)) (2 ^ 32 - 1) = number 16 (wordDigits v) := by omega
  rw [show (wordDigits v).foldl (fun n d => 16 * n + d) 0 = number 16 (wordDigits v) from rfl, this]
  exact hn.1

/-! ## Registers -/

theorem index_names {r : Nat} (h : r < 10) : index r = some (kernelNames.idxOf (gdbNames.getD r "")) := by
  interval_cases r <;> decide

theorem index_none {r : Nat} (h : 10 ≤ r) (h' : r < 13) : index r = none := by
  interval_cases r <;> rfl

theorem strtok_rest {tok : List Nat} (n : Nat) (hn : tok ≠ []) (h : ∀ c ∈ tok, c ≠ 0) :
    strtok [] (tok ++ List.replicate n 0) = some (tok, List.replicate n 0) := by
  have := strtok_of (delims := []) (pre := []) (tok := tok) (t := List.replicate n 0) (by simp) hn
    (fun c hc => ⟨by simp, h c hc⟩) (fun c h => Or.inr (fill_head _ _ h))
  simpa using this

theorem text_nonzero {ds : List Nat} (h : ∀ d ∈ ds, d < 16) : ∀ c ∈ text ds, c ≠ 0 := fun c hc => by
  have := text_mem h hc; omega

/-- **C76.** Reading one of the first ten registers gives its value in the current thread, and changes nothing. -/
theorem read_right (w : World) (s : State) {rs : List Nat} (hr : Digits rs) (h : number 16 rs < 10) :
    command w s (readCommand rs) =
      (s, .reply (hexBytes (leBytes (s.value s.tcb (gdbNames.getD (number 16 rs) ""))))) := by
  show (s, readRegister s (text rs)) = _
  obtain ⟨n, he⟩ := array_eq (text rs)
  unfold readRegister
  rw [he, strtok_rest n (text_ne_nil hr) (text_nonzero hr.small)]
  simp only
  rw [strtol16 hr]
  have e : min (number 16 rs) (2 ^ 31 - 1) = number 16 rs := by omega
  rw [e, if_neg (by omega), index_names h]
  simp only
  rw [hex8_bswap]
  rfl

/-- **C76.** Other registers cannot be read. -/
theorem read_refused (w : World) (s : State) {rs : List Nat} (hr : Digits rs) (h : 10 ≤ number 16 rs) :
    command w s (readCommand rs) = (s, .reply noRegister) := by
  show (s, readRegister s (text rs)) = _
  obtain ⟨n, he⟩ := array_eq (text rs)
  unfold readRegister
  rw [he, strtok_rest n (text_ne_nil hr) (text_nonzero hr.small)]
  simp only
  rw [strtol16 hr, if_pos (by omega)]

theorem write_exact (w : World) (s : State) {rs : List Nat} (hr : Digits rs) (v : Nat) :
    command w s (writeCommand rs v) =
      if number 16 rs < 13 then
        match index (number 16 rs) with
        | none => (s, .reply okMessage)
        | some i => ({ setRegister s i (bswap (wordData w (hexBytes (leBytes v)))) with
            pc := if number 16 rs = 8 then bswap (wordData w (hexBytes (leBytes v))) else s.pc }, .reply okMessage)
      else (s, .reply okMessage) := by
  show writeRegister w s (text rs ++ 61 :: hexBytes (leBytes v)) = _
  obtain ⟨n, he⟩ := array_eq (text rs ++ 61 :: hexBytes (leBytes v))
  have t1 : strtok [61] (text rs ++ 61 :: hexBytes (leBytes v) ++ List.replicate n 0) =
      some (text rs, 61 :: (hexBytes (leBytes v) ++ List.replicate n 0)) := by
    have := strtok_of (delims := [61]) (pre := []) (tok := text rs) (t := 61 :: (hexBytes (leBytes v) ++ List.replicate n 0))
      (by simp) (text_ne_nil hr) (text_plain hr (by simp)) (by simp)
    simpa using this
  have hne : hexBytes (leBytes v) ≠ [] := by
    intro h
    have := hexBytes_length (leBytes v)
    rw [h] at this
    simp [leBytes] at this
  have t2 := strtok_rest (tok := hexBytes (leBytes v)) n hne
    (fun c hc => by have := hexBytes_mem (leBytes_lt v) hc; omega)
  unfold writeRegister
  rw [he, t1]
  simp only
  rw [next_delim (by decide), t2, strtol16 hr]
  simp only
  by_cases h13 : number 16 rs < 13
  · have e : min (number 16 rs) (2 ^ 31 - 1) = number 16 rs := by omega
    rw [e]
    all_goals simp only [h13, if_true]
    all_goals rfl
  · rw [if_neg (by omega), if_neg h13]

theorem idxOf_inj {a b : String} (ha : a ∈ kernelNames) (h : kernelNames.idxOf a = kernelNames.idxOf b) : a = b := by
  by_cases hb : b ∈ kernelNames
  · exact (List.idxOf_inj ha).1 h
  · have h1 := List.idxOf_lt_length_of_mem ha
    have h2 := List.idxOf_eq_length hb
    omega

theorem gdbNames_kernel {r : Nat} (h : r < 10) : gdbNames.getD r "" ∈ kernelNames := by
  interval_cases r <;> decide

/-- **C76.** Writing one of the first ten registers gives it the value in the current thread, and changes no other register
and no other thread, if the character that happens to be on the stack after the array is no digit. -/
theorem write_right_partial (w : World) (s : State) {rs : List Nat} {v : Nat} (hr : Digits rs) (h : number 16 rs < 10)
    (hv : v < 2 ^ 32) (hlen : (s.regs s.tcb).length = 12) (ha : ∀ c, w.after.head? = some c → digit 16 c = none) :
    ∃ s', command w s (writeCommand rs v) = (s', .reply okMessage) ∧
      s'.value s.tcb (gdbNames.getD (number 16 rs) "") = v ∧
      (∀ t name, t ≠ s.tcb ∨ name ≠ gdbNames.getD (number 16 rs) "" → s'.value t name = s.value t name) ∧
      s'.pc = (if gdbNames.getD (number 16 rs) "" = "eip" then v else s.pc) ∧
      s'.tcb = s.tcb ∧ s'.table = s.table ∧ s'.monitors = s.monitors := by
  rw [write_exact w s hr v, if_pos (by omega), index_names h, wordData_text w hv ha]
  have hpc : number 16 rs = 8 ↔ gdbNames.getD (number 16 rs) "" = "eip" := by
    generalize number 16 rs = r at h
    interval_cases r <;> decide
  have hmem := gdbNames_kernel h
  simp only [hpc]
  generalize gdbNames.getD (number 16 rs) "" = reg at hmem
  refine ⟨_, rfl, ?_, ?_, rfl, rfl, rfl, rfl⟩
  · have hi := List.idxOf_lt_length_of_mem hmem
    have hi' : kernelNames.idxOf reg < (s.regs s.tcb).length := by rw [hlen]; exact hi
    simp only [State.value, setRegister, if_true, List.getD_eq_getElem?_getD, List.getElem?_set, hi', Option.getD_some]
  · rintro t name hd
    by_cases ht : t = s.tcb
    · have hname : name ≠ reg := by
        rcases hd with hd | hd
        · exact absurd ht hd
        · exact hd
      have hne : kernelNames.idxOf reg ≠ kernelNames.idxOf name := fun he => hname (idxOf_inj hmem he).symm
      simp only [State.value, setRegister, ht, if_true, List.getD_eq_getElem?_getD, List.getElem?_set]
      rw [if_neg hne]
    · simp only [State.value, setRegister, ht, if_false]

/-- **C76.** What was written is read back. -/
theorem read_back_partial (w w' : World) (s : State) {rs : List Nat} {v : Nat} (hr : Digits rs) (h : number 16 rs < 10)
    (hv : v < 2 ^ 32) (hlen : (s.regs s.tcb).length = 12) (ha : ∀ c, w.after.head? = some c → digit 16 c = none) :
    (command w' (command w s (writeCommand rs v)).1 (readCommand rs)).2 = .reply (hexBytes (leBytes v)) := by
  obtain ⟨s', he, h1, _, _, h4, _⟩ := write_right_partial w s hr h hv hlen ha
  rw [he]
  simp only
  rw [read_right w' s' hr h, h4, h1]

/-- **Disagreement with C76.** Writing another register is said to be done, and is not. -/
theorem write_ignored (w : World) (s : State) {rs : List Nat} (v : Nat) (hr : Digits rs) (h : 10 ≤ number 16 rs) :
    command w s (writeCommand rs v) = (s, .reply okMessage) := by
  rw [write_exact w s hr v]
  by_cases h13 : number 16 rs < 13
  · rw [if_pos h13, index_none h h13]
  · rw [if_neg h13]

/-- **Disagreement with C76.** A digit on the stack after the array becomes part of the number: `P0=01000000` with `0`
after it sets `eax` to 16. -/
theorem stack_digit : ∀ s : State, (s.regs s.tcb).length = 12 →
    (command ⟨[48], [], true⟩ s (writeCommand [0] 1)).1.value s.tcb "eax" = 16 := by
  intro s hs
  rw [write_exact _ s ⟨by simp, by simp⟩]
  have e : bswap (wordData ⟨[48], [], true⟩ (hexBytes (leBytes 1))) = 16 := by decide
  rw [e]
  have i : kernelNames.idxOf "eax" = 3 := by decide
  simp only [State.value, i]
  show ((setRegister s 3 16).regs s.tcb).getD 3 0 = 16
  simp [setRegister, hs]

/-- **C76.** All registers are read at once, with zeros for those that the kernel does not give. -/
theorem general_right (w : World) (s : State) (c : List Nat) :
    command w s (103 :: c) = (s, .reply (gdbNames.flatMap fun name =>
      hexBytes (leBytes (if name ∈ kernelNames then s.value s.tcb name else 0)))) := by
  show (s, readGeneral s) = _
  unfold readGeneral
  simp only [hex8_bswap]
  congr 2

/-- **Disagreement with C76.** Writing all registers at once never changes a register; it is said to be done, or, if there
are eleven registers or more (the debugger sends sixteen), memory in front of the array is overwritten. -/
theorem general_write_ignored (w : World) (s : State) {c : List Nat} (hc : c ≠ []) (h0 : ∀ x ∈ c, x ≠ 0) :
    (command w s (71 :: c)).1.regs = s.regs ∧
    (command w s (71 :: c)).2 = if 88 ≤ c.length then .overflow else .reply okMessage := by
  show (writeGeneral w s c).1.regs = s.regs ∧ (writeGeneral w s c).2 = _
  obtain ⟨n, he⟩ := array_eq c
  unfold writeGeneral
  rw [he, strtok_rest n hc h0]
  simp only
  have hm : ∀ k, (marshal w c k).isSome ↔ k ≤ 10 := by
    intro k
    induction k with
    | zero => simp [marshal]
    | succ k ih =>
      rw [marshal]
      cases hk : marshal w c k with
      | none =>
        rw [hk] at ih
        simp at ih ⊢
        omega
      | some d =>
        rw [hk] at ih
        simp at ih ⊢
        by_cases h10 : k < 10
        · rw [index_names h10]; simp; omega
        · have : k = 10 := by omega
          subst this
          simp [index]
  have hfold : ∀ (k : Nat) (l : List Nat), (List.range k).foldl (fun r i => r.set i (r.getD i 0)) l = l := by
    intro k l
    induction k with
    | zero => rfl
    | succ k ih =>
      rw [List.range_succ, List.foldl_append, ih]
      simp only [List.foldl_cons, List.foldl_nil]
      apply List.ext_getElem?
      intro i
      rw [List.getElem?_set]
      split
      · rename_i hki
        subst hki
        split
        · rename_i hl
          simp [hl]
        · rename_i hl
          simp at hl
          simp [hl]
      · rfl
  have hn : min (c.length / 8) contextSize ≤ 10 ↔ ¬ 88 ≤ c.length := by unfold contextSize; omega
  cases hd : marshal w c (min (c.length / 8) contextSize) with
  | none =>
    have h1 := hm (min (c.length / 8) contextSize)
    rw [hd] at h1
    simp only [Option.isSome_none, Bool.false_eq_true, false_iff] at h1
    refine ⟨rfl, ?_⟩
    rw [if_pos (by by_contra hcon; exact h1 (hn.2 hcon))]
  | some d =>
    have h1 := hm (min (c.length / 8) contextSize)
    rw [hd] at h1
    simp only [Option.isSome_some, true_iff] at h1
    refine ⟨?_, ?_⟩
    · simp only [writeRegisters, hfold]
      funext t
      split
      · rename_i ht; rw [ht]
      · rfl
    · rw [if_neg (hn.1 h1)]

/-! ## Breakpoints -/

theorem format_wanted {type : Nat} (h1 : 1 ≤ type) (h4 : type ≤ 4) (addr size : Nat) :
    ∃ d r, format type = some (d, r) ∧ (⟨addr, d, if type = 1 then 0 else size, r⟩ : Break) = wanted type addr size := by
  interval_cases type
  · exact ⟨false, 0, rfl, rfl⟩
  · exact ⟨true, 1, rfl, rfl⟩
  · exact ⟨true, 0, rfl, rfl⟩
  · exact ⟨true, 2, rfl, rfl⟩

theorem break_exact (w : World) (s : State) (insert : Bool) {ts as ss : List Nat} (ht : Digits ts) (ha : Digits as)
    (hs : Digits ss) :
    breakpoint w s insert (text ts ++ 44 :: text as ++ 44 :: text ss) =
      if min (number 16 ts) (2 ^ 31 - 1) = 0 then (s, .reply [])
      else match format (min (number 16 ts) (2 ^ 31 - 1)) with
        | none => (s, .reply errorMessage)
        | some (data, rw) =>
          let b : Break := ⟨min (number 16 as) (2 ^ 31 - 1), data,
            if min (number 16 ts) (2 ^ 31 - 1) = 1 then 0 else min (number 16 ss) (2 ^ 31 - 1), rw⟩
          let r := if insert then insertBreak w s b else removeBreak w s b
          (r.1, .reply (if r.2 then okMessage else errorMessage)) := by
  obtain ⟨n, he⟩ := array_eq (text ts ++ 44 :: text as ++ 44 :: text ss)
  have t1 : strtok [44] (text ts ++ 44 :: text as ++ 44 :: text ss ++ List.replicate n 0) =
      some (text ts, 44 :: (text as ++ 44 :: (text ss ++ List.replicate n 0))) := by
    have := strtok_of (delims := [44]) (pre := []) (tok := text ts) (t := 44 :: (text as ++ 44 :: (text ss ++ List.replicate n 0)))
      (by simp) (text_ne_nil ht) (text_plain ht (by simp)) (by simp)
    simpa using this
  have t2 : strtok [44] (text as ++ 44 :: (text ss ++ List.replicate n 0)) =
      some (text as, 44 :: (text ss ++ List.replicate n 0)) := by
    have := strtok_of (delims := [44]) (pre := []) (tok := text as) (t := 44 :: (text ss ++ List.replicate n 0))
      (by simp) (text_ne_nil ha) (text_plain ha (by simp)) (by simp)
    simpa using this
  have t3 : strtok [44] (text ss ++ List.replicate n 0) = some (text ss, List.replicate n 0) := by
    have := strtok_of (delims := [44]) (pre := []) (tok := text ss) (t := List.replicate n 0)
      (by simp) (text_ne_nil hs) (text_plain hs (by simp)) (fun c h => Or.inr (fill_head _ _ h))
    simpa using this
  unfold breakpoint
  rw [he, t1]
  simp only
  rw [next_delim (by decide), t2]
  simp only
  rw [next_delim (by decide), t3]
  simp only
  rw [strtol16 ht, strtol16 ha, strtol16 hs]
  all_goals rfl

theorem findIdx_none {p : Option Break → Bool} {l : List (Option Break)} : findIdx p l = none ↔ ∀ b ∈ l, p b = false := by
  induction l with
  | nil => simp [findIdx]
  | cons b l ih =>
    simp only [findIdx]
    by_cases hp : p b = true
    · simp [hp]
    · simp [hp, ih]

theorem findIdx_some {p : Option Break → Bool} {l : List (Option Break)} {i : Nat} (h : findIdx p l = some i) :
    ∃ b, l[i]? = some b ∧ p b = true := by
  induction l generalizing i with
  | nil => simp [findIdx] at h
  | cons b l ih =>
    simp only [findIdx] at h
    by_cases hp : p b = true
    · simp [hp] at h
      subst h
      exact ⟨b, rfl, hp⟩
    · simp only [hp] at h
      simp at h
      obtain ⟨j, hj, rfl⟩ := h
      obtain ⟨c, h1, h2⟩ := ih hj
      exact ⟨c, by simpa using h1, h2⟩

theorem count_set {l : List (Option Break)} {i : Nat} {x : Option Break} (h : l[i]? = some x) (y z : Option Break) :
    (l.set i y).count z + (if x = z then 1 else 0) = l.count z + if y = z then 1 else 0 := by
  induction l generalizing i with
  | nil => simp at h
  | cons a l ih =>
    cases i with
    | zero =>
      simp at h
      subst h
      simp only [List.set_cons_zero, List.count_cons, beq_iff_eq]
      omega
    | succ i =>
      simp at h
      have := ih h
      simp only [List.set_cons_succ, List.count_cons, beq_iff_eq]
      omega

/-- One thread: the table of the component is what the kernel has. -/
def Same (t : Nat) (s : State) : Prop := s.tcb = t ∧ s.table = s.monitors t

theorem insertBreak_same {t : Nat} (w : World) {s : State} (h : Same t s) (b : Break) : Same t (insertBreak w s b).1 := by
  unfold insertBreak
  split
  · exact h
  · split
    · refine ⟨h.1, ?_⟩
      simp only [setMonitor, h.1, if_true, h.2]
    · exact h

theorem removeBreak_same {t : Nat} (w : World) {s : State} (h : Same t s) (b : Break) : Same t (removeBreak w s b).1 := by
  unfold removeBreak
  split
  · exact h
  · split
    · refine ⟨h.1, ?_⟩
      simp only [setMonitor, h.1, if_true, h.2]
    · exact h

theorem breakpoint_same {t : Nat} (w : World) {s : State} (h : Same t s) (i : Bool) (c : List Nat) :
    Same t (breakpoint w s i c).1 := by
  unfold breakpoint
  simp only
  repeat' split
  all_goals first | exact h | exact insertBreak_same w h _ | exact removeBreak_same w h _

/-- Commands other than `Z` and `z` leave the breakpoints as they are. -/
theorem others_keep (w : World) (s : State) (c : List Nat) (h1 : c.head? ≠ some 90) (h2 : c.head? ≠ some 122) :
    (command w s c).1.monitors = s.monitors ∧ (command w s c).1.table = s.table ∧ (command w s c).1.tcb = s.tcb := by
  unfold command
  split
  · exact ⟨rfl, rfl, rfl⟩
  · unfold writeRegister
    simp only
    repeat' split
    all_goals exact ⟨rfl, rfl, rfl⟩
  · exact ⟨rfl, rfl, rfl⟩
  · unfold writeGeneral
    simp only
    repeat' split
    all_goals exact ⟨rfl, rfl, rfl⟩
  · simp at h1
  · simp at h2
  · exact ⟨rfl, rfl, rfl⟩

theorem command_same {t : Nat} (w : World) {s : State} (h : Same t s) (c : List Nat) : Same t (command w s c).1 := by
  by_cases h1 : c.head? = some 90
  · obtain ⟨r, rfl⟩ : ∃ r, c = 90 :: r := by cases c with
      | nil => simp at h1
      | cons a r => simp at h1; exact ⟨r, by rw [h1]⟩
    exact breakpoint_same w h true r
  · by_cases h2 : c.head? = some 122
    · obtain ⟨r, rfl⟩ : ∃ r, c = 122 :: r := by cases c with
        | nil => simp at h2
        | cons a r => simp at h2; exact ⟨r, by rw [h2]⟩
      exact breakpoint_same w h false r
    · obtain ⟨k1, k2, k3⟩ := others_keep w s c h1 h2
      exact ⟨by rw [k3, h.1], by rw [k2, k1, h.2]⟩

theorem run_same {t : Nat} {s : State} (h : Same t s) {steps : List Step} (hs : OneThread t steps) : Same t (run s steps) := by
  induction steps generalizing s with
  | nil => exact h
  | cons x xs ih =>
    refine ih ?_ (fun u rs hm => hs u rs (by simp [hm]))
    cases x with
    | command w c => exact command_same w h c
    | stopped u rs =>
      have := hs u rs (by simp)
      exact ⟨this, h.2⟩

/-- **C76.** With one thread, after every history: a breakpoint is set exactly if a monitor is free and the kernel accepts
it; then the thread has one more of these, and nothing else has changed. Otherwise the answer is an error. -/
theorem insert_right_partial (n t : Nat) (regs : Nat → List Nat) (steps : List Step) (hs : OneThread t steps) (w : World)
    {ts as ss : List Nat} (ht : Digits ts) (ha : Digits as) (hss : Digits ss)
    (h1 : 1 ≤ number 16 ts) (h4 : number 16 ts ≤ 4) (hal : number 16 as < 2 ^ 31) (hsl : number 16 ss < 2 ^ 31) :
    let s := run (initial n t regs) steps
    let r := command w s (breakCommand 90 ts as ss)
    if w.ok = true ∧ none ∈ s.monitors t then
      r.2 = .reply okMessage ∧ r.1.regs = s.regs ∧ (∀ u, u ≠ t → r.1.monitors u = s.monitors u) ∧
      (r.1.monitors t).length = (s.monitors t).length ∧
      ∀ b, (r.1.monitors t).count (some b) =
        (s.monitors t).count (some b) + if b = wanted (number 16 ts) (number 16 as) (number 16 ss) then 1 else 0
    else r.2 = .reply errorMessage ∧ r.1 = s := by
  intro s r
  have hsame : Same t s := run_same ⟨rfl, rfl⟩ hs
  have hr : r = breakpoint w s true (text ts ++ 44 :: text as ++ 44 :: text ss) := rfl
  rw [hr, break_exact w s true ht ha hss]
  have e1 : min (number 16 ts) (2 ^ 31 - 1) = number 16 ts := by omega
  have e2 : min (number 16 as) (2 ^ 31 - 1) = number 16 as := by omega
  have e3 : min (number 16 ss) (2 ^ 31 - 1) = number 16 ss := by omega
  obtain ⟨d, k, hf, hw⟩ := format_wanted h1 h4 (number 16 as) (number 16 ss)
  rw [e1, e2, e3, if_neg (show ¬ number 16 ts = 0 by omega), hf]
  simp only [hw, if_true]
  generalize wanted (number 16 ts) (number 16 as) (number 16 ss) = b0
  unfold insertBreak
  rw [hsame.2]
  cases hi : findIdx (· = none) (s.monitors t) with
  | none =>
    have := findIdx_none.1 hi
    rw [if_neg (fun hc => by have := this none hc.2; simp at this)]
    exact ⟨rfl, rfl⟩
  | some i =>
    obtain ⟨x, hx, hp⟩ := findIdx_some hi
    have hx' : x = none := by simpa using hp
    subst hx'
    by_cases hok : w.ok = true
    · rw [if_pos ⟨hok, List.mem_of_getElem? hx⟩]
      simp only [hok, if_true]
      refine ⟨trivial, rfl, ?_, ?_, ?_⟩
      · intro u hu
        simp [setMonitor, hsame.1, hu]
      · simp [setMonitor, hsame.1]
      · intro b
        simp only [setMonitor, hsame.1, if_true]
        have := count_set hx (some b0) (some b)
        simp only [reduceCtorEq, if_false, Nat.add_zero, Option.some.injEq] at this
        rw [this]
        by_cases hb : b = b0
        · simp [hb]
        · rw [if_neg hb, if_neg (fun h => hb h.symm)]
    · rw [if_neg (fun h => hok h.1)]
      simp [hok]

/-- **C76.** With one thread, after every history: a breakpoint is taken away exactly if it is set and the kernel agrees;
then the thread has one fewer of these, and nothing else has changed. Otherwise the answer is an error. -/
theorem remove_right_partial (n t : Nat) (regs : Nat → List Nat) (steps : List Step) (hs : OneThread t steps) (w : World)
    {ts as ss : List Nat} (ht : Digits ts) (ha : Digits as) (hss : Digits ss)
    (h1 : 1 ≤ number 16 ts) (h4 : number 16 ts ≤ 4) (hal : number 16 as < 2 ^ 31) (hsl : number 16 ss < 2 ^ 31) :
    let s := run (initial n t regs) steps
    let r := command w s (breakCommand 122 ts as ss)
    if w.ok = true ∧ some (wanted (number 16 ts) (number 16 as) (number 16 ss)) ∈ s.monitors t then
      r.2 = .reply okMessage ∧ r.1.regs = s.regs ∧ (∀ u, u ≠ t → r.1.monitors u = s.monitors u) ∧
      (r.1.monitors t).length = (s.monitors t).length ∧
      ∀ b, (r.1.monitors t).count (some b) +
          (if b = wanted (number 16 ts) (number 16 as) (number 16 ss) then 1 else 0) = (s.monitors t).count (some b)
    else r.2 = .reply errorMessage ∧ r.1 = s := by
  intro s r
  have hsame : Same t s := run_same ⟨rfl, rfl⟩ hs
  have hr : r = breakpoint w s false (text ts ++ 44 :: text as ++ 44 :: text ss) := rfl
  rw [hr, break_exact w s false ht ha hss]
  have e1 : min (number 16 ts) (2 ^ 31 - 1) = number 16 ts := by omega
  have e2 : min (number 16 as) (2 ^ 31 - 1) = number 16 as := by omega
  have e3 : min (number 16 ss) (2 ^ 31 - 1) = number 16 ss := by omega
  obtain ⟨d, k, hf, hw⟩ := format_wanted h1 h4 (number 16 as) (number 16 ss)
  rw [e1, e2, e3, if_neg (show ¬ number 16 ts = 0 by omega), hf]
  simp only [hw, Bool.false_eq_true, if_false]
  generalize wanted (number 16 ts) (number 16 as) (number 16 ss) = b0
  unfold removeBreak
  rw [hsame.2]
  cases hi : findIdx (· = some b0) (s.monitors t) with
  | none =>
    have := findIdx_none.1 hi
    rw [if_neg (fun hc => by have := this _ hc.2; simp at this)]
    exact ⟨rfl, rfl⟩
  | some i =>
    obtain ⟨x, hx, hp⟩ := findIdx_some hi
    have hx' : x = some b0 := by simpa using hp
    subst hx'
    by_cases hok : w.ok = true
    · rw [if_pos ⟨hok, List.mem_of_getElem? hx⟩]
      simp only [hok, if_true]
      refine ⟨trivial, rfl, ?_, ?_, ?_⟩
      · intro u hu
        simp [setMonitor, hsame.1, hu]
      · simp [setMonitor, hsame.1]
      · intro b
        simp only [setMonitor, hsame.1, if_true]
        have := count_set hx none (some b)
        simp only [reduceCtorEq, if_false, Nat.add_zero, Option.some.injEq] at this
        rw [← this]
        by_cases hb : b = b0
        · simp [hb]
        · rw [if_neg hb, if_neg (fun h => hb h.symm)]
    · rw [if_neg (fun h => hok h.1)]
      simp [hok]

/-- **C76.** Software breakpoints are left to the debugger, unknown types are refused. -/
theorem other_types (w : World) (s : State) (k : Nat) (hk : k = 90 ∨ k = 122) {ts as ss : List Nat} (ht : Digits ts)
    (ha : Digits as) (hss : Digits ss) (h : number 16 ts = 0 ∨ 5 ≤ number 16 ts) :
    command w s (breakCommand k ts as ss) = (s, .reply (if number 16 ts = 0 then [] else errorMessage)) := by
  have key : ∀ i, breakpoint w s i (text ts ++ 44 :: text as ++ 44 :: text ss) =
      (s, .reply (if number 16 ts = 0 then [] else errorMessage)) := by
    intro i
    rw [break_exact w s i ht ha hss]
    rcases h with h | h
    · rw [h]; simp
    · rw [if_neg (by omega)]
      have : format (min (number 16 ts) (2 ^ 31 - 1)) = none := by
        generalize hg : min (number 16 ts) (2 ^ 31 - 1) = g
        have : 5 ≤ g := by omega
        unfold format
        split <;> first | omega | rfl
      rw [this, if_neg (show ¬ number 16 ts = 0 by omega)]
  rcases hk with rfl | rfl
  · exact key true
  · exact key false

/-- **Disagreement with C76.** Breakpoints in the upper half of the address space are set at the end of the lower one. -/
theorem high_breakpoint (w : World) (s : State) {ts as ss ls : List Nat} (ht : Digits ts) (ha : Digits as)
    (hss : Digits ss) (hl : Digits ls) (h : 2 ^ 31 ≤ number 16 as) (he : number 16 ls = 2 ^ 31 - 1) :
    command w s (breakCommand 90 ts as ss) = command w s (breakCommand 90 ts ls ss) := by
  show breakpoint w s true (text ts ++ 44 :: text as ++ 44 :: text ss) =
    breakpoint w s true (text ts ++ 44 :: text ls ++ 44 :: text ss)
  rw [break_exact w s true ht ha hss, break_exact w s true ht hl hss, he]
  have : min (number 16 as) (2 ^ 31 - 1) = 2 ^ 31 - 1 := by omega
  rw [this, Nat.min_self]

/-- **Disagreement with C76.** The table is one for all threads: a breakpoint that was set while one thread was stopped and
is taken away while another one is stays set, and is forgotten. -/
theorem stale_breakpoint (w : World) (hw : w.ok = true) (regs : Nat → List Nat) (rs : List Nat) :
    let s := run (initial 4 1 regs) [.command w (breakCommand 90 [1] [1, 0, 0, 0] [1]), .stopped 2 rs,
      .command w (breakCommand 122 [1] [1, 0, 0, 0] [1])]
    (command w (run (initial 4 1 regs) [.command w (breakCommand 90 [1] [1, 0, 0, 0] [1]), .stopped 2 rs])
      (breakCommand 122 [1] [1, 0, 0, 0] [1])).2 = .reply okMessage ∧
    s.monitors 1 = [some ⟨4096, false, 0, 0⟩, none, none, none] ∧ s.table = [none, none, none, none] := by
  have d1 : Digits [1] := ⟨by simp, by simp⟩
  have d2 : Digits [1, 0, 0, 0] := ⟨by simp, by simp⟩
  have c1 : ∀ s i, breakpoint w s i (text [1] ++ 44 :: text [1, 0, 0, 0] ++ 44 :: text [1]) =
      ((if i then insertBreak w s ⟨4096, false, 0, 0⟩ else removeBreak w s ⟨4096, false, 0, 0⟩).1,
        .reply (if (if i then insertBreak w s ⟨4096, false, 0, 0⟩ else removeBreak w s ⟨4096, false, 0, 0⟩).2
          then okMessage else errorMessage)) := fun s i => break_exact w s i d1 d2 d1
  have k1 : ∀ s, command w s (breakCommand 90 [1] [1, 0, 0, 0] [1]) =
      breakpoint w s true (text [1] ++ 44 :: text [1, 0, 0, 0] ++ 44 :: text [1]) := fun _ => rfl
  have k2 : ∀ s, command w s (breakCommand 122 [1] [1, 0, 0, 0] [1]) =
      breakpoint w s false (text [1] ++ 44 :: text [1, 0, 0, 0] ++ 44 :: text [1]) := fun _ => rfl
  simp only [run, List.foldl_cons, List.foldl_nil, step, k1, k2, c1, if_true, Bool.false_eq_true, if_false]
  simp [insertBreak, removeBreak, initial, findIdx, hw, setMonitor, List.replicate]

/-! ## Examples -/

/-- Registers with different values. -/
def demoRegs : List Nat := [4096, 8192, 2, 30, 40, 50, 60, 70, 80, 90, 100, 305419896]

/-- `p8` -/
example : (command ⟨[], [], true⟩ (initial 4 1 fun _ => demoRegs) (readCommand [8])).2 =
    .reply (hexBytes [0, 16, 0, 0]) := by
  rw [read_right _ _ ⟨by simp, by simp⟩ (by decide)]
  rfl

/-- `P1=78563412`, with a character on the stack. -/
example : ∃ s', command ⟨[1], [], true⟩ (initial 4 1 fun _ => demoRegs) (writeCommand [1] 305419896) = (s', .reply okMessage) ∧
    s'.value 1 "ecx" = 305419896 := by
  obtain ⟨s', h1, h2, _⟩ := write_right_partial ⟨[1], [], true⟩ (initial 4 1 fun _ => demoRegs) (rs := [1]) (v := 305419896)
    ⟨by simp, by simp⟩ (by decide) (by decide) rfl (by simp [GdbMem.digit])
  exact ⟨s', h1, h2⟩

/-- `G` with zeros for the first ten registers. -/
example : (command ⟨[], [], true⟩ (initial 4 1 fun _ => demoRegs) (71 :: List.replicate 80 48)).2 = .reply okMessage := by
  rw [(general_write_ignored _ _ (by simp) (by intro x hx; rw [List.eq_of_mem_replicate hx]; decide)).2]
  rw [List.length_replicate, if_neg (by decide)]

/-- The fifth breakpoint: a history that satisfies the hypotheses of `insert_right_partial`, with all monitors in use. -/
example : OneThread 1 (List.replicate 4 (Step.command ⟨[], [], true⟩ (breakCommand 90 [2] [1, 0, 0, 0] [4]))) ∧
    (run (initial 4 1 fun _ => demoRegs)
      (List.replicate 4 (Step.command ⟨[], [], true⟩ (breakCommand 90 [2] [1, 0, 0, 0] [4])))).monitors 1 =
      List.replicate 4 (some (wanted 2 4096 4)) := by
  constructor
  · intro u rs h
    cases List.eq_of_mem_replicate h
  have k : ∀ s, step s (.command ⟨[], [], true⟩ (breakCommand 90 [2] [1, 0, 0, 0] [4])) =
      (insertBreak ⟨[], [], true⟩ s (wanted 2 4096 4)).1 := by
    intro s
    show (breakpoint _ s true (text [2] ++ 44 :: text [1, 0, 0, 0] ++ 44 :: text [4])).1 = _
    rw [break_exact _ s true ⟨by simp, by simp⟩ ⟨by simp, by simp⟩ ⟨by simp, by simp⟩]
    rfl
  simp only [run, List.replicate, List.foldl_cons, List.foldl_nil, k]
  simp [insertBreak, initial, findIdx, setMonitor, List.replicate]

end Verif.GdbRegs
