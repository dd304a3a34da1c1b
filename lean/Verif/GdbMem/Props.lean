import Verif.GdbMem.Spec
import Mathlib.Tactic.IntervalCases

/-!
# Properties: memory in the debugger (C75)
-/

namespace Verif.GdbMem

/-! ## Numbers -/

theorem lower_lt {d : Nat} (h : d < 16) : lowerDigits.getD d 0 = if d < 10 then 48 + d else 87 + d := by
  interval_cases d <;> rfl

theorem text_cons (d : Nat) (ds : List Nat) : text (d :: ds) = lowerDigits.getD d 0 :: text ds := rfl

theorem text_mem {ds : List Nat} (h : ∀ d ∈ ds, d < 16) {c : Nat} (hc : c ∈ text ds) :
    (48 ≤ c ∧ c ≤ 57) ∨ (97 ≤ c ∧ c ≤ 102) := by
  obtain ⟨d, hd, rfl⟩ := List.mem_map.1 hc
  have := h d hd
  rw [lower_lt this]
  split <;> omega

theorem digit16 {d : Nat} (h : d < 16) : digit 16 (lowerDigits.getD d 0) = some d := by
  interval_cases d <;> rfl

theorem digit10 {d : Nat} (h : d < 16) : digit 10 (lowerDigits.getD d 0) = if d < 10 then some d else none := by
  interval_cases d <;> rfl

theorem digits16 {ds : List Nat} (h : ∀ d ∈ ds, d < 16) (acc : Nat) :
    digits 16 acc (text ds) = ds.foldl (fun n d => 16 * n + d) acc := by
  induction ds generalizing acc with
  | nil => rfl
  | cons d ds ih =>
    rw [text_cons, digits, digit16 (h d (by simp))]
    exact ih (fun x hx => h x (by simp [hx])) _

theorem digits10 {ds : List Nat} (h : ∀ d ∈ ds, d < 16) (acc : Nat) :
    digits 10 acc (text ds) = (ds.takeWhile (· < 10)).foldl (fun n d => 10 * n + d) acc := by
  induction ds generalizing acc with
  | nil => rfl
  | cons d ds ih =>
    rw [text_cons, digits, digit10 (h d (by simp)), List.takeWhile_cons]
    by_cases hd : d < 10
    · simp only [hd, if_true, decide_true, List.foldl_cons]
      exact ih (fun x hx => h x (by simp [hx])) _
    · simp [hd]

theorem afterPrefix_none (base : Nat) {cs : List Nat} (h1 : 120 ∉ cs) (h2 : 88 ∉ cs) : afterPrefix base cs = cs := by
  unfold afterPrefix
  split
  · simp at h1
  · simp at h2
  · rfl

theorem strtol_text {base : Nat} {ds : List Nat} (h : Digits ds) :
    strtol base (text ds) = min (digits base 0 (text ds)) (2 ^ 31 - 1) := by
  obtain ⟨d, r, rfl⟩ := List.exists_cons_of_ne_nil h.some_digit
  have hm := fun c => text_mem (c := c) h.small
  have h1 : (120 : Nat) ∉ text (d :: r) := fun hc => by have := hm _ hc; omega
  have h2 : (88 : Nat) ∉ text (d :: r) := fun hc => by have := hm _ hc; omega
  have h3 := hm (lowerDigits.getD d 0) (by simp [text_cons])
  have e := afterPrefix_none base h1 h2
  rw [text_cons] at e ⊢
  rw [strtol, if_neg (by omega), if_neg (by omega), if_neg (by omega), e]

theorem strtol16 {ds : List Nat} (h : Digits ds) : strtol 16 (text ds) = min (number 16 ds) (2 ^ 31 - 1) := by
  rw [strtol_text h, digits16 h.small]; rfl

theorem strtol10 {ds : List Nat} (h : Digits ds) : strtol 10 (text ds) = min (decimal ds) (2 ^ 31 - 1) := by
  rw [strtol_text h, digits10 h.small]; rfl

theorem fold_mono {b : Nat} (hb : 0 < b) (ds : List Nat) (acc : Nat) : acc ≤ ds.foldl (fun n d => b * n + d) acc := by
  induction ds generalizing acc with
  | nil => simp
  | cons d ds ih =>
    refine le_trans ?_ (ih _)
    exact le_trans (Nat.le_mul_of_pos_left acc hb) (Nat.le_add_right _ _)

/-- Reading digits in base 10, from different beginnings: never more, and less if there was a difference, or if the
number has two digits. -/
theorem decimal_fold (ds : List Nat) (x y : Nat) (h : x ≤ y) :
    (ds.takeWhile (· < 10)).foldl (fun n d => 10 * n + d) x ≤ ds.foldl (fun n d => 16 * n + d) y ∧
    ((ds.takeWhile (· < 10)).foldl (fun n d => 10 * n + d) x = ds.foldl (fun n d => 16 * n + d) y →
      (x = y ∧ (ds = [] ∨ ds.foldl (fun n d => 16 * n + d) y < 10))) := by
  induction ds generalizing x y with
  | nil => simpa using h
  | cons d ds ih =>
    rw [List.takeWhile_cons]
    by_cases hd : d < 10
    · simp only [hd, decide_true, if_true, List.foldl_cons]
      obtain ⟨h1, h2⟩ := ih (10 * x + d) (16 * y + d) (by omega)
      refine ⟨h1, fun he => ?_⟩
      obtain ⟨h3, h4⟩ := h2 he
      have : x = 0 ∧ y = 0 := by omega
      refine ⟨by omega, Or.inr ?_⟩
      rcases h4 with rfl | h4
      · simp only [List.foldl_nil]; omega
      · exact h4
    · have hm := fold_mono (b := 16) (by decide) ds (16 * y + d)
      simp only [hd, decide_false, List.foldl_nil, List.foldl_cons]
      constructor
      · simp; omega
      · simp; omega

theorem decimal_le (ns : List Nat) : decimal ns ≤ number 16 ns := (decimal_fold ns 0 0 le_rfl).1

theorem decimal_lt {ns : List Nat} (h : 10 ≤ number 16 ns) : decimal ns < number 16 ns := by
  obtain ⟨h1, h2⟩ := decimal_fold ns 0 0 le_rfl
  rcases Nat.lt_or_ge (decimal ns) (number 16 ns) with h3 | h3
  · exact h3
  · obtain ⟨_, h4⟩ := h2 (le_antisymm h1 h3)
    rcases h4 with rfl | h4
    · simp [number] at h
    · have : number 16 ns < 10 := h4
      omega

theorem decimal_small {ns : List Nat} (h : number 16 ns < 10) : decimal ns = number 16 ns := by
  have key : ∀ x, ns.foldl (fun n d => 16 * n + d) x < 10 → x = 0 ∨ ns = [] →
      (ns.takeWhile (· < 10)).foldl (fun n d => 10 * n + d) x = ns.foldl (fun n d => 16 * n + d) x := by
    clear h
    induction ns with
    | nil => simp
    | cons d ds ih =>
      intro x h1 h2
      have hx : x = 0 := by simpa using h2
      subst hx
      simp only [List.foldl_cons] at h1 ⊢
      have hm := fold_mono (b := 16) (by decide) ds (16 * 0 + d)
      have hd : d < 10 := by omega
      rw [List.takeWhile_cons]
      simp only [hd, decide_true, if_true, List.foldl_cons]
      simp only [Nat.mul_zero, Nat.zero_add] at h1 ⊢
      refine ih d h1 ?_
      by_contra hc
      push Not at hc
      obtain ⟨e, r, rfl⟩ := List.exists_cons_of_ne_nil hc.2
      have := fold_mono (b := 16) (by decide) r (16 * d + e)
      simp only [List.foldl_cons] at h1
      omega
  exact key 0 h (Or.inl rfl)

/-! ## Tokens -/

theorem takeWhile_stop {p : Nat → Bool} {tok t : List Nat} (h1 : ∀ c ∈ tok, p c = true)
    (h2 : ∀ c, t.head? = some c → p c = false) : (tok ++ t).takeWhile p = tok := by
  induction tok with
  | nil =>
    cases t with
    | nil => rfl
    | cons c t => simp [List.takeWhile_cons, h2 c rfl]
  | cons c tok ih =>
    rw [List.cons_append, List.takeWhile_cons, h1 c (by simp)]
    simp only [if_true]
    rw [ih (fun x hx => h1 x (by simp [hx]))]

theorem strtok_of {delims pre tok t : List Nat} (hp : ∀ c ∈ pre, c ∈ delims) (hn : tok ≠ [])
    (ht : ∀ c ∈ tok, c ∉ delims ∧ c ≠ 0) (h : ∀ c, t.head? = some c → c ∈ delims ∨ c = 0) :
    strtok delims (pre ++ tok ++ t) = some (tok, t) := by
  have e1 : (pre ++ tok ++ t).dropWhile (delims.contains ·) = tok ++ t := by
    induction pre with
    | nil =>
      obtain ⟨c, r, rfl⟩ := List.exists_cons_of_ne_nil hn
      simp [List.dropWhile_cons, (ht c (by simp)).1]
    | cons c pre ih =>
      have := hp c (by simp)
      simp only [List.cons_append, List.dropWhile_cons]
      rw [if_pos (by simpa using this)]
      exact ih (fun x hx => hp x (by simp [hx]))
  have e2 : (tok ++ t).takeWhile (fun c => !delims.contains c && c != 0) = tok := by
    apply takeWhile_stop
    · intro c hc
      have := ht c hc
      simp [this.1, this.2]
    · intro c hc
      rcases h c hc with h | h <;> simp [h]
  unfold strtok
  simp only [e1, e2]
  rw [if_neg hn]
  simp

theorem text_ne_nil {ds : List Nat} (h : Digits ds) : text ds ≠ [] := by
  simpa [text] using h.some_digit

theorem text_plain {ds : List Nat} (h : Digits ds) {delims : List Nat}
    (hd : ∀ c ∈ delims, ¬ ((48 ≤ c ∧ c ≤ 57) ∨ (97 ≤ c ∧ c ≤ 102))) :
    ∀ c ∈ text ds, c ∉ delims ∧ c ≠ 0 := by
  intro c hc
  have := text_mem h.small hc
  exact ⟨fun hm => hd c hm this, by omega⟩

/-- What follows the string in the array. -/
theorem fill_head (n c : Nat) (h : (List.replicate n 0).head? = some c) : c = 0 := by
  cases n with
  | zero => simp at h
  | succ n => rw [List.replicate_succ, List.head?_cons] at h; exact (Option.some.inj h).symm

theorem array_eq (c : List Nat) : ∃ n, array c = c ++ List.replicate n 0 := ⟨_, rfl⟩

theorem next_delim {c : Nat} (h : c ≠ 0) (t : List Nat) : next (c :: t) = t := if_neg h

/-! ## Reading -/

/-- What a command to read does, whatever its numbers. -/
theorem read_exact (m : Memory) {as ns : List Nat} (ha : Digits as) (hn : Digits ns) :
    command m (readCommand as ns) = (m,
      if min (decimal ns) (2 ^ 31 - 1) ≥ maxRange then .reply errorMessage
      else if min (number 16 as) (2 ^ 31 - 1) = 0 then .reply errorMessage
      else match delegateRead m (min (number 16 as) (2 ^ 31 - 1)) (min (decimal ns) (2 ^ 31 - 1)) with
        | .error => .reply errorMessage
        | .hang => .hang
        | .done data => .reply (data.flatMap hex2)) := by
  obtain ⟨n, he⟩ := array_eq (readCommand as ns)
  have e1 : strtok [109, 44] (array (readCommand as ns)) = some (text as, 44 :: (text ns ++ List.replicate n 0)) := by
    rw [he]
    have : readCommand as ns ++ List.replicate n 0 = [109] ++ text as ++ 44 :: (text ns ++ List.replicate n 0) := by
      simp [readCommand]
    rw [this]
    exact strtok_of (by simp) (text_ne_nil ha) (text_plain ha (by simp)) (by simp)
  have e2 : strtok [44] (text ns ++ List.replicate n 0) = some (text ns, List.replicate n 0) := by
    have := strtok_of (delims := [44]) (pre := []) (tok := text ns) (t := List.replicate n 0) (by simp) (text_ne_nil hn)
      (text_plain hn (by simp)) (fun c h => Or.inr (fill_head _ _ h))
    simpa using this
  show (m, readMemory m (readCommand as ns)) = _
  unfold readMemory
  rw [e1]
  simp only
  rw [next_delim (by decide), e2]
  simp only
  rw [strtol16 ha, strtol10 hn]
  all_goals rfl

theorem hex2_eq {b : Nat} (h : b < 256) : hex2 b = text [b / 16, b % 16] := by
  unfold hex2 text
  simp only [List.map_cons, List.map_nil]
  rw [lower_lt (by omega), lower_lt (by omega), Nat.mod_eq_of_lt h]

theorem hexBytes_eq {l : List Nat} (h : ∀ b ∈ l, b < 256) : l.flatMap hex2 = hexBytes l := by
  induction l with
  | nil => rfl
  | cons b l ih =>
    simp only [List.flatMap_cons, hexBytes]
    rw [hex2_eq (h b (by simp)), ih (fun x hx => h x (by simp [hx]))]
    rfl

theorem hexBytes_length (l : List Nat) : (hexBytes l).length = 2 * l.length := by
  induction l with
  | nil => rfl
  | cons b l ih =>
    have : hexBytes (b :: l) = text [b / 16, b % 16] ++ hexBytes l := rfl
    rw [this, List.length_append, ih]
    simp [text]
    omega

theorem hex2_length (l : List Nat) : (l.flatMap hex2).length = 2 * l.length := by
  induction l with
  | nil => rfl
  | cons b l ih => simp [List.flatMap_cons, ih, hex2]; omega

theorem word_iff (p : Nat → Bool) (a : Nat) : word p a = true ↔ Range p a 4 := by
  simp [word, Range]

theorem all_iff (p : Nat → Bool) (a n : Nat) :
    (List.range n).all (fun i => p (a + i)) = true ↔ Range p a n := by
  simp [Range]

/-- **C75.** A command to read fewer than ten bytes, below the middle of the address space and with the word at the
address readable, is answered with the bytes, and changes nothing. -/
theorem read_right_partial (m : Memory) {as ns : List Nat} (ha : Digits as) (hn : Digits ns)
    (hb : ∀ x, m.byte x < 256) (h0 : 0 < number 16 as) (h31 : number 16 as < 2 ^ 31)
    (n0 : 0 < number 16 ns) (n10 : number 16 ns < 10)
    (hr : Range m.readable (number 16 as) (max 4 (number 16 ns))) :
    command m (readCommand as ns) = (m, .reply (hexBytes (m.bytes (number 16 as) (number 16 ns)))) := by
  rw [read_exact m ha hn, decimal_small n10]
  have e1 : min (number 16 as) (2 ^ 31 - 1) = number 16 as := by omega
  have e2 : min (number 16 ns) (2 ^ 31 - 1) = number 16 ns := by omega
  rw [e1, e2, if_neg (by unfold maxRange; omega), if_neg (by omega)]
  have h1 : checkRead m (number 16 as) = true := (word_iff _ _).2 (fun i hi => hr i (by omega))
  have h2 : (List.range (number 16 ns)).all (fun i => m.readable (number 16 as + i)) = true :=
    (all_iff _ _ _).2 (fun i hi => hr i (by omega))
  unfold delegateRead
  rw [if_neg (by unfold maxRange; omega), if_neg (by simp [h1]), if_pos h2]
  simp only
  rw [hexBytes_eq]
  · rfl
  · intro b hb'
    obtain ⟨i, _, rfl⟩ := List.mem_map.1 hb'
    exact hb _

/-- **Disagreement with C75.** Lengths are read as decimal numbers: the answer to a command to read ten bytes or more is
never the bytes. -/
theorem long_read_wrong (m : Memory) {as ns : List Nat} (ha : Digits as) (hn : Digits ns) (n10 : 10 ≤ number 16 ns) :
    (command m (readCommand as ns)).2 ≠ .reply (hexBytes (m.bytes (number 16 as) (number 16 ns))) := by
  rw [read_exact m ha hn]
  have hlen : (hexBytes (m.bytes (number 16 as) (number 16 ns))).length = 2 * number 16 ns := by
    rw [hexBytes_length]; simp [Memory.bytes]
  have herr : Out.reply errorMessage ≠ .reply (hexBytes (m.bytes (number 16 as) (number 16 ns))) := by
    intro h
    have := congrArg (fun o => match o with | .reply l => List.length l | _ => 0) h
    simp only [hlen] at this
    simp [errorMessage] at this
    omega
  have hlt := decimal_lt n10
  simp only
  split
  · exact herr
  · split
    · exact herr
    · unfold delegateRead
      split_ifs with h1 h2 h3
      · exact herr
      · exact herr
      · intro h
        have := congrArg (fun o => match o with | .reply l => List.length l | _ => 0) h
        simp only [hlen, hex2_length] at this
        simp at this
        omega
      · simp

/-- **Disagreement with C75.** Addresses from the middle of the address space on are all read as the last one before it. -/
theorem high_address_wrong (m : Memory) {as ns ls : List Nat} (ha : Digits as) (hn : Digits ns) (hl : Digits ls)
    (h : 2 ^ 31 ≤ number 16 as) (he : number 16 ls = 2 ^ 31 - 1) :
    command m (readCommand as ns) = command m (readCommand ls ns) := by
  rw [read_exact m ha hn, read_exact m hl hn, he]
  have : min (number 16 as) (2 ^ 31 - 1) = 2 ^ 31 - 1 := by omega
  rw [this, Nat.min_self]

/-- **Disagreement with C75.** The last three bytes before unreadable memory are not read. -/
theorem end_refused (m : Memory) {as ns : List Nat} (ha : Digits as) (hn : Digits ns)
    (h0 : 0 < number 16 as) (h31 : number 16 as < 2 ^ 31) (n0 : 0 < number 16 ns) (n10 : number 16 ns < 10)
    (i : Nat) (hi : i < 4) (hr : m.readable (number 16 as + i) = false) :
    command m (readCommand as ns) = (m, .reply errorMessage) := by
  rw [read_exact m ha hn, decimal_small n10]
  have e1 : min (number 16 as) (2 ^ 31 - 1) = number 16 as := by omega
  have e2 : min (number 16 ns) (2 ^ 31 - 1) = number 16 ns := by omega
  rw [e1, e2, if_neg (by unfold maxRange; omega), if_neg (by omega)]
  have h1 : checkRead m (number 16 as) = false := by
    rw [← Bool.not_eq_true]
    intro h
    have := (word_iff _ _).1 h i hi
    rw [hr] at this
    cases this
  unfold delegateRead
  rw [if_neg (by unfold maxRange; omega), if_pos (by simp [h1])]

/-- **Disagreement with C75.** A range that begins in readable memory and goes on into unreadable memory is not refused:
the thread in the component faults, nobody answers the fault, and there is no answer to the debugger. -/
theorem across_hangs (m : Memory) {as ns : List Nat} (ha : Digits as) (hn : Digits ns)
    (h0 : 0 < number 16 as) (h31 : number 16 as < 2 ^ 31) (n10 : number 16 ns < 10)
    (hw : Range m.readable (number 16 as) 4)
    (i : Nat) (hi : i < number 16 ns) (hr : m.readable (number 16 as + i) = false) :
    command m (readCommand as ns) = (m, .hang) := by
  rw [read_exact m ha hn, decimal_small n10]
  have e1 : min (number 16 as) (2 ^ 31 - 1) = number 16 as := by omega
  have e2 : min (number 16 ns) (2 ^ 31 - 1) = number 16 ns := by omega
  rw [e1, e2, if_neg (by unfold maxRange; omega), if_neg (by omega)]
  have h1 : checkRead m (number 16 as) = true := (word_iff _ _).2 hw
  have h2 : ¬ (List.range (number 16 ns)).all (fun i => m.readable (number 16 as + i)) = true := by
    intro h
    have := (all_iff _ _ _).1 h i hi
    rw [hr] at this
    cases this
  unfold delegateRead
  rw [if_neg (by unfold maxRange; omega), if_neg (by simp [h1]), if_neg h2]

/-! ## Writing -/

theorem scan2_hex {b : Nat} (h : b < 256) (rest : List Nat) : scan2 (text [b / 16, b % 16] ++ rest) = some b := by
  have e : text [b / 16, b % 16] ++ rest = lowerDigits.getD (b / 16) 0 :: lowerDigits.getD (b % 16) 0 :: rest := rfl
  rw [e]
  unfold scan2
  simp only
  rw [digit16 (show b / 16 < 16 by omega)]
  simp only
  rw [digit16 (show b % 16 < 16 by omega)]
  simp only
  congr 1
  omega

theorem parseBytes_hex {l : List Nat} (h : ∀ b ∈ l, b < 256) (rest : List Nat) :
    parseBytes l.length (hexBytes l ++ rest) = some l := by
  induction l with
  | nil => rfl
  | cons b l ih =>
    have e : hexBytes (b :: l) ++ rest = text [b / 16, b % 16] ++ (hexBytes l ++ rest) := by simp [hexBytes]
    rw [e, List.length_cons, parseBytes, scan2_hex (h b (by simp))]
    have e2 : (text [b / 16, b % 16] ++ (hexBytes l ++ rest)).drop 2 = hexBytes l ++ rest := rfl
    simp only [e2]
    rw [ih (fun x hx => h x (by simp [hx]))]
    rfl

theorem hexBytes_mem {l : List Nat} (h : ∀ b ∈ l, b < 256) {c : Nat} (hc : c ∈ hexBytes l) :
    (48 ≤ c ∧ c ≤ 57) ∨ (97 ≤ c ∧ c ≤ 102) := by
  obtain ⟨b, hb, hc⟩ := List.mem_flatMap.1 hc
  have := h b hb
  exact text_mem (ds := [b / 16, b % 16]) (by simp; omega) hc

/-- The first two tokens of `M` and `X`. -/
theorem tokens {k : Nat} {as ns raw : List Nat} (ha : Digits as) (hn : Digits ns) (hk : k = 77 ∨ k = 88) (n : Nat) :
    strtok [k, 44] ((k :: text as ++ 44 :: text ns ++ 58 :: raw) ++ List.replicate n 0) =
      some (text as, 44 :: (text ns ++ 58 :: (raw ++ List.replicate n 0))) ∧
    strtok [44, 58] (text ns ++ 58 :: (raw ++ List.replicate n 0)) =
      some (text ns, 58 :: (raw ++ List.replicate n 0)) := by
  constructor
  · have : (k :: text as ++ 44 :: text ns ++ 58 :: raw) ++ List.replicate n 0 =
        [k] ++ text as ++ 44 :: (text ns ++ 58 :: (raw ++ List.replicate n 0)) := by simp
    rw [this]
    refine strtok_of (by simp) (text_ne_nil ha) (text_plain ha ?_) (by simp)
    rcases hk with rfl | rfl <;> simp
  · have := strtok_of (delims := [44, 58]) (pre := []) (tok := text ns) (t := 58 :: (raw ++ List.replicate n 0)) (by simp)
      (text_ne_nil hn) (text_plain hn (by simp)) (by simp)
    simpa using this

/-- What a command to write `data` does, if it has as many bytes as are read. -/
theorem write_exact (m : Memory) {as ns data : List Nat} (ha : Digits as) (hn : Digits ns) (hd : ∀ b ∈ data, b < 256)
    (hl : data.length = decimal ns) (h1 : decimal ns ≠ 0) (h2 : decimal ns < maxRange) (h0 : number 16 as ≠ 0) :
    command m (writeCommand as ns data) =
      answer m (delegateWrite m (min (number 16 as) (2 ^ 31 - 1)) (decimal ns) data) := by
  obtain ⟨n, he⟩ := array_eq (writeCommand as ns data)
  obtain ⟨t1, t2⟩ := tokens (raw := hexBytes data) ha hn (Or.inl rfl) n
  have hne : hexBytes data ≠ [] := by
    intro h
    have := hexBytes_length data
    rw [h] at this
    simp only [List.length_nil] at this
    omega
  have t3 : strtok [58] (hexBytes data ++ List.replicate n 0) = some (hexBytes data, List.replicate n 0) := by
    have := strtok_of (delims := [58]) (pre := []) (tok := hexBytes data) (t := List.replicate n 0) (by simp) hne
      (fun c hc => by have := hexBytes_mem hd hc; simp only [List.mem_singleton]; omega) (fun c h => Or.inr (fill_head _ _ h))
    simpa using this
  have e10 : min (decimal ns) (2 ^ 31 - 1) = decimal ns := by unfold maxRange at h2; omega
  show writeMemory m (writeCommand as ns data) = _
  unfold writeMemory
  rw [he]
  unfold writeCommand
  rw [t1]
  simp only
  rw [next_delim (by decide), t2]
  simp only
  rw [strtol16 ha, strtol10 hn, e10]
  have hp : parseBytes (decimal ns) (atToken (hexBytes data) (List.replicate n 0)) = some data := by
    rw [← hl]; exact parseBytes_hex hd _
  have hpay : payload (decimal ns) (58 :: (hexBytes data ++ List.replicate n 0)) = .ok data := by
    unfold payload
    rw [next_delim (by decide), t3]
    simp only [hp]
  rw [if_neg (by omega), if_neg (by omega), hpay]

theorem stored (m : Memory) (a : Nat) (data : List Nat) : Stored m (store m a data.length data) a data := by
  refine ⟨?_, ?_, rfl, rfl⟩
  · apply List.ext_getElem
    · simp [Memory.bytes]
    · intro i h1 h2
      simp only [Memory.bytes, store, List.getElem_map, List.getElem_range]
      rw [if_pos (by omega), Nat.add_sub_cancel_left]
      simp [h2]
  · intro x hx
    simp only [store]
    rw [if_neg (by omega)]

theorem delegateWrite_ok {m : Memory} {a n : Nat} {data : List Nat} (h0 : n ≠ 0) (h1 : n ≤ maxRange)
    (hr : Range m.readable a 4) (hw : Range m.writable a (max 4 n)) :
    delegateWrite m a n data = .done (store m a n data) := by
  have c1 : word m.readable a = true := (word_iff _ _).2 hr
  have c2 : word m.writable a = true := (word_iff _ _).2 (fun i hi => hw i (by omega))
  have c3 : (List.range n).all (fun i => m.writable (a + i)) = true := (all_iff _ _ _).2 (fun i hi => hw i (by omega))
  unfold delegateWrite checkWrite
  rw [if_neg (by omega), if_pos c1, if_pos c2]
  simp only [c3, if_true]

/-- **C75.** A command to write fewer than ten bytes, below the middle of the address space and with the word at the
address readable and writable, stores the bytes and nothing else, and says so. -/
theorem write_right_partial (m : Memory) {as ns data : List Nat} (ha : Digits as) (hn : Digits ns)
    (hd : ∀ b ∈ data, b < 256) (hl : data.length = number 16 ns)
    (h0 : 0 < number 16 as) (h31 : number 16 as < 2 ^ 31) (n0 : 0 < number 16 ns) (n10 : number 16 ns < 10)
    (hr : Range m.readable (number 16 as) 4) (hw : Range m.writable (number 16 as) (max 4 (number 16 ns))) :
    ∃ m', command m (writeCommand as ns data) = (m', .reply okMessage) ∧ Stored m m' (number 16 as) data := by
  have e := decimal_small n10
  rw [write_exact m ha hn hd (by omega) (by omega) (by unfold maxRange; omega) (by omega)]
  have e1 : min (number 16 as) (2 ^ 31 - 1) = number 16 as := by omega
  rw [e1, e, delegateWrite_ok (by omega) (by unfold maxRange; omega) hr hw, ← hl]
  exact ⟨_, rfl, stored m _ data⟩

/-- **C75.** What was written is read back. -/
theorem read_back_partial (m : Memory) {as ns data : List Nat} (ha : Digits as) (hn : Digits ns)
    (hb : ∀ x, m.byte x < 256) (hd : ∀ b ∈ data, b < 256) (hl : data.length = number 16 ns)
    (h0 : 0 < number 16 as) (h31 : number 16 as < 2 ^ 31) (n0 : 0 < number 16 ns) (n10 : number 16 ns < 10)
    (hr : Range m.readable (number 16 as) (max 4 (number 16 ns)))
    (hw : Range m.writable (number 16 as) (max 4 (number 16 ns))) :
    (command (command m (writeCommand as ns data)).1 (readCommand as ns)).2 = .reply (hexBytes data) := by
  obtain ⟨m', he, s1, s2, s3, s4⟩ := write_right_partial m ha hn hd hl h0 h31 n0 n10 (fun i hi => hr i (by omega)) hw
  have hb' : ∀ x, m'.byte x < 256 := by
    intro x
    by_cases hx : x < number 16 as ∨ number 16 as + data.length ≤ x
    · rw [s2 x hx]; exact hb x
    · apply hd
      rw [← s1]
      exact List.mem_map.2 ⟨x - number 16 as, by simp; omega, by congr 1; omega⟩
  rw [he]
  simp only
  rw [read_right_partial m' ha hn hb' h0 h31 n0 n10 (by rw [s3]; exact hr), ← hl, s1]

theorem answer_unchanged (m : Memory) (r : Res Memory) (h : (answer m r).2 ≠ .reply okMessage) : (answer m r).1 = m := by
  cases r with
  | done a => exact absurd rfl h
  | error => rfl
  | hang => rfl

/-- A command changes the memory only if it says `OK`. -/
theorem unchanged (m : Memory) (c : List Nat) (h : (command m c).2 ≠ .reply okMessage) : (command m c).1 = m := by
  unfold command at h ⊢
  split at h
  · rfl
  · revert h
    unfold writeMemory
    simp only
    repeat' split
    all_goals first | exact fun _ => rfl | exact answer_unchanged m _
  · revert h
    unfold writeBinary
    simp only
    repeat' split
    all_goals first | exact fun _ => rfl | exact answer_unchanged m _
  · rfl

/-- Reading never changes the memory. -/
theorem read_pure (m : Memory) (c : List Nat) : (command m (109 :: c)).1 = m := rfl

/-- **Disagreement with C75.** Writing to memory that is not mapped is not refused: there is never an answer. -/
theorem unmapped_hangs (m : Memory) {as ns data : List Nat} (ha : Digits as) (hn : Digits ns)
    (hd : ∀ b ∈ data, b < 256) (hl : data.length = number 16 ns)
    (h0 : 0 < number 16 as) (h31 : number 16 as < 2 ^ 31) (n0 : 0 < number 16 ns) (n10 : number 16 ns < 10)
    (i j : Nat) (hi : i < 4) (hj : j < 4) (hr : m.readable (number 16 as + i) = false)
    (hw : m.writable (number 16 as + j) = false) :
    command m (writeCommand as ns data) = (m, .hang) := by
  have e := decimal_small n10
  rw [write_exact m ha hn hd (by omega) (by omega) (by unfold maxRange; omega) (by omega)]
  have e1 : min (number 16 as) (2 ^ 31 - 1) = number 16 as := by omega
  have c1 : ¬ word m.readable (number 16 as) = true := fun h => by
    have := (word_iff _ _).1 h i hi
    rw [hr] at this; cases this
  have c2 : ¬ word m.writable (number 16 as) = true := fun h => by
    have := (word_iff _ _).1 h j hj
    rw [hw] at this; cases this
  rw [e1, e]
  unfold delegateWrite checkWrite
  rw [if_neg (by unfold maxRange; omega), if_neg c1, if_neg c2]
  rfl

/-- **C75.** Writing where the word at the address can be read but not written is refused, and changes nothing. -/
theorem readonly_refused (m : Memory) {as ns data : List Nat} (ha : Digits as) (hn : Digits ns)
    (hd : ∀ b ∈ data, b < 256) (hl : data.length = number 16 ns)
    (h0 : 0 < number 16 as) (h31 : number 16 as < 2 ^ 31) (n0 : 0 < number 16 ns) (n10 : number 16 ns < 10)
    (hr : Range m.readable (number 16 as) 4) (j : Nat) (hj : j < 4) (hw : m.writable (number 16 as + j) = false) :
    command m (writeCommand as ns data) = (m, .reply [69, 48, 49]) := by
  have e := decimal_small n10
  rw [write_exact m ha hn hd (by omega) (by omega) (by unfold maxRange; omega) (by omega)]
  have e1 : min (number 16 as) (2 ^ 31 - 1) = number 16 as := by omega
  have c2 : ¬ word m.writable (number 16 as) = true := fun h => by
    have := (word_iff _ _).1 h j hj
    rw [hw] at this; cases this
  rw [e1, e]
  unfold delegateWrite checkWrite
  rw [if_neg (by unfold maxRange; omega), if_pos ((word_iff _ _).2 hr), if_neg c2]
  rfl

/-- A command to write that was cut after the length. -/
theorem dataless {as ns : List Nat} (ha : Digits as) (hn : Digits ns) :
    ∃ n, strtok [77, 44] (array (77 :: text as ++ 44 :: text ns)) = some (text as, 44 :: (text ns ++ List.replicate n 0)) ∧
      strtok [44, 58] (text ns ++ List.replicate n 0) = some (text ns, List.replicate n 0) ∧
      strtok [58] (next (List.replicate n 0)) = none := by
  obtain ⟨n, he⟩ := array_eq (77 :: text as ++ 44 :: text ns)
  refine ⟨n, ?_, ?_, ?_⟩
  · rw [he, show (77 :: text as ++ 44 :: text ns) ++ List.replicate n 0 =
      [77] ++ text as ++ 44 :: (text ns ++ List.replicate n 0) by simp]
    exact strtok_of (by simp) (text_ne_nil ha) (text_plain ha (by simp)) (by simp)
  · have := strtok_of (delims := [44, 58]) (pre := []) (tok := text ns) (t := List.replicate n 0) (by simp) (text_ne_nil hn)
      (text_plain hn (by simp)) (fun c h => Or.inr (fill_head _ _ h))
    simpa using this
  · cases n with
    | zero => rfl
    | succ n => simp [List.replicate_succ, next, strtok]

/-- **Disagreement with C75.** A command to write without data uses a null pointer. -/
theorem dataless_null (m : Memory) {as ns : List Nat} (ha : Digits as) (hn : Digits ns)
    (h0 : 0 < number 16 as) (n0 : 0 < number 16 ns) (n10 : number 16 ns < 10) :
    command m (77 :: text as ++ 44 :: text ns) = (m, .null) := by
  obtain ⟨n, t1, t2, t3⟩ := dataless ha hn
  show writeMemory m (77 :: text as ++ 44 :: text ns) = _
  unfold writeMemory
  rw [t1]
  simp only
  rw [next_delim (by decide), t2]
  simp only
  rw [strtol16 ha, strtol10 hn, decimal_small n10]
  have e1 : min (number 16 ns) (2 ^ 31 - 1) = number 16 ns := by omega
  have hp : payload (number 16 ns) (List.replicate n 0) = .error .null := by
    unfold payload
    rw [t3]
    simp only
    rw [if_neg (by omega)]
  rw [e1, if_neg (by unfold maxRange; omega), if_neg (by omega), hp]

example : Digits [4, 0, 0] ∧ Digits [2] ∧ 0 < number 16 [4, 0, 0] ∧ number 16 [2] < 10 :=
  ⟨⟨by decide, by decide⟩, ⟨by decide, by decide⟩, by decide, by decide⟩

/-! ## Binary data -/

/-- What a command to write binary data does that begin with no delimiter, whatever its numbers. -/
theorem binary_exact (m : Memory) {as ns raw : List Nat} (ha : Digits as) (hn : Digits ns) (hz : ∀ b ∈ raw, b ≠ 58 ∧ b ≠ 0)
    (hne : raw ≠ []) (h2 : decimal ns ≤ raw.length) :
    command m (binaryCommand as ns raw) =
      if decimal ns = 0 then (m, .reply okMessage)
      else if decimal ns > maxRange ∨ 2 ^ 31 - 1 < decimal ns then (m, .overflow)
      else answer m (delegateWrite m (min (number 16 as) (2 ^ 31 - 1)) (decimal ns) (raw.take (decimal ns))) := by
  obtain ⟨n, he⟩ := array_eq (binaryCommand as ns raw)
  obtain ⟨t1, t2⟩ := tokens (raw := raw) ha hn (Or.inr rfl) n
  have t3 : strtok [58] (raw ++ List.replicate n 0) = some (raw, List.replicate n 0) := by
    have := strtok_of (delims := [58]) (pre := []) (tok := raw) (t := List.replicate n 0) (by simp) hne
      (fun c hc => by have := hz c hc; simpa using this) (fun c h => Or.inr (fill_head _ _ h))
    simpa using this
  show writeBinary m (binaryCommand as ns raw) = _
  unfold writeBinary
  rw [he]
  unfold binaryCommand
  rw [t1]
  simp only
  rw [next_delim (by decide), t2]
  simp only
  rw [next_delim (by decide), t3, strtol16 ha, strtol10 hn]
  by_cases hzero : decimal ns = 0
  · simp [hzero]
  · have hm : min (decimal ns) (2 ^ 31 - 1) ≠ 0 := by omega
    rw [if_neg hm, if_neg hzero]
    simp only
    by_cases hbig : decimal ns > maxRange
    · rw [if_pos (by unfold maxRange at *; omega), if_pos (Or.inl hbig)]
    · have e10 : min (decimal ns) (2 ^ 31 - 1) = decimal ns := by unfold maxRange at hbig; omega
      have hlen : ¬ (atToken raw (List.replicate n 0)).length < decimal ns := by simp [atToken]; omega
      have htake : (atToken raw (List.replicate n 0)).take (decimal ns) = raw.take (decimal ns) := by
        unfold atToken
        rw [List.take_append_of_le_length h2]
      rw [e10, if_neg hbig, if_neg hlen, if_neg (by unfold maxRange at *; omega), htake]

/-- **C75.** Binary data without colons, zeros and escapes, fewer than ten bytes. -/
theorem binary_right_partial (m : Memory) {as ns data : List Nat} (ha : Digits as) (hn : Digits ns)
    (hz : ∀ b ∈ data, b ≠ 58 ∧ b ≠ 0) (hl : data.length = number 16 ns)
    (h31 : number 16 as < 2 ^ 31) (n0 : 0 < number 16 ns) (n10 : number 16 ns < 10)
    (hr : Range m.readable (number 16 as) 4) (hw : Range m.writable (number 16 as) (max 4 (number 16 ns))) :
    ∃ m', command m (binaryCommand as ns data) = (m', .reply okMessage) ∧ Stored m m' (number 16 as) data := by
  have e := decimal_small n10
  rw [binary_exact m ha hn hz (by rintro rfl; simp at hl; omega) (by omega)]
  have e1 : min (number 16 as) (2 ^ 31 - 1) = number 16 as := by omega
  rw [if_neg (by omega), if_neg (by unfold maxRange; omega), e1, e,
    delegateWrite_ok (by omega) (by unfold maxRange; omega) hr hw, ← hl, List.take_length]
  exact ⟨_, rfl, stored m _ data⟩

/-- **Disagreement with C75.** If the first digit of the length is a letter, as in `a` or `f0`, nothing is written and the
answer is `OK`. -/
theorem binary_ignored (m : Memory) {as ns data : List Nat} (ha : Digits as) (hn : Digits ns)
    (hz : ∀ b ∈ data, b ≠ 58 ∧ b ≠ 0) (hne : data ≠ []) (hd : decimal ns = 0) :
    command m (binaryCommand as ns data) = (m, .reply okMessage) := by
  rw [binary_exact m ha hn hz hne (by omega), if_pos hd]

/-- **Disagreement with C75.** If the length is ten or more and its digits are decimal ones, only a part of the data is
written (as many bytes as the digits say in base 10), and the answer is `OK`. -/
theorem binary_cut (m : Memory) {as ns data : List Nat} (ha : Digits as) (hn : Digits ns)
    (hz : ∀ b ∈ data, b ≠ 58 ∧ b ≠ 0) (hl : data.length = number 16 ns)
    (h31 : number 16 as < 2 ^ 31) (d0 : decimal ns ≠ 0) (d100 : decimal ns ≤ 100) (n10 : 10 ≤ number 16 ns)
    (hr : Range m.readable (number 16 as) 4) (hw : Range m.writable (number 16 as) (max 4 (number 16 ns))) :
    ∃ m', command m (binaryCommand as ns data) = (m', .reply okMessage) ∧
      Stored m m' (number 16 as) (data.take (decimal ns)) ∧ decimal ns < data.length := by
  have hlt := decimal_lt n10
  rw [binary_exact m ha hn hz (by rintro rfl; simp at hl; omega) (by omega)]
  have e1 : min (number 16 as) (2 ^ 31 - 1) = number 16 as := by omega
  have e2 : (data.take (decimal ns)).length = decimal ns := by simp; omega
  rw [if_neg d0, if_neg (by unfold maxRange; omega), e1,
    delegateWrite_ok d0 (by unfold maxRange; omega) hr (fun i hi => hw i (by omega))]
  refine ⟨_, rfl, ?_, by omega⟩
  have := stored m (number 16 as) (data.take (decimal ns))
  rw [e2] at this
  exact this

/-- **Disagreement with C75.** More bytes than the array has are copied to it. -/
theorem binary_overflows (m : Memory) {as ns data : List Nat} (ha : Digits as) (hn : Digits ns)
    (hz : ∀ b ∈ data, b ≠ 58 ∧ b ≠ 0) (hl : data.length = number 16 ns) (hd : 100 < decimal ns) :
    command m (binaryCommand as ns data) = (m, .overflow) := by
  have := decimal_le ns
  rw [binary_exact m ha hn hz (by rintro rfl; simp at hl; omega) (by omega), if_neg (by omega),
    if_pos (by unfold maxRange; omega)]

/-! ## Examples -/

/-- A memory of 16 bytes at 4096. -/
def demo : Memory :=
  ⟨fun x => x % 256, fun x => decide (4096 ≤ x ∧ x < 4112), fun x => decide (4096 ≤ x ∧ x < 4112)⟩

theorem digits_demo : Digits [1, 0, 0, 0] ∧ Digits [9] ∧ number 16 [1, 0, 0, 0] = 4096 ∧ number 16 [9] = 9 :=
  ⟨⟨by simp, by simp⟩, ⟨by simp, by simp⟩, rfl, rfl⟩

/-- `m1000,9` -/
example : command demo (readCommand [1, 0, 0, 0] [9]) =
    (demo, .reply (hexBytes [0, 1, 2, 3, 4, 5, 6, 7, 8])) :=
  read_right_partial demo digits_demo.1 digits_demo.2.1 (fun x => Nat.mod_lt _ (by decide)) (by decide) (by decide)
    (by decide) (by decide) (by
      intro i hi
      have : i < 9 := hi
      show decide (4096 ≤ 4096 + i ∧ 4096 + i < 4112) = true
      rw [decide_eq_true_iff]; omega)

/-- `M1000,2:ab12` and `m1000,2` -/
example : (command (command demo (writeCommand [1, 0, 0, 0] [2] [171, 18])).1 (readCommand [1, 0, 0, 0] [2])).2 =
    .reply (hexBytes [171, 18]) :=
  read_back_partial demo digits_demo.1 ⟨by simp, by simp⟩ (fun x => Nat.mod_lt _ (by decide)) (by simp) rfl (by decide) (by decide)
    (by decide) (by decide)
    (by
      intro i hi
      have : i < 4 := hi
      show decide (4096 ≤ 4096 + i ∧ 4096 + i < 4112) = true
      rw [decide_eq_true_iff]; omega)
    (by
      intro i hi
      have : i < 4 := hi
      show decide (4096 ≤ 4096 + i ∧ 4096 + i < 4112) = true
      rw [decide_eq_true_iff]; omega)

/-- `m1000,10`: sixteen bytes are asked for, ten arrive. -/
example : (command demo (readCommand [1, 0, 0, 0] [1, 0])).2 = .reply (hexBytes [0, 1, 2, 3, 4, 5, 6, 7, 8, 9]) := by
  rw [read_exact demo digits_demo.1 ⟨by simp, by simp⟩]
  rfl

/-- `mbffff000,1` reads the byte at 7fffffff. -/
example (m : Memory) : command m (readCommand [11, 15, 15, 15, 15, 0, 0, 0] [1]) =
    command m (readCommand [7, 15, 15, 15, 15, 15, 15, 15] [1]) :=
  high_address_wrong m ⟨by simp, by simp⟩ ⟨by simp, by simp⟩ ⟨by simp, by simp⟩ (by decide) (by decide)

/-- `m100f,1`: the last byte. -/
example : command demo (readCommand [1, 0, 0, 15] [1]) = (demo, .reply errorMessage) :=
  end_refused demo ⟨by simp, by simp⟩ ⟨by simp, by simp⟩ (by decide) (by decide) (by decide) (by decide) 1 (by decide) (by decide)

/-- `m100c,5` -/
example : command demo (readCommand [1, 0, 0, 12] [5]) = (demo, .hang) :=
  across_hangs demo ⟨by simp, by simp⟩ ⟨by simp, by simp⟩ (by decide) (by decide) (by decide)
    (by
      intro i hi
      show decide (4096 ≤ 4108 + i ∧ 4108 + i < 4112) = true
      rw [decide_eq_true_iff]; omega) 4 (by decide) (by decide)

/-- `M2000,1:00` -/
example : command demo (writeCommand [2, 0, 0, 0] [1] [0]) = (demo, .hang) :=
  unmapped_hangs demo ⟨by simp, by simp⟩ ⟨by simp, by simp⟩ (by simp) rfl (by decide) (by decide) (by decide) (by decide)
    0 0 (by decide) (by decide) (by decide) (by decide)

/-- `Xa`, `Xf0`: nothing is written. -/
example : decimal [10] = 0 ∧ decimal [15, 0] = 0 ∧ decimal [1, 0] = 10 ∧ number 16 [1, 0] = 16 ∧ decimal [1, 0, 1] = 101 := by decide

/-- `X1000,10:` with sixteen bytes. -/
example : ∃ m', command demo (binaryCommand [1, 0, 0, 0] [1, 0] (List.replicate 16 65)) = (m', .reply okMessage) ∧
    Stored demo m' 4096 (List.replicate 10 65) ∧ decimal [1, 0] < 16 :=
  binary_cut demo digits_demo.1 ⟨by simp, by simp⟩ (by decide) (by decide) (by decide) (by decide) (by decide) (by decide)
    (by
      intro i hi
      show decide (4096 ≤ 4096 + i ∧ 4096 + i < 4112) = true
      rw [decide_eq_true_iff]; omega)
    (by
      intro i hi
      have : i < 16 := hi
      show decide (4096 ≤ 4096 + i ∧ 4096 + i < 4112) = true
      rw [decide_eq_true_iff]; omega)

set_option maxRecDepth 20000 in
/-- **Disagreement with C75.** A colon in the data is lost, or becomes a zero; an escape is not undone (`#` is sent as `}`
and 3). The answer is `OK`. -/
theorem colon_and_escape_wrong :
    (command demo (binaryCommand [1, 0, 0, 0] [2] [65, 58])).2 = .reply okMessage ∧
    ((command demo (binaryCommand [1, 0, 0, 0] [2] [65, 58])).1.bytes 4096 2) = [65, 0] ∧
    ((command demo (binaryCommand [1, 0, 0, 0] [2] [58, 65])).1.bytes 4096 2) = [65, 0] ∧
    (command demo (binaryCommand [1, 0, 0, 0] [1] [125, 3])).2 = .reply okMessage ∧
    ((command demo (binaryCommand [1, 0, 0, 0] [1] [125, 3])).1.bytes 4096 1) = [125] := by
  refine ⟨?_, ?_, ?_, ?_, ?_⟩ <;> decide

end Verif.GdbMem
