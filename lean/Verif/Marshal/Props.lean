import Verif.Marshal.Spec
import Mathlib.Tactic.ByContra

namespace Verif.Marshal

/-! ### Numbers -/

theorem enc_length (n v : Nat) : (enc n v).length = n := by
  induction n generalizing v with
  | zero => rfl
  | succ n ih => simp [enc, ih]

theorem dec_enc (n v : Nat) (h : v < 2 ^ (8 * n)) : dec (enc n v) = v := by
  induction n generalizing v with
  | zero => simp only [enc, dec]; simp at h; omega
  | succ n ih =>
    have hp : (2 : Nat) ^ (8 * (n + 1)) = 256 * 2 ^ (8 * n) := by
      rw [Nat.mul_add, Nat.pow_add, Nat.mul_comm]
    simp only [enc, dec]
    rw [ih (v / 256) (by omega)]
    have : (UInt8.ofNat (v % 256)).toNat = v % 256 := by
      rw [UInt8.toNat_ofNat']; omega
    omega

theorem enc_dec (bs : List Byte) : enc bs.length (dec bs) = bs := by
  induction bs with
  | nil => rfl
  | cons b bs ih =>
    have hb := b.toNat_lt
    have h1 : (b.toNat + 256 * dec bs) % 256 = b.toNat := by omega
    have h2 : (b.toNat + 256 * dec bs) / 256 = dec bs := by omega
    simp only [List.length_cons, enc, dec, h1, h2, ih]
    congr 1
    exact UInt8.ofNat_toNat

theorem dec_lt (bs : List Byte) : dec bs < 2 ^ (8 * bs.length) := by
  induction bs with
  | nil => simp [dec]
  | cons b bs ih =>
    have hb := b.toNat_lt
    have hp : (2 : Nat) ^ (8 * (bs.length + 1)) = 256 * 2 ^ (8 * bs.length) := by
      rw [Nat.mul_add, Nat.pow_add, Nat.mul_comm]
    simp only [dec, List.length_cons]
    omega

theorem W_ge {e : Env} (he : EnvOk e) : e.U ≤ e.W := by
  unfold Env.U Env.W
  apply Nat.pow_le_pow_right (by decide)
  have := he.2
  omega

theorem space_eq {m size off : Nat} (h1 : off ≤ size) (h2 : size < m) : space m size off = size - off := by
  unfold space
  rw [show size + m - off = size - off + m by omega, Nat.add_mod_right, Nat.mod_eq_of_lt (by omega)]

theorem exceeds_iff {m size off d : Nat} (h1 : off ≤ size) (h2 : size < m) : exceeds m size off d ↔ size < off + d := by
  unfold exceeds
  rw [space_eq h1 h2]
  omega

/-! ### Marshalling -/

/-- The buffer has the bytes at the offset, and is unchanged before. -/
def Wrote (o o' : Out) (off : Nat) (bytes : List Byte) : Prop :=
  (∀ a < off, o'.mem a = o.mem a) ∧ ∀ i (h : i < bytes.length), o'.mem (off + i) = bytes[i]

/-- What writing some bytes at an offset should do. -/
def Writes (size : Nat) (o : Out) (off : Nat) (bytes : List Byte) (r : MRes) : Prop :=
  (off + bytes.length ≤ size → ∃ o', r = .ok (o', off + bytes.length) ∧ Wrote o o' off bytes ∧ o'.top ≤ max o.top size) ∧
  (size < off + bytes.length → ∃ o', r = .error o' ∧ o'.top ≤ max o.top size)

theorem memcpy_wrote (o : Out) (off : Nat) (bytes : List Byte) : Wrote o (memcpy o off bytes) off bytes := by
  constructor
  · intro a ha
    simp only [memcpy]
    rw [if_neg (by omega)]
  · intro i hi
    simp only [memcpy]
    rw [if_pos (by omega), Nat.add_sub_cancel_left, List.getElem?_eq_getElem hi]
    rfl

theorem memcpy_top (o : Out) (off : Nat) (bytes : List Byte) (size : Nat) (h : off + bytes.length ≤ size) :
    (memcpy o off bytes).top ≤ max o.top size := by
  simp only [memcpy]; omega

theorem wrote_append {o o' o'' : Out} {off : Nat} {a b : List Byte} (h1 : Wrote o o' off a)
    (h2 : Wrote o' o'' (off + a.length) b) : Wrote o o'' off (a ++ b) := by
  constructor
  · intro x hx
    rw [h2.1 x (by omega), h1.1 x hx]
  · intro i hi
    rw [List.length_append] at hi
    by_cases hlt : i < a.length
    · rw [h2.1 _ (by omega), h1.2 i hlt, List.getElem_append_left hlt]
    · rw [List.getElem_append_right (by omega)]
      have := h2.2 (i - a.length) (by omega)
      rw [← this]
      congr 1
      omega

/-- One thing after the other. -/
theorem writes_append {size : Nat} {o : Out} {off : Nat} {a b : List Byte} {r r2 : MRes} (f : Out → Nat → MRes)
    (h1 : Writes size o off a r) (herr : ∀ o', r = .error o' → r2 = .error o')
    (hok : ∀ o' off', r = .ok (o', off') → r2 = f o' off')
    (h2 : ∀ o', off + a.length ≤ size → Writes size o' (off + a.length) b (f o' (off + a.length))) :
    Writes size o off (a ++ b) r2 := by
  unfold Writes
  rw [List.length_append]
  by_cases hlt : off + a.length ≤ size
  · obtain ⟨o', hr, hw, ht⟩ := h1.1 hlt
    obtain ⟨g1, g2⟩ := h2 o' hlt
    rw [hok _ _ hr]
    clear h1 h2 herr hok
    constructor
    · intro hle
      obtain ⟨o'', hr', hw', ht'⟩ := g1 (by omega)
      clear g1 g2
      exact ⟨o'', by rw [hr', Nat.add_assoc], wrote_append hw hw', by omega⟩
    · intro hgt
      obtain ⟨o'', hr', ht'⟩ := g2 (by omega)
      clear g1 g2
      exact ⟨o'', hr', by omega⟩
  · constructor
    · intro hle; omega
    · intro _
      obtain ⟨o', hr, ht⟩ := h1.2 (by omega)
      exact ⟨o', herr _ hr, ht⟩

theorem scalar_writes {e : Env} {m size : Nat} (o : Out) (off : Nat) (bytes : List Byte) (hsz : size + 1 < e.U) (hm : e.U ≤ m) (hoff : off ≤ size) :
    Writes size o off bytes (marshalScalar e m size o off bytes) := by
  unfold marshalScalar
  constructor
  · intro h
    rw [if_neg (by rw [exceeds_iff hoff (by omega)]; omega), Nat.mod_eq_of_lt (by omega)]
    exact ⟨_, rfl, memcpy_wrote o off bytes, memcpy_top o off bytes size h⟩
  · intro h
    rw [if_pos (by rw [exceeds_iff hoff (by omega)]; omega)]
    exact ⟨_, rfl, by omega⟩

theorem string_writes {e : Env} (he : EnvOk e) {m size : Nat} (o : Out) (off : Nat) (s : List Byte) (hsz : size + 1 < e.U)
    (hm : e.U ≤ m) (hoff : off ≤ size) : Writes size o off (s ++ [0]) (marshalString e m size o off s) := by
  have hW := W_ge he
  unfold marshalString
  simp only
  rw [space_eq hoff (by omega), Nat.mod_eq_of_lt (a := min s.length (size - off) + 1) (by omega)]
  constructor
  · intro h
    simp only [List.length_append, List.length_singleton] at h
    rw [if_neg (by rw [exceeds_iff hoff (by omega)]; omega), Nat.mod_eq_of_lt (by omega)]
    refine ⟨_, ?_, memcpy_wrote o off _, memcpy_top o off _ size (by simpa using h)⟩
    rw [show min s.length (size - off) = s.length by omega]
    simp
  · intro h
    simp only [List.length_append, List.length_singleton] at h
    rw [if_pos (by rw [exceeds_iff hoff (by omega)]; omega)]
    exact ⟨_, rfl, by omega⟩

theorem each_writes {e : Env} (he : EnvOk e) {m size : Nat} (hsz : size + 1 < e.U) (hm : e.U ≤ m) : ∀ (ss : List (List Byte)) (o : Out) (off : Nat),
    off ≤ size → Writes size o off (ss.flatMap (· ++ [0])) (marshalEach e m size o off ss) := by
  intro ss
  induction ss with
  | nil =>
    intro o off hoff
    constructor
    · intro _
      exact ⟨o, rfl, ⟨fun _ _ => rfl, fun i hi => (by simp at hi)⟩, by omega⟩
    · intro h; simp at h; omega
  | cons s ss ih =>
    intro o off hoff
    rw [List.flatMap_cons]
    refine writes_append (fun o off => marshalEach e m size o off ss) (string_writes he o off s hsz hm hoff) ?_ ?_ ?_
    · intro o' h; rw [marshalEach, h]
    · intro o' off' h; rw [marshalEach, h]
    · intro o' h; exact ih o' _ h

theorem param_writes {e : Env} (he : EnvOk e) {m size : Nat} (hsz : size + 1 < e.U) (hm : e.U ≤ m) (o : Out) (off : Nat) (hoff : off ≤ size)
    (t : Ty) (v : Val) (hp : Proper e t v) : Writes size o off (wire e v) (marshalParam e m size o off t v) := by
  have hW := W_ge he
  have hcount : ∀ c, Writes size o off (enc e.wb c)
      (if exceeds m size off e.wb then .error o else .ok (memcpy o off (enc e.wb c), (off + e.wb) % e.U)) := by
    intro c
    have := scalar_writes (m := m) o off (enc e.wb c) hsz hm hoff
    unfold marshalScalar at this
    rwa [enc_length] at this
  cases t with
  | scalar k =>
    cases v with
    | scalar b => exact scalar_writes o off b hsz hm hoff
    | _ => cases hp
  | string =>
    cases v with
    | string s => exact string_writes he o off s hsz hm hoff
    | _ => cases hp
  | array k =>
    cases v with
    | array c b =>
      obtain ⟨h1, h2, h3⟩ := hp
      refine writes_append (fun o off => marshalScalar e m size o off b) (hcount c) ?_ ?_ ?_
      · intro o' h
        simp only [marshalParam, marshalArray]
        split at h
        · rename_i hx; rw [if_pos hx]; exact h
        · cases h
      · intro o' off' h
        simp only [marshalParam, marshalArray]
        split at h
        · cases h
        · rename_i hx
          rw [if_neg hx]
          simp only [Except.ok.injEq, Prod.mk.injEq] at h
          obtain ⟨rfl, rfl⟩ := h
          rw [Nat.mod_eq_of_lt h2, ← h1, List.take_length]
          rfl
      · intro o' h
        exact scalar_writes o' _ b hsz hm h
    | _ => cases hp
  | strings =>
    cases v with
    | strings ss =>
      refine writes_append (fun o off => marshalEach e m size o off ss) (hcount ss.length) ?_ ?_ ?_
      · intro o' h
        simp only [marshalParam, marshalStrings]
        split at h
        · rename_i hx; rw [if_pos hx]; exact h
        · cases h
      · intro o' off' h
        simp only [marshalParam, marshalStrings]
        split at h
        · cases h
        · rename_i hx
          rw [if_neg hx]
          simp only [Except.ok.injEq, Prod.mk.injEq] at h
          obtain ⟨rfl, rfl⟩ := h
          rfl
      · intro o' h
        exact each_writes he hsz hm ss o' _ h
    | _ => cases hp

theorem params_writes {e : Env} (he : EnvOk e) {m size : Nat} (hsz : size + 1 < e.U) (hm : e.U ≤ m) : ∀ (ps : List (Ty × Val)) (o : Out) (off : Nat),
    off ≤ size → (∀ p ∈ ps, Proper e p.1 p.2) →
    Writes size o off (ps.flatMap (fun p => wire e p.2)) (marshalParams e m size o off ps) := by
  intro ps
  induction ps with
  | nil =>
    intro o off hoff _
    constructor
    · intro _
      exact ⟨o, rfl, ⟨fun _ _ => rfl, fun i hi => (by simp at hi)⟩, by omega⟩
    · intro h; simp at h; omega
  | cons p ps ih =>
    obtain ⟨t, v⟩ := p
    intro o off hoff hp
    rw [List.flatMap_cons]
    refine writes_append (fun o off => marshalParams e m size o off ps)
      (param_writes he hsz hm o off hoff t v (hp (t, v) (by simp))) ?_ ?_ ?_
    · intro o' h; rw [marshalParams, h]
    · intro o' off' h; rw [marshalParams, h]
    · intro o' h; exact ih o' _ h (fun p hp' => hp p (by simp [hp']))

/-- C47: marshalling the inputs of a method succeeds exactly when the message fits into the buffer; the
buffer then starts with the method index and the parameters in order; and nothing is ever written
beyond the end of the buffer, also when there is an error. -/
theorem marshalInputs_spec {e : Env} (he : EnvOk e) (methods index size : Nat) (hsz : size + 1 < e.U) (o : Out)
    (ps : List (Ty × Val)) (hp : ∀ p ∈ ps, Proper e p.1 p.2) :
    let msg := wireIndex methods index ++ ps.flatMap (fun p => wire e p.2)
    (msg.length ≤ size → ∃ o', marshalInputs e methods index size o ps = .ok (o', msg.length) ∧
      (∀ i (h : i < msg.length), o'.mem i = msg[i]) ∧ o'.top ≤ max o.top size) ∧
    (size < msg.length → ∃ o', marshalInputs e methods index size o ps = .error o' ∧ o'.top ≤ max o.top size) := by
  have key : Writes size o 0 (wireIndex methods index ++ ps.flatMap (fun p => wire e p.2))
      (marshalInputs e methods index size o ps) := by
    unfold wireIndex marshalInputs
    by_cases hm : methods > 1
    · rw [if_pos hm, if_pos hm]
      refine writes_append (fun o off => marshalParams e e.W size o off ps)
        (scalar_writes (m := e.W) o 0 (enc (indexBytes methods) index) hsz (W_ge he) (by omega)) ?_ ?_ ?_
      · intro o' h; rw [h]
      · intro o' off' h; rw [h]
      · intro o' h; exact params_writes he hsz (W_ge he) ps o' _ h hp
    · rw [if_neg hm, if_neg hm, List.nil_append]
      exact params_writes he hsz (W_ge he) ps o 0 (by omega) hp
  simp only
  refine ⟨?_, ?_⟩
  · intro h
    obtain ⟨o', h1, h2, h3⟩ := key.1 (by omega)
    refine ⟨o', by rw [h1, Nat.zero_add], ?_, h3⟩
    intro i hi
    have := h2.2 i hi
    rwa [Nat.zero_add] at this
  · intro h
    exact key.2 (by omega)

/-- C47, for the outputs: the return value and the output parameters. -/
theorem marshalOutputs_spec {e : Env} (he : EnvOk e) (size : Nat) (hsz : size + 1 < e.U) (o : Out) (ret : Option (Ty × Val))
    (ps : List (Ty × Val)) (hp : ∀ p ∈ ret.toList ++ ps, Proper e p.1 p.2) :
    let msg := (ret.toList ++ ps).flatMap (fun p => wire e p.2)
    (msg.length ≤ size → ∃ o', marshalOutputs e size o ret ps = .ok (o', msg.length) ∧
      (∀ i (h : i < msg.length), o'.mem i = msg[i]) ∧ o'.top ≤ max o.top size) ∧
    (size < msg.length → ∃ o', marshalOutputs e size o ret ps = .error o' ∧ o'.top ≤ max o.top size) := by
  have key := params_writes he hsz (Nat.le_refl e.U) (ret.toList ++ ps) o 0 (by omega) hp
  simp only
  refine ⟨?_, ?_⟩
  · intro h
    obtain ⟨o', h1, h2, h3⟩ := key.1 (by omega)
    refine ⟨o', by rw [marshalOutputs, h1, Nat.zero_add], ?_, h3⟩
    intro i hi
    have := h2.2 i hi
    rwa [Nat.zero_add] at this
  · intro h
    exact key.2 (by omega)

/-! ### Unmarshalling -/

theorem strnlen_all (l : List Byte) : (strnlen l l.length = some l.length ∧ 0 ∉ l) ∨
    (∃ s r, l = s ++ 0 :: r ∧ 0 ∉ s ∧ strnlen l l.length = some s.length) := by
  induction l with
  | nil => left; exact ⟨rfl, by simp⟩
  | cons b l ih =>
    by_cases hb : b = 0
    · right
      exact ⟨[], l, by simp [hb], by simp, by simp [strnlen, hb]⟩
    · rcases ih with ⟨h1, h2⟩ | ⟨s, r, h1, h2, h3⟩
      · left
        refine ⟨by simp [strnlen, hb, h1], ?_⟩
        simp only [List.mem_cons, not_or]
        exact ⟨fun h => hb h.symm, h2⟩
      · right
        refine ⟨b :: s, r, by simp [h1], ?_, by simp [strnlen, hb, h3]⟩
        simp only [List.mem_cons, not_or]
        exact ⟨fun h => hb h.symm, h2⟩

theorem strdup_append (s r : List Byte) (h : 0 ∉ s) : strdup (s ++ 0 :: r) = some s := by
  induction s with
  | nil => simp [strdup]
  | cons b s ih =>
    simp only [List.mem_cons, not_or] at h
    simp [strdup, ih h.2, Ne.symm h.1]

theorem unmarshalString_eq {e : Env} (he : EnvOk e) (malloc : Nat → Bool) (msg : List Byte) (hsz : msg.length + 1 < e.U) (off : Nat)
    (hoff : off ≤ msg.length) :
    (0 ∉ msg.drop off ∧ unmarshalString e malloc msg off = .error .malformed) ∨
    (∃ s r, msg.drop off = s ++ 0 :: r ∧ 0 ∉ s ∧ off + s.length + 1 ≤ msg.length ∧ unmarshalString e malloc msg off =
      if malloc (s.length + 1) then .ok (s, off + s.length + 1) else .error .noMemory) := by
  have hW := W_ge he
  have hlen : space e.U msg.length off = (msg.drop off).length := by
    rw [space_eq hoff (by omega), List.length_drop]
  have hd : (msg.drop off).length = msg.length - off := List.length_drop
  unfold unmarshalString
  rw [hlen]
  rcases strnlen_all (msg.drop off) with ⟨h1, h2⟩ | ⟨s, r, h1, h2, h3⟩
  · left
    refine ⟨h2, ?_⟩
    rw [h1]
    simp only
    rw [Nat.mod_eq_of_lt (by omega), if_pos (by rw [exceeds_iff hoff (by omega)]; omega)]
  · right
    have hle : off + s.length + 1 ≤ msg.length := by
      rw [h1] at hd
      simp only [List.length_append, List.length_cons] at hd
      omega
    refine ⟨s, r, h1, h2, hle, ?_⟩
    rw [h3]
    simp only
    rw [Nat.mod_eq_of_lt (a := s.length + 1) (by omega), if_neg (by rw [exceeds_iff hoff (by omega)]; omega), h1,
      strdup_append s r h2]
    simp only
    rw [Nat.mod_eq_of_lt (by omega)]

theorem unmarshalScalar_eq {e : Env} (msg : List Byte) (hsz : msg.length + 1 < e.U) (off k : Nat) (hoff : off ≤ msg.length) :
    unmarshalScalar e msg off k =
      if off + k ≤ msg.length then .ok ((msg.drop off).take k, off + k) else .error .malformed := by
  unfold unmarshalScalar
  by_cases h : off + k ≤ msg.length
  · rw [if_neg (by rw [exceeds_iff hoff (by omega)]; omega), if_pos h, copy, if_pos h, Nat.mod_eq_of_lt (by omega)]
  · rw [if_pos (by rw [exceeds_iff hoff (by omega)]; omega), if_neg h]

/-- The failures that are reported, and what can go wrong otherwise. -/
def Reported (e : Env) (f : Fail) : Prop :=
  f = .malformed ∨ f = .noMemory ∨ ∃ c, f = .overrun c ∧ e.W ≤ e.wb * c

/-- The sizes that the message claims were not too large to be computed. -/
def NoWrap (e : Env) : Ty → Val → Prop
  | .array k, .array count _ => k * count < e.W
  | _, _ => True

theorem take_drop (msg : List Byte) (off k : Nat) : msg.drop off = (msg.drop off).take k ++ msg.drop (off + k) := by
  conv_lhs => rw [← List.take_append_drop k (msg.drop off)]
  rw [List.drop_drop]

theorem each_sound {e : Env} (he : EnvOk e) (malloc : Nat → Bool) (msg : List Byte) (hsz : msg.length + 1 < e.U) (room count : Nat) :
    ∀ (todo i off : Nat), off ≤ msg.length →
    (∀ ss off', unmarshalEach e malloc msg room count todo i off = .ok (ss, off') →
      ss.length = todo ∧ (0 < todo → i + todo ≤ room) ∧ (∀ s ∈ ss, 0 ∉ s) ∧ off' ≤ msg.length ∧
      off' = off + (ss.flatMap (· ++ [0])).length ∧ msg.drop off = ss.flatMap (· ++ [0]) ++ msg.drop off') ∧
    (∀ f, unmarshalEach e malloc msg room count todo i off = .error f → f = .malformed ∨ f = .noMemory ∨
      (f = .overrun count ∧ room < i + todo)) := by
  intro todo
  induction todo with
  | zero =>
    intro i off hoff
    constructor
    · intro ss off' h
      simp only [unmarshalEach, Except.ok.injEq, Prod.mk.injEq] at h
      obtain ⟨rfl, rfl⟩ := h
      exact ⟨rfl, fun h => absurd h (by omega), by simp, hoff, by simp, by simp⟩
    · intro f h; simp [unmarshalEach] at h
  | succ todo ih =>
    intro i off hoff
    rcases unmarshalString_eq he malloc msg hsz off hoff with ⟨_, h2⟩ | ⟨s, r, h1, h2, h3, h4⟩
    · constructor
      · intro ss off' h; rw [unmarshalEach, h2] at h; simp at h
      · intro f h
        rw [unmarshalEach, h2] at h
        simp only [reduceCtorEq, false_and, if_false, Except.error.injEq] at h
        exact .inl h.symm
    · by_cases hm : malloc (s.length + 1) = true
      · rw [if_pos hm] at h4
        obtain ⟨i1, i2⟩ := ih (i + 1) (off + s.length + 1) h3
        have hdrop : msg.drop (off + s.length + 1) = r := by
          rw [show off + s.length + 1 = off + (s.length + 1) by omega, ← List.drop_drop, h1]
          rw [show s ++ 0 :: r = (s ++ [0]) ++ r by simp, List.drop_left' (by simp)]
        constructor
        · intro ss off' h
          rw [unmarshalEach, h4] at h
          simp only at h
          split at h
          · rename_i hroom
            cases hu : unmarshalEach e malloc msg room count todo (i + 1) (off + s.length + 1) with
            | error f => rw [hu] at h; cases h
            | ok t =>
              obtain ⟨ss', off''⟩ := t
              rw [hu] at h
              simp only [Except.ok.injEq, Prod.mk.injEq] at h
              obtain ⟨rfl, rfl⟩ := h
              obtain ⟨j1, j2, j3, j4, j5, j6⟩ := i1 _ _ hu
              refine ⟨by simp [j1], ?_, ?_, j4, ?_, ?_⟩
              · intro _
                by_cases h0 : 0 < todo
                · have := j2 h0; omega
                · omega
              · intro x hx
                rcases List.mem_cons.mp hx with rfl | hx
                · exact h2
                · exact j3 x hx
              · simp only [List.flatMap_cons, List.length_append, List.length_singleton]; omega
              · rw [h1, List.flatMap_cons, List.append_assoc, ← j6, hdrop]; simp
          · cases h
        · intro f h
          rw [unmarshalEach, h4] at h
          simp only at h
          split at h
          · rename_i hroom
            cases hu : unmarshalEach e malloc msg room count todo (i + 1) (off + s.length + 1) with
            | error f' =>
              rw [hu] at h
              cases h
              rcases i2 _ hu with h | h | ⟨h, h'⟩
              · exact .inl h
              · exact .inr (.inl h)
              · exact .inr (.inr ⟨h, by omega⟩)
            | ok t => obtain ⟨ss', off''⟩ := t; rw [hu] at h; cases h
          · cases h; exact .inr (.inr ⟨rfl, by omega⟩)
      · rw [if_neg hm] at h4
        constructor
        · intro ss off' h; rw [unmarshalEach, h4] at h; simp only at h; split at h <;> cases h
        · intro f h
          rw [unmarshalEach, h4] at h
          simp only [true_and] at h
          split at h
          · cases h; exact .inr (.inr ⟨rfl, by omega⟩)
          · cases h; exact .inr (.inl rfl)

/-- What reading one parameter does with arbitrary bytes. -/
theorem param_sound {e : Env} (he : EnvOk e) (malloc : Nat → Bool) (msg : List Byte) (hsz : msg.length + 1 < e.U) (off : Nat)
    (hoff : off ≤ msg.length) (t : Ty) :
    (∀ v off', unmarshalParam e malloc msg off t = .ok (v, off') → off' ≤ msg.length ∧
      (NoWrap e t v → Proper e t v ∧ msg.drop off = wire e v ++ msg.drop off')) ∧
    (∀ f, unmarshalParam e malloc msg off t = .error f → Reported e f) := by
  have hW := W_ge he
  cases t with
  | scalar k =>
    simp only [unmarshalParam, unmarshalScalar_eq msg hsz off k hoff]
    by_cases h : off + k ≤ msg.length
    · rw [if_pos h]
      refine ⟨?_, fun f h => by cases h⟩
      intro v off' hv
      simp only [Except.ok.injEq, Prod.mk.injEq] at hv
      obtain ⟨rfl, rfl⟩ := hv
      refine ⟨h, fun _ => ⟨?_, take_drop msg off k⟩⟩
      simp only [Proper, List.length_take, List.length_drop]
      omega
    · rw [if_neg h]
      exact ⟨fun v off' h => (by cases h), fun f h => (by cases h; exact .inl rfl)⟩
  | string =>
    simp only [unmarshalParam]
    rcases unmarshalString_eq he malloc msg hsz off hoff with ⟨_, h2⟩ | ⟨s, r, h1, h2, h3, h4⟩
    · rw [h2]
      exact ⟨fun v off' h => (by cases h), fun f h => (by cases h; exact .inl rfl)⟩
    · rw [h4]
      by_cases hm : malloc (s.length + 1) = true
      · rw [if_pos hm]
        refine ⟨?_, fun f h => by cases h⟩
        intro v off' hv
        simp only [Except.ok.injEq, Prod.mk.injEq] at hv
        obtain ⟨rfl, rfl⟩ := hv
        refine ⟨h3, fun _ => ⟨h2, ?_⟩⟩
        rw [show off + s.length + 1 = off + (s.length + 1) by omega, ← List.drop_drop, h1]
        rw [show s ++ 0 :: r = (s ++ [0]) ++ r by simp, List.drop_left' (by simp)]
        rfl
      · rw [if_neg hm]
        exact ⟨fun v off' h => (by cases h), fun f h => (by cases h; exact .inr (.inl rfl))⟩
  | array k =>
    simp only [unmarshalParam, unmarshalArray]
    by_cases hx : off + e.wb ≤ msg.length
    · rw [if_neg (by rw [exceeds_iff hoff (by omega)]; omega), copy, if_pos hx, Nat.mod_eq_of_lt (a := off + e.wb) (by omega)]
      simp only
      generalize hc : (msg.drop off).take e.wb = c
      have hcl : c.length = e.wb := by
        rw [← hc, List.length_take, List.length_drop]; omega
      by_cases hm : malloc (k * dec c % e.W) = false
      · rw [if_pos hm]
        exact ⟨fun v off' h => (by cases h), fun f h => (by cases h; exact .inr (.inl rfl))⟩
      · rw [if_neg hm]
        by_cases hy : off + e.wb + k * dec c % e.W ≤ msg.length
        · rw [if_neg (by rw [exceeds_iff hx (by omega)]; omega), copy, if_pos hy]
          refine ⟨?_, fun f h => by cases h⟩
          intro v off' hv
          simp only [Except.ok.injEq, Prod.mk.injEq] at hv
          obtain ⟨rfl, rfl⟩ := hv
          rw [Nat.mod_eq_of_lt (a := off + e.wb + k * dec c % e.W) (by omega)]
          refine ⟨hy, fun hn => ?_⟩
          simp only [NoWrap] at hn
          rw [Nat.mod_eq_of_lt hn] at hy ⊢
          refine ⟨⟨?_, hn, ?_⟩, ?_⟩
          · rw [List.length_take, List.length_drop]; omega
          · have := dec_lt c
            rw [hcl] at this
            exact this
          · simp only [wire]
            rw [show enc e.wb (dec c) = c by rw [← hcl, enc_dec], List.append_assoc, ← take_drop, ← hc, ← take_drop]
        · rw [if_pos (by rw [exceeds_iff hx (by omega)]; omega)]
          exact ⟨fun v off' h => (by cases h), fun f h => (by cases h; exact .inl rfl)⟩
    · rw [if_pos (by rw [exceeds_iff hoff (by omega)]; omega)]
      exact ⟨fun v off' h => (by cases h), fun f h => (by cases h; exact .inl rfl)⟩
  | strings =>
    simp only [unmarshalParam, unmarshalStrings]
    by_cases hx : off + e.wb ≤ msg.length
    · rw [if_neg (by rw [exceeds_iff hoff (by omega)]; omega), copy, if_pos hx, Nat.mod_eq_of_lt (a := off + e.wb) (by omega)]
      simp only
      generalize hc : (msg.drop off).take e.wb = c
      have hcl : c.length = e.wb := by
        rw [← hc, List.length_take, List.length_drop]; omega
      have hwb : 0 < e.wb := by exact Nat.lt_of_lt_of_le he.1 he.2
      have hroom : e.wb * dec c < e.W → e.wb * dec c % e.W / e.wb = dec c := by
        intro h
        rw [Nat.mod_eq_of_lt h, Nat.mul_div_cancel_left _ hwb]
      by_cases hm : malloc (e.wb * dec c % e.W) = false
      · rw [if_pos hm]
        exact ⟨fun v off' h => (by cases h), fun f h => (by cases h; exact .inr (.inl rfl))⟩
      · rw [if_neg hm]
        obtain ⟨s1, s2⟩ := each_sound he malloc msg hsz (e.wb * dec c % e.W / e.wb) (dec c) (dec c) 0 (off + e.wb) hx
        constructor
        · intro v off' h
          cases hu : unmarshalEach e malloc msg (e.wb * dec c % e.W / e.wb) (dec c) (dec c) 0 (off + e.wb) with
          | error f => rw [hu] at h; cases h
          | ok t =>
            obtain ⟨ss, off''⟩ := t
            rw [hu] at h
            simp only [Except.ok.injEq, Prod.mk.injEq] at h
            obtain ⟨rfl, rfl⟩ := h
            obtain ⟨j1, j2, j3, j4, j5, j6⟩ := s1 _ _ hu
            refine ⟨j4, fun _ => ⟨⟨j3, ?_⟩, ?_⟩⟩
            · rw [j1]
              by_contra hge
              have hpos : 0 < dec c := by
                by_contra h0
                have : dec c = 0 := by omega
                rw [this] at hge
                have : 0 < e.W := Nat.two_pow_pos _
                omega
              have := j2 hpos
              have h1 : e.wb * dec c % e.W < e.W := Nat.mod_lt _ (Nat.two_pow_pos _)
              have h2 : e.wb * (e.wb * dec c % e.W / e.wb) ≤ e.wb * dec c % e.W := Nat.mul_div_le _ _
              have h3 : e.wb * dec c ≤ e.wb * (e.wb * dec c % e.W / e.wb) := Nat.mul_le_mul_left _ (by omega)
              omega
            · simp only [wire]
              rw [j1, show enc e.wb (dec c) = c by rw [← hcl, enc_dec], List.append_assoc, ← j6, ← hc, ← take_drop]
        · intro f h
          cases hu : unmarshalEach e malloc msg (e.wb * dec c % e.W / e.wb) (dec c) (dec c) 0 (off + e.wb) with
          | ok t => obtain ⟨ss, off''⟩ := t; rw [hu] at h; cases h
          | error f' =>
            rw [hu] at h
            cases h
            rcases s2 _ hu with h | h | ⟨h, h'⟩
            · exact .inl h
            · exact .inr (.inl h)
            · refine .inr (.inr ⟨dec c, h, ?_⟩)
              by_contra hlt
              rw [hroom (by omega)] at h'
              omega
    · rw [if_pos (by rw [exceeds_iff hoff (by omega)]; omega)]
      exact ⟨fun v off' h => (by cases h), fun f h => (by cases h; exact .inl rfl)⟩

/-- No array of a parameter list has a claimed size too large to be computed. -/
def NoWraps (e : Env) (ts : List Ty) (vs : List Val) : Prop := ∀ p ∈ ts.zip vs, NoWrap e p.1 p.2

theorem params_sound {e : Env} (he : EnvOk e) (malloc : Nat → Bool) (msg : List Byte) (hsz : msg.length + 1 < e.U) :
    ∀ (ts : List Ty) (off : Nat), off ≤ msg.length →
    (∀ vs off', unmarshalParams e malloc msg off ts = .ok (vs, off') → off' ≤ msg.length ∧ vs.length = ts.length ∧
      (NoWraps e ts vs → (∀ p ∈ ts.zip vs, Proper e p.1 p.2) ∧ msg.drop off = vs.flatMap (wire e) ++ msg.drop off')) ∧
    (∀ f, unmarshalParams e malloc msg off ts = .error f → Reported e f) := by
  intro ts
  induction ts with
  | nil =>
    intro off hoff
    constructor
    · intro vs off' h
      simp only [unmarshalParams, Except.ok.injEq, Prod.mk.injEq] at h
      obtain ⟨rfl, rfl⟩ := h
      exact ⟨hoff, rfl, fun _ => ⟨by simp, by simp⟩⟩
    · intro f h; simp [unmarshalParams] at h
  | cons t ts ih =>
    intro off hoff
    obtain ⟨s1, s2⟩ := param_sound he malloc msg hsz off hoff t
    cases hp : unmarshalParam e malloc msg off t with
    | error f =>
      constructor
      · intro vs off' h; rw [unmarshalParams, hp] at h; cases h
      · intro f' h; rw [unmarshalParams, hp] at h; cases h; exact s2 _ hp
    | ok p =>
      obtain ⟨v, off1⟩ := p
      obtain ⟨p1, p2⟩ := s1 _ _ hp
      obtain ⟨i1, i2⟩ := ih off1 p1
      cases hr : unmarshalParams e malloc msg off1 ts with
      | error f =>
        constructor
        · intro vs off' h; rw [unmarshalParams, hp] at h; simp only [hr] at h; cases h
        · intro f' h; rw [unmarshalParams, hp] at h; simp only [hr] at h; cases h; exact i2 _ hr
      | ok q =>
        obtain ⟨vs1, off2⟩ := q
        obtain ⟨j1, j2, j3⟩ := i1 _ _ hr
        constructor
        · intro vs off' h
          rw [unmarshalParams, hp] at h
          simp only [hr, Except.ok.injEq, Prod.mk.injEq] at h
          obtain ⟨rfl, rfl⟩ := h
          refine ⟨j1, by simp [j2], ?_⟩
          intro hn
          obtain ⟨k1, k2⟩ := p2 (hn (t, v) (by simp))
          obtain ⟨k3, k4⟩ := j3 (fun p hp => hn p (by simp [hp]))
          refine ⟨?_, ?_⟩
          · intro p hp
            simp only [List.zip_cons_cons, List.mem_cons] at hp
            rcases hp with rfl | hp
            · exact k1
            · exact k3 p hp
          · rw [List.flatMap_cons, List.append_assoc, ← k4, ← k2]
        · intro f h; rw [unmarshalParams, hp] at h; simp only [hr] at h; cases h

/-! ### Any message -/

theorem from_sound {e : Env} (he : EnvOk e) (malloc : Nat → Bool) (trailing : Bool) (msg : List Byte) (hsz : msg.length + 1 < e.U)
    (ts : List Ty) (off : Nat) (hoff : off ≤ msg.length) :
    (∀ vs, unmarshalFrom e malloc trailing msg off ts = .ok vs → vs.length = ts.length ∧
      (NoWraps e ts vs → (∀ p ∈ ts.zip vs, Proper e p.1 p.2) ∧ ∃ rest, msg.drop off = vs.flatMap (wire e) ++ rest ∧
        (trailing = false → rest.length < e.wb))) ∧
    (∀ f, unmarshalFrom e malloc trailing msg off ts = .error f → Reported e f) := by
  obtain ⟨s1, s2⟩ := params_sound he malloc msg hsz ts off hoff
  cases hr : unmarshalParams e malloc msg off ts with
  | error f =>
    constructor
    · intro vs h; rw [unmarshalFrom, hr] at h; cases h
    · intro f' h; rw [unmarshalFrom, hr] at h; cases h; exact s2 _ hr
  | ok p =>
    obtain ⟨vs1, off1⟩ := p
    obtain ⟨j1, j2, j3⟩ := s1 _ _ hr
    constructor
    · intro vs h
      rw [unmarshalFrom, hr] at h
      simp only at h
      split at h
      · cases h
      · rename_i hex
        cases h
        refine ⟨j2, fun hn => ⟨(j3 hn).1, _, (j3 hn).2, fun ht => ?_⟩⟩
        have heq : (off1 + e.wb - 1) / e.wb * e.wb = msg.length := by
          by_contra hne
          exact hex ⟨ht, hne⟩
        have := Nat.div_mul_le_self (off1 + e.wb - 1) e.wb
        have := he.1
        have := he.2
        rw [List.length_drop]
        omega
    · intro f h
      rw [unmarshalFrom, hr] at h
      simp only at h
      split at h
      · cases h; exact .inl rfl
      · cases h

/-- C48, what holds for every message: unmarshalling fails with one of the errors that are reported, or
runs over the end of a pointer table because the claimed number of strings, times the size of a
pointer, cannot be computed; when it succeeds and the claimed sizes of the arrays could be computed,
the message starts with exactly the values returned, and consists of nothing else but padding unless more is
allowed. -/
theorem receive_sound_partial {e : Env} (he : EnvOk e) (malloc : Nat → Bool) (trailing : Bool) (methods : List (List Ty))
    (msg : List Byte) (hsz : msg.length + 1 < e.U) :
    (∀ i vs, receive e malloc trailing methods msg = .ok (i, vs) → ∃ ts, methods[i]? = some ts ∧ vs.length = ts.length ∧
      (NoWraps e ts vs → (∀ p ∈ ts.zip vs, Proper e p.1 p.2) ∧
        ∃ rest, msg = wireIndex methods.length i ++ vs.flatMap (wire e) ++ rest ∧ (trailing = false → rest.length < e.wb))) ∧
    (∀ f, receive e malloc trailing methods msg = .error f → f = .invalidMethod ∨ Reported e f) := by
  by_cases hm : methods.length > 1
  · by_cases hx : 0 + indexBytes methods.length ≤ msg.length
    · have heq := unmarshalScalar_eq msg hsz 0 (indexBytes methods.length) (by omega)
      rw [if_pos hx] at heq
      have hlen : ((msg.drop 0).take (indexBytes methods.length)).length = indexBytes methods.length := by
        rw [List.length_take, List.length_drop]; omega
      generalize hb : (msg.drop 0).take (indexBytes methods.length) = b at heq hlen
      cases hts : methods[dec b]? with
      | none =>
        simp only [receive, if_pos hm, heq, hts]
        exact ⟨fun i vs h => (by cases h), fun f h => (by cases h; exact .inl rfl)⟩
      | some ts =>
        obtain ⟨s1, s2⟩ := from_sound he malloc trailing msg hsz ts (indexBytes methods.length) (by omega)
        simp only [receive, if_pos hm, heq, hts]
        cases hr : unmarshalFrom e malloc trailing msg (indexBytes methods.length) ts with
        | error f =>
          exact ⟨fun i vs h => (by cases h), fun f' h => (by cases h; exact .inr (s2 _ hr))⟩
        | ok vs1 =>
          refine ⟨?_, fun f h => (by cases h)⟩
          intro i vs h
          simp only [Except.ok.injEq, Prod.mk.injEq] at h
          obtain ⟨rfl, rfl⟩ := h
          obtain ⟨j1, j2⟩ := s1 _ hr
          refine ⟨ts, hts, j1, fun hn => ⟨(j2 hn).1, ?_⟩⟩
          obtain ⟨rest, hrest, hshort⟩ := (j2 hn).2
          refine ⟨rest, ?_, hshort⟩
          rw [wireIndex, if_pos hm, show enc (indexBytes methods.length) (dec b) = b by rw [← hlen, enc_dec],
            List.append_assoc, ← hrest, ← hb]
          simp
    · have heq := unmarshalScalar_eq msg hsz 0 (indexBytes methods.length) (by omega)
      rw [if_neg hx] at heq
      simp only [receive, if_pos hm, heq]
      exact ⟨fun i vs h => (by cases h), fun f h => (by cases h; exact .inr (.inl rfl))⟩
  · cases hts : methods[0]? with
    | none =>
      simp only [receive, if_neg hm, hts]
      exact ⟨fun i vs h => (by cases h), fun f h => (by cases h; exact .inl rfl)⟩
    | some ts =>
      obtain ⟨s1, s2⟩ := from_sound he malloc trailing msg hsz ts 0 (by omega)
      simp only [receive, if_neg hm, hts]
      cases hr : unmarshalFrom e malloc trailing msg 0 ts with
      | error f =>
        exact ⟨fun i vs h => (by cases h), fun f' h => (by cases h; exact .inr (s2 _ hr))⟩
      | ok vs1 =>
        refine ⟨?_, fun f h => (by cases h)⟩
        intro i vs h
        simp only [Except.ok.injEq, Prod.mk.injEq] at h
        obtain ⟨rfl, rfl⟩ := h
        obtain ⟨j1, j2⟩ := s1 _ hr
        refine ⟨ts, hts, j1, fun hn => ⟨(j2 hn).1, ?_⟩⟩
        obtain ⟨rest, hrest, hshort⟩ := (j2 hn).2
        refine ⟨rest, ?_, hshort⟩
        rw [wireIndex, if_neg hm, List.nil_append, ← hrest]
        simp

/-- The parameters for which no claimed size is too large: everything but arrays of strings and arrays of
elements of more than one byte. -/
def Plain : Ty → Prop
  | .scalar _ => True
  | .string => True
  | .array k => k ≤ 1
  | .strings => False

theorem plain_param {e : Env} (he : EnvOk e) (malloc : Nat → Bool) (msg : List Byte) (hsz : msg.length + 1 < e.U) (off : Nat)
    (hoff : off ≤ msg.length) (t : Ty) (ht : Plain t) :
    (∀ v off', unmarshalParam e malloc msg off t = .ok (v, off') → NoWrap e t v) ∧
    (∀ f, unmarshalParam e malloc msg off t = .error f → f = .malformed ∨ f = .noMemory) := by
  have hW := W_ge he
  cases t with
  | scalar k =>
    refine ⟨fun v off' _ => (by cases v <;> exact trivial), ?_⟩
    simp only [unmarshalParam, unmarshalScalar_eq msg hsz off k hoff]
    by_cases h : off + k ≤ msg.length
    · rw [if_pos h]; intro f h; cases h
    · rw [if_neg h]; intro f h; cases h; exact .inl rfl
  | string =>
    refine ⟨fun v off' _ => (by cases v <;> exact trivial), ?_⟩
    simp only [unmarshalParam]
    rcases unmarshalString_eq he malloc msg hsz off hoff with ⟨_, h2⟩ | ⟨s, r, h1, h2, h3, h4⟩
    · rw [h2]; intro f h; cases h; exact .inl rfl
    · rw [h4]
      by_cases hm : malloc (s.length + 1) = true
      · rw [if_pos hm]; intro f h; cases h
      · rw [if_neg hm]; intro f h; cases h; exact .inr rfl
  | array k =>
    have hk : k ≤ 1 := ht
    simp only [unmarshalParam, unmarshalArray]
    by_cases hx : off + e.wb ≤ msg.length
    · rw [if_neg (by rw [exceeds_iff hoff (by omega)]; omega), copy, if_pos hx, Nat.mod_eq_of_lt (a := off + e.wb) (by omega)]
      simp only
      generalize hc : (msg.drop off).take e.wb = c
      have hcl : c.length = e.wb := by
        rw [← hc, List.length_take, List.length_drop]; omega
      by_cases hm : malloc (k * dec c % e.W) = false
      · rw [if_pos hm]
        exact ⟨fun v off' h => (by cases h), fun f h => (by cases h; exact .inr rfl)⟩
      · rw [if_neg hm]
        by_cases hy : off + e.wb + k * dec c % e.W ≤ msg.length
        · rw [if_neg (by rw [exceeds_iff hx (by omega)]; omega), copy, if_pos hy]
          refine ⟨?_, fun f h => (by cases h)⟩
          intro v off' hv
          simp only [Except.ok.injEq, Prod.mk.injEq] at hv
          obtain ⟨rfl, rfl⟩ := hv
          have := dec_lt c
          rw [hcl] at this
          have h2 : k * dec c ≤ 1 * dec c := Nat.mul_le_mul_right _ hk
          have h3 : e.W = 2 ^ (8 * e.wb) := rfl
          simp only [NoWrap]
          omega
        · rw [if_pos (by rw [exceeds_iff hx (by omega)]; omega)]
          exact ⟨fun v off' h => (by cases h), fun f h => (by cases h; exact .inl rfl)⟩
    · rw [if_pos (by rw [exceeds_iff hoff (by omega)]; omega)]
      exact ⟨fun v off' h => (by cases h), fun f h => (by cases h; exact .inl rfl)⟩
  | strings => cases ht

theorem plain_params {e : Env} (he : EnvOk e) (malloc : Nat → Bool) (msg : List Byte) (hsz : msg.length + 1 < e.U) :
    ∀ (ts : List Ty) (off : Nat), off ≤ msg.length → (∀ t ∈ ts, Plain t) →
    (∀ vs off', unmarshalParams e malloc msg off ts = .ok (vs, off') → NoWraps e ts vs) ∧
    (∀ f, unmarshalParams e malloc msg off ts = .error f → f = .malformed ∨ f = .noMemory) := by
  intro ts
  induction ts with
  | nil =>
    intro off hoff _
    exact ⟨fun vs off' _ p hp => (by simp at hp), fun f h => (by simp [unmarshalParams] at h)⟩
  | cons t ts ih =>
    intro off hoff hpl
    obtain ⟨s1, s2⟩ := plain_param he malloc msg hsz off hoff t (hpl t (by simp))
    obtain ⟨q1, _⟩ := param_sound he malloc msg hsz off hoff t
    cases hp : unmarshalParam e malloc msg off t with
    | error f =>
      constructor
      · intro vs off' h; rw [unmarshalParams, hp] at h; cases h
      · intro f' h; rw [unmarshalParams, hp] at h; cases h; exact s2 _ hp
    | ok p =>
      obtain ⟨v, off1⟩ := p
      obtain ⟨i1, i2⟩ := ih off1 (q1 _ _ hp).1 (fun t ht => hpl t (by simp [ht]))
      cases hr : unmarshalParams e malloc msg off1 ts with
      | error f =>
        constructor
        · intro vs off' h; rw [unmarshalParams, hp] at h; simp only [hr] at h; cases h
        · intro f' h; rw [unmarshalParams, hp] at h; simp only [hr] at h; cases h; exact i2 _ hr
      | ok q =>
        obtain ⟨vs1, off2⟩ := q
        constructor
        · intro vs off' h
          rw [unmarshalParams, hp] at h
          simp only [hr, Except.ok.injEq, Prod.mk.injEq] at h
          obtain ⟨rfl, rfl⟩ := h
          intro p hp'
          simp only [List.zip_cons_cons, List.mem_cons] at hp'
          rcases hp' with rfl | hp'
          · exact s1 _ _ hp
          · exact i1 _ _ hr p hp'
        · intro f h; rw [unmarshalParams, hp] at h; simp only [hr] at h; cases h

/-- C48 in full, for interfaces without arrays of strings or of elements larger than a byte: every
message is refused with an error, or it starts with the values returned. -/
theorem outputs_sound_plain {e : Env} (he : EnvOk e) (malloc : Nat → Bool) (trailing : Bool) (ret : Option Ty) (ts : List Ty)
    (hpl : ∀ t ∈ ret.toList ++ ts, Plain t) (msg : List Byte) (hsz : msg.length + 1 < e.U) :
    unmarshalOutputs e malloc trailing msg ret ts = .error .malformed ∨
    unmarshalOutputs e malloc trailing msg ret ts = .error .noMemory ∨
    ∃ vs rest, unmarshalOutputs e malloc trailing msg ret ts = .ok vs ∧ vs.length = (ret.toList ++ ts).length ∧
      (∀ p ∈ (ret.toList ++ ts).zip vs, Proper e p.1 p.2) ∧ msg = vs.flatMap (wire e) ++ rest ∧
      (trailing = false → rest.length < e.wb) := by
  obtain ⟨s1, s2⟩ := plain_params he malloc msg hsz (ret.toList ++ ts) 0 (by omega) hpl
  obtain ⟨q1, q2⟩ := params_sound he malloc msg hsz (ret.toList ++ ts) 0 (by omega)
  unfold unmarshalOutputs unmarshalFrom
  cases hr : unmarshalParams e malloc msg 0 (ret.toList ++ ts) with
  | error f =>
    rcases s2 _ hr with rfl | rfl
    · exact .inl rfl
    · exact .inr (.inl rfl)
  | ok p =>
    obtain ⟨vs, off⟩ := p
    simp only
    split
    · exact .inl rfl
    · rename_i hex
      obtain ⟨j1, j2, j3⟩ := q1 _ _ hr
      obtain ⟨k1, k2⟩ := j3 (s1 _ _ hr)
      refine .inr (.inr ⟨vs, msg.drop off, rfl, j2, k1, by simpa using k2, fun ht => ?_⟩)
      have heq : (off + e.wb - 1) / e.wb * e.wb = msg.length := by
        by_contra hne
        exact hex ⟨ht, hne⟩
      have := Nat.div_mul_le_self (off + e.wb - 1) e.wb
      have := he.1
      have := he.2
      rw [List.length_drop]
      omega

/-- A machine with words of eight bytes. -/
def machine : Env := ⟨8, 4⟩

theorem machine_ok : EnvOk machine := ⟨by decide, by decide⟩

/-- C48 fails: a message of eight bytes that claims `2^62` integers of four bytes is accepted as an array of
`2^62` elements, although none of them is in the message: `4 * 2^62` is computed as zero. -/
theorem huge_array_accepted : receive machine (fun _ => true) false [[.array 4]] (enc 8 (2 ^ 62)) = .ok (0, [.array (2 ^ 62) []]) := by
  rfl

/-- C48 fails: a message that claims `2^61 + 1` strings and contains two writes the second one after the
end of a table of one pointer. -/
theorem string_table_overrun :
    receive machine (fun _ => true) false [[.strings]] (enc 8 (2 ^ 61 + 1) ++ [65, 0, 66, 0, 0, 0, 0, 0]) = .error (.overrun (2 ^ 61 + 1)) := by
  rw [show (2 : Nat) ^ 61 + 1 = (2 ^ 61 - 1) + 2 by decide]
  rfl

/-! ### There and back -/

theorem unmarshalString_complete {e : Env} (he : EnvOk e) (malloc : Nat → Bool) (msg : List Byte) (hsz : msg.length + 1 < e.U) (off : Nat)
    (hoff : off ≤ msg.length) (s r : List Byte) (hs : 0 ∉ s) (h : msg.drop off = s ++ 0 :: r) :
    unmarshalString e malloc msg off = if malloc (s.length + 1) then .ok (s, off + s.length + 1) else .error .noMemory := by
  rcases unmarshalString_eq he malloc msg hsz off hoff with ⟨h1, _⟩ | ⟨s', r', h1, h2, h3, h4⟩
  · rw [h] at h1; simp at h1
  · have : some s = some s' := by
      rw [← strdup_append s r hs, ← h, h1, strdup_append s' r' h2]
    rw [h4, Option.some.inj this]

theorem drop_more (msg a b : List Byte) (off : Nat) (h : msg.drop off = a ++ b) : msg.drop (off + a.length) = b := by
  rw [← List.drop_drop, h, List.drop_left]

theorem len_of_drop (msg a b : List Byte) (off : Nat) (hoff : off ≤ msg.length) (h : msg.drop off = a ++ b) :
    off + a.length ≤ msg.length := by
  have := congrArg List.length h
  simp only [List.length_drop, List.length_append] at this
  omega

theorem each_complete {e : Env} (he : EnvOk e) (malloc : Nat → Bool) (msg : List Byte) (hsz : msg.length + 1 < e.U) (room count : Nat) :
    ∀ (ss : List (List Byte)) (i off : Nat) (rest : List Byte), off ≤ msg.length → (∀ s ∈ ss, 0 ∉ s) → i + ss.length ≤ room →
    msg.drop off = ss.flatMap (· ++ [0]) ++ rest →
    unmarshalEach e malloc msg room count ss.length i off = .ok (ss, off + (ss.flatMap (· ++ [0])).length) ∨
    (unmarshalEach e malloc msg room count ss.length i off = .error .noMemory ∧ ∃ n, malloc n = false) := by
  intro ss
  induction ss with
  | nil => intro i off rest _ _ _ _; left; rfl
  | cons s ss ih =>
    intro i off rest hoff hs hroom h
    simp only [List.length_cons] at hroom
    rw [List.flatMap_cons, List.append_assoc] at h
    have hle := len_of_drop _ _ _ _ hoff h
    have hd := drop_more _ _ _ _ h
    have hstr := unmarshalString_complete he malloc msg hsz off hoff s (ss.flatMap (· ++ [0]) ++ rest) (hs s (by simp)) (by rw [h]; simp)
    simp only [List.length_append, List.length_singleton] at hle hd
    by_cases hm : malloc (s.length + 1) = true
    · rw [if_pos hm] at hstr
      rcases ih (i + 1) (off + s.length + 1) rest (by omega) (fun s hs' => hs s (by simp [hs'])) (by omega)
        (by rw [← hd]; rfl) with h' | ⟨h', h''⟩
      · left
        rw [List.length_cons, unmarshalEach, hstr]
        simp only
        rw [if_pos (by omega), h']
        simp only [List.flatMap_cons, List.length_append, List.length_singleton]
        congr 2
        omega
      · right
        refine ⟨?_, h''⟩
        rw [List.length_cons, unmarshalEach, hstr]
        simp only
        rw [if_pos (by omega), h']
    · rw [if_neg hm] at hstr
      right
      refine ⟨?_, s.length + 1, by simpa using hm⟩
      rw [List.length_cons, unmarshalEach, hstr]
      simp only [true_and]
      rw [if_neg (by omega)]

theorem param_complete {e : Env} (he : EnvOk e) (malloc : Nat → Bool) (msg : List Byte) (hsz : msg.length + 1 < e.U) (off : Nat)
    (hoff : off ≤ msg.length) (t : Ty) (v : Val) (hp : Proper e t v) (rest : List Byte) (h : msg.drop off = wire e v ++ rest) :
    unmarshalParam e malloc msg off t = .ok (v, off + (wire e v).length) ∨
    (unmarshalParam e malloc msg off t = .error .noMemory ∧ ∃ n, malloc n = false) := by
  have hW := W_ge he
  have hle := len_of_drop _ _ _ _ hoff h
  cases t with
  | scalar k =>
    cases v with
    | scalar b =>
      left
      have hp' : b.length = k := hp
      simp only [wire] at hle h ⊢
      simp only [unmarshalParam, unmarshalScalar_eq msg hsz off k hoff]
      rw [if_pos (by omega), h]
      simp [← hp']
    | _ => cases hp
  | string =>
    cases v with
    | string s =>
      simp only [wire, List.append_assoc] at hle h ⊢
      have := unmarshalString_complete he malloc msg hsz off hoff s rest hp (by rw [h]; simp)
      by_cases hm : malloc (s.length + 1) = true
      · rw [if_pos hm] at this
        left
        simp only [unmarshalParam, this]
        simp only [List.length_append, List.length_singleton]
        rfl
      · rw [if_neg hm] at this
        right
        simp only [unmarshalParam, this]
        exact ⟨trivial, _, by simpa using hm⟩
    | _ => cases hp
  | array k =>
    cases v with
    | array c b =>
      obtain ⟨h1, h2, h3⟩ := hp
      simp only [wire, List.append_assoc, List.length_append, enc_length] at hle h ⊢
      have hc : (msg.drop off).take e.wb = enc e.wb c := by
        rw [h, List.take_left' (enc_length _ _)]
      have hd := drop_more _ _ _ _ h
      rw [enc_length] at hd
      simp only [unmarshalParam, unmarshalArray]
      rw [if_neg (by rw [exceeds_iff hoff (by omega)]; omega), copy, if_pos (by omega), hc,
        Nat.mod_eq_of_lt (a := off + e.wb) (by omega)]
      simp only
      rw [dec_enc e.wb c h3, Nat.mod_eq_of_lt h2]
      by_cases hm : malloc (k * c) = false
      · rw [if_pos hm]
        exact .inr ⟨rfl, _, hm⟩
      · left
        rw [if_neg hm, if_neg (by rw [exceeds_iff (by omega) (by omega)]; omega), copy, if_pos (by omega), hd, ← h1,
          List.take_left, Nat.mod_eq_of_lt (by omega)]
        simp only [Nat.add_assoc]
    | _ => cases hp
  | strings =>
    cases v with
    | strings ss =>
      obtain ⟨h1, h2⟩ := hp
      have hwb : 0 < e.wb := Nat.lt_of_lt_of_le he.1 he.2
      have hlt : ss.length < e.W := by
        have : 1 * ss.length ≤ e.wb * ss.length := Nat.mul_le_mul_right _ hwb
        omega
      simp only [wire, List.append_assoc, List.length_append, enc_length] at hle h ⊢
      have hc : (msg.drop off).take e.wb = enc e.wb ss.length := by
        rw [h, List.take_left' (enc_length _ _)]
      have hd := drop_more _ _ _ _ h
      rw [enc_length] at hd
      simp only [unmarshalParam, unmarshalStrings]
      rw [if_neg (by rw [exceeds_iff hoff (by omega)]; omega), copy, if_pos (by omega), hc,
        Nat.mod_eq_of_lt (a := off + e.wb) (by omega)]
      simp only
      rw [dec_enc e.wb ss.length hlt, Nat.mod_eq_of_lt h2, Nat.mul_div_cancel_left _ hwb]
      by_cases hm : malloc (e.wb * ss.length) = false
      · rw [if_pos hm]
        exact .inr ⟨rfl, _, hm⟩
      · rw [if_neg hm]
        rcases each_complete he malloc msg hsz ss.length ss.length ss 0 (off + e.wb) rest (by omega) h1 (by omega) hd with h' | ⟨h', h''⟩
        · left
          rw [h']
          simp only [Nat.add_assoc]
        · right
          rw [h']
          exact ⟨rfl, h''⟩
    | _ => cases hp

theorem params_complete {e : Env} (he : EnvOk e) (malloc : Nat → Bool) (msg : List Byte) (hsz : msg.length + 1 < e.U) :
    ∀ (ps : List (Ty × Val)) (off : Nat) (rest : List Byte), off ≤ msg.length → (∀ p ∈ ps, Proper e p.1 p.2) →
    msg.drop off = ps.flatMap (fun p => wire e p.2) ++ rest →
    unmarshalParams e malloc msg off (ps.map (·.1)) = .ok (ps.map (·.2), off + (ps.flatMap (fun p => wire e p.2)).length) ∨
    (unmarshalParams e malloc msg off (ps.map (·.1)) = .error .noMemory ∧ ∃ n, malloc n = false) := by
  intro ps
  induction ps with
  | nil => intro off rest _ _ _; left; rfl
  | cons p ps ih =>
    obtain ⟨t, v⟩ := p
    intro off rest hoff hp h
    rw [List.flatMap_cons, List.append_assoc] at h
    simp only at h
    rcases param_complete he malloc msg hsz off hoff t v (hp (t, v) (by simp)) _ h with h' | ⟨h', h''⟩
    · rcases ih (off + (wire e v).length) rest (len_of_drop _ _ _ _ hoff h) (fun p hp' => hp p (by simp [hp']))
        (drop_more _ _ _ _ h) with h1 | ⟨h1, h2⟩
      · left
        simp only [List.map_cons, unmarshalParams, h', h1, List.flatMap_cons, List.length_append, Nat.add_assoc]
      · right
        simp only [List.map_cons, unmarshalParams, h', h1]
        exact ⟨trivial, h2⟩
    · right
      simp only [List.map_cons, unmarshalParams, h']
      exact ⟨trivial, h''⟩

theorem bytesOf_prefix (o : Out) (bytes : List Byte) (n : Nat) (hn : bytes.length ≤ n)
    (h : ∀ i (h : i < bytes.length), o.mem i = bytes[i]) : ∃ rest, bytesOf o n = bytes ++ rest := by
  refine ⟨(bytesOf o n).drop bytes.length, ?_⟩
  conv_lhs => rw [← List.take_append_drop bytes.length (bytesOf o n)]
  congr 1
  apply List.ext_getElem
  · simp [bytesOf]; omega
  · intro i h1 h2
    simp [bytesOf, h i h2]

theorem sentLength_bounds {e : Env} (he : EnvOk e) (trailing : Bool) (size len : Nat) (hsize : e.wb ∣ size) (hlen : len ≤ size) :
    len ≤ sentLength e trailing size len ∧ sentLength e trailing size len ≤ size := by
  have hwb : 0 < e.wb := Nat.lt_of_lt_of_le he.1 he.2
  unfold sentLength
  cases trailing with
  | true => exact ⟨hlen, Nat.le_refl _⟩
  | false =>
    simp only [Bool.false_eq_true, if_false]
    obtain ⟨q, rfl⟩ := hsize
    have h1 := Nat.div_add_mod (len + e.wb - 1) e.wb
    have h2 := Nat.mod_lt (len + e.wb - 1) hwb
    have h4 : (len + e.wb - 1) / e.wb * e.wb = e.wb * ((len + e.wb - 1) / e.wb) := Nat.mul_comm _ _
    have h3 : (len + e.wb - 1) / e.wb ≤ q := by
      rw [← Nat.lt_succ_iff, Nat.div_lt_iff_lt_mul hwb, Nat.succ_mul, Nat.mul_comm]
      omega
    have h5 : e.wb * ((len + e.wb - 1) / e.wb) ≤ e.wb * q := Nat.mul_le_mul_left _ h3
    omega

theorem from_complete {e : Env} (he : EnvOk e) (malloc : Nat → Bool) (trailing : Bool) (pre : List Byte) (ps : List (Ty × Val))
    (hp : ∀ p ∈ ps, Proper e p.1 p.2) (size : Nat) (hsz : size + 1 < e.U) (hdvd : e.wb ∣ size) (o : Out)
    (hlen : (pre ++ ps.flatMap (fun p => wire e p.2)).length ≤ size)
    (hmem : ∀ i (h : i < (pre ++ ps.flatMap (fun p => wire e p.2)).length), o.mem i = (pre ++ ps.flatMap (fun p => wire e p.2))[i]) :
    let msg := bytesOf o (sentLength e trailing size (pre ++ ps.flatMap (fun p => wire e p.2)).length)
    unmarshalFrom e malloc trailing msg pre.length (ps.map (·.1)) = .ok (ps.map (·.2)) ∨
    (unmarshalFrom e malloc trailing msg pre.length (ps.map (·.1)) = .error .noMemory ∧ ∃ n, malloc n = false) := by
  intro msg
  obtain ⟨b1, b2⟩ := sentLength_bounds he trailing size _ hdvd hlen
  obtain ⟨rest, hrest⟩ := bytesOf_prefix o _ _ b1 hmem
  have hml : msg.length = sentLength e trailing size (pre ++ ps.flatMap (fun p => wire e p.2)).length := by
    simp [msg, bytesOf]
  have hmsg : msg = pre ++ (ps.flatMap (fun p => wire e p.2) ++ rest) := by
    rw [← List.append_assoc]; exact hrest
  have hdrop : msg.drop pre.length = ps.flatMap (fun p => wire e p.2) ++ rest := by
    rw [hmsg, List.drop_left]
  have b3 : pre.length ≤ msg.length := by
    rw [hmsg, List.length_append]; omega
  rcases params_complete he malloc msg (by omega) ps pre.length rest b3 hp hdrop with h | ⟨h, h'⟩
  · left
    rw [unmarshalFrom, h]
    simp only
    rw [if_neg]
    rintro ⟨ht, hx⟩
    subst ht
    apply hx
    rw [hml, sentLength, List.length_append]
    simp
  · right
    rw [unmarshalFrom, h]
    exact ⟨rfl, h'⟩

theorem index_fits (methods : List α) (hmax : methods.length ≤ 2 ^ 64) (i : Nat) (hi : i < methods.length) :
    i < 2 ^ (8 * indexBytes methods.length) := by
  unfold indexBytes Macros.typeToFit
  by_cases h1 : methods.length > 1
  · rw [if_pos h1]
    by_cases h8 : methods.length ≤ 2 ^ 8
    · rw [if_pos h8]; exact Nat.lt_of_lt_of_le hi h8
    · rw [if_neg h8]
      by_cases h16 : methods.length ≤ 2 ^ 16
      · rw [if_pos h16]; exact Nat.lt_of_lt_of_le hi h16
      · rw [if_neg h16]
        by_cases h32 : methods.length ≤ 2 ^ 32
        · rw [if_pos h32]; exact Nat.lt_of_lt_of_le hi h32
        · rw [if_neg h32, if_pos hmax]; exact Nat.lt_of_lt_of_le hi hmax
  · rw [if_neg h1]
    simp
    omega

/-- C47: what the client marshals as the inputs of a method is what the server unmarshals, provided that
the server can allocate the memory for it: through the kernel's IPC buffer, where the bytes are sent as
words, and through a shared buffer, where the rest of the buffer is seen too. -/
theorem inputs_round_trip {e : Env} (he : EnvOk e) (malloc : Nat → Bool) (trailing : Bool) (methods : List (List Ty))
    (hmax : methods.length ≤ 2 ^ 64) (index : Nat) (ps : List (Ty × Val)) (hi : methods[index]? = some (ps.map (·.1)))
    (hp : ∀ p ∈ ps, Proper e p.1 p.2) (size : Nat) (hsz : size + 1 < e.U) (hdvd : e.wb ∣ size) (o o' : Out) (len : Nat)
    (hsend : marshalInputs e methods.length index size o ps = .ok (o', len)) :
    receive e malloc trailing methods (bytesOf o' (sentLength e trailing size len)) = .ok (index, ps.map (·.2)) ∨
    (receive e malloc trailing methods (bytesOf o' (sentLength e trailing size len)) = .error .noMemory ∧ ∃ n, malloc n = false) := by
  obtain ⟨s1, s2⟩ := marshalInputs_spec he methods.length index size hsz o ps hp
  have hfit : (wireIndex methods.length index ++ ps.flatMap (fun p => wire e p.2)).length ≤ size := by
    by_contra hgt
    obtain ⟨o'', h, _⟩ := s2 (by omega)
    rw [h] at hsend
    cases hsend
  obtain ⟨o'', h, hmem, _⟩ := s1 hfit
  rw [h] at hsend
  cases hsend
  obtain ⟨hlt, -⟩ := List.getElem?_eq_some_iff.mp hi
  have hc := from_complete he malloc trailing (wireIndex methods.length index) ps hp size hsz hdvd o' hfit hmem
  obtain ⟨b1, b2⟩ := sentLength_bounds he trailing size _ hdvd hfit
  obtain ⟨rest, hrest⟩ := bytesOf_prefix o' _ _ b1 hmem
  have hml : (bytesOf o' (sentLength e trailing size (wireIndex methods.length index ++ ps.flatMap (fun p => wire e p.2)).length)).length ≤ size := by
    simpa [bytesOf] using b2
  unfold receive
  generalize bytesOf o' (sentLength e trailing size (wireIndex methods.length index ++ ps.flatMap (fun p => wire e p.2)).length) = msg at hc hrest hml ⊢
  simp only at hc
  by_cases hm : methods.length > 1
  · rw [if_pos hm]
    rw [wireIndex, if_pos hm] at hc hrest
    rw [enc_length] at hc
    have hx : 0 + indexBytes methods.length ≤ msg.length := by
      rw [hrest]
      simp only [List.length_append, enc_length]
      omega
    rw [unmarshalScalar_eq msg (by omega) 0 _ (by omega), if_pos hx]
    have hb : (msg.drop 0).take (indexBytes methods.length) = enc (indexBytes methods.length) index := by
      rw [List.drop_zero, hrest, List.append_assoc, List.take_left' (enc_length _ _)]
    simp only [hb, dec_enc _ index (index_fits methods hmax index hlt), hi]
    rcases hc with hc | ⟨hc, hc'⟩
    · left; rw [hc]
    · right; rw [hc]; exact ⟨rfl, hc'⟩
  · rw [if_neg hm]
    have h0 : index = 0 := by omega
    subst h0
    rw [wireIndex, if_neg hm] at hc
    simp only [hi]
    rcases hc with hc | ⟨hc, hc'⟩
    · left; rw [List.length_nil] at hc; rw [hc]
    · right; rw [List.length_nil] at hc; rw [hc]; exact ⟨rfl, hc'⟩

/-- C47: the same for the return value and the outputs, from the server to the client. -/
theorem outputs_round_trip {e : Env} (he : EnvOk e) (malloc : Nat → Bool) (trailing : Bool) (ret : Option (Ty × Val))
    (ps : List (Ty × Val)) (hp : ∀ p ∈ ret.toList ++ ps, Proper e p.1 p.2) (size : Nat) (hsz : size + 1 < e.U) (hdvd : e.wb ∣ size)
    (o o' : Out) (len : Nat) (hsend : marshalOutputs e size o ret ps = .ok (o', len)) :
    let msg := bytesOf o' (sentLength e trailing size len)
    unmarshalOutputs e malloc trailing msg (ret.map (·.1)) (ps.map (·.1)) = .ok ((ret.toList ++ ps).map (·.2)) ∨
    (unmarshalOutputs e malloc trailing msg (ret.map (·.1)) (ps.map (·.1)) = .error .noMemory ∧ ∃ n, malloc n = false) := by
  obtain ⟨s1, s2⟩ := marshalOutputs_spec he size hsz o ret ps hp
  have hfit : ((ret.toList ++ ps).flatMap (fun p => wire e p.2)).length ≤ size := by
    by_contra hgt
    obtain ⟨o'', h, _⟩ := s2 (by omega)
    rw [h] at hsend
    cases hsend
  obtain ⟨o'', h, hmem, _⟩ := s1 hfit
  rw [h] at hsend
  cases hsend
  have hc := from_complete he malloc trailing [] (ret.toList ++ ps) hp size hsz hdvd o' (by simpa using hfit) (by simpa using hmem)
  have hts : (ret.toList ++ ps).map (·.1) = (ret.map (·.1)).toList ++ ps.map (·.1) := by
    cases ret <;> simp
  rw [hts] at hc
  exact hc

/-! ### Examples -/

/-- A method with a number, a string, an array of numbers and two strings. -/
def demoParams : List (Ty × Val) :=
  [(.scalar 4, .scalar [1, 2, 3, 4]), (.string, .string [104, 105]), (.array 2, .array 2 [1, 0, 2, 0]), (.strings, .strings [[65], []])]

theorem demo_proper : ∀ p ∈ demoParams, Proper machine p.1 p.2 := by
  intro p hp
  simp only [demoParams, List.mem_cons, List.not_mem_nil, or_false] at hp
  rcases hp with rfl | rfl | rfl | rfl
  · rfl
  · show (0 : Byte) ∉ [104, 105]
    decide
  · exact ⟨rfl, by decide, by decide⟩
  · exact ⟨by decide, by decide⟩

/-- The message takes 31 bytes; a buffer of 24 bytes is too small. -/
example : (wireIndex 3 1 ++ demoParams.flatMap (fun p => wire machine p.2)).length = 31 ∧
    (∃ o', marshalInputs machine 3 1 40 ⟨fun _ => 0, 0⟩ demoParams = .ok (o', 31)) ∧
    (∃ o', marshalInputs machine 3 1 24 ⟨fun _ => 0, 0⟩ demoParams = .error o' ∧ o'.top ≤ 24) := by
  obtain ⟨h1, -⟩ := marshalInputs_spec machine_ok 3 1 40 (by decide) ⟨fun _ => 0, 0⟩ demoParams demo_proper
  obtain ⟨-, h2⟩ := marshalInputs_spec machine_ok 3 1 24 (by decide) ⟨fun _ => 0, 0⟩ demoParams demo_proper
  refine ⟨by decide, ?_, ?_⟩
  · obtain ⟨o', h, _⟩ := h1 (by decide)
    exact ⟨o', h⟩
  · obtain ⟨o', h, h'⟩ := h2 (by decide)
    exact ⟨o', h, h'⟩

/-- A round trip. -/
example : ∃ o' len, marshalInputs machine 3 1 40 ⟨fun _ => 7, 0⟩ demoParams = .ok (o', len) ∧
    receive machine (fun _ => true) false [[], demoParams.map (·.1), []] (bytesOf o' (sentLength machine false 40 len))
      = .ok (1, demoParams.map (·.2)) := by
  obtain ⟨h1, -⟩ := marshalInputs_spec machine_ok 3 1 40 (by decide) ⟨fun _ => 7, 0⟩ demoParams demo_proper
  obtain ⟨o', h, _⟩ := h1 (by decide)
  refine ⟨o', _, h, ?_⟩
  rcases inputs_round_trip machine_ok (fun _ => true) false [[], demoParams.map (·.1), []] (by decide) 1 demoParams rfl demo_proper 40
    (by decide) (by decide) _ _ _ h with h | ⟨_, n, hn⟩
  · exact h
  · cases hn

/-- A message that is cut short, and one with an unknown method. -/
example : receive machine (fun _ => true) false [[], [.scalar 4]] [1, 9, 9] = .error .malformed ∧
    receive machine (fun _ => true) false [[], [.scalar 4]] [2, 0, 0, 0, 0, 0, 0, 0] = .error .invalidMethod ∧
    receive machine (fun _ => true) false [[], [.scalar 4]] [1, 9, 8, 7, 6, 0, 0, 0] = .ok (1, [.scalar [9, 8, 7, 6]]) := by
  exact ⟨rfl, rfl, rfl⟩

end Verif.Marshal
