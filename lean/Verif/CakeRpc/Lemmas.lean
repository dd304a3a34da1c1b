import Verif.CakeRpc.Spec
import Verif.Marshal.Props
import Mathlib.Tactic.Ring

/-!
# Lemmas
-/

namespace Verif.CakeRpc

open Marshal (Byte enc dec)

/-! ### Arrays -/

/-- The array after the bytes have been written. -/
def over (b : Buf) (off : Nat) (bytes : List Byte) : Buf := b.take off ++ bytes ++ b.drop (off + bytes.length)

theorem over_length {b : Buf} {off : Nat} {bytes : List Byte} (h : off + bytes.length ≤ b.length) :
    (over b off bytes).length = b.length := by
  simp only [over, List.length_append, List.length_take, List.length_drop]
  omega

theorem put_ok (err : Stop) {b : Buf} {off : Nat} {bytes : List Byte} (h : off + bytes.length ≤ b.length) :
    put err b off bytes = .ok (over b off bytes) := by
  unfold put; rw [if_pos h]; rfl

theorem put_length {err : Stop} {b b' : Buf} {off : Nat} {bytes : List Byte} (h : put err b off bytes = .ok b') :
    b'.length = b.length ∧ off + bytes.length ≤ b.length ∧ b' = over b off bytes := by
  unfold put at h
  by_cases hl : off + bytes.length ≤ b.length
  · rw [if_pos hl] at h
    cases h
    exact ⟨over_length hl, hl, rfl⟩
  · rw [if_neg hl] at h; cases h

theorem over_drop {b : Buf} {off : Nat} {bytes : List Byte} (h : off ≤ b.length) :
    (over b off bytes).drop off = bytes ++ b.drop (off + bytes.length) := by
  unfold over
  rw [List.append_assoc, List.drop_left' (by simp; omega)]

theorem over_take {b : Buf} {off : Nat} {bytes : List Byte} (h : off ≤ b.length) :
    (over b off bytes).take off = b.take off := by
  unfold over
  rw [List.append_assoc, List.take_left' (by simp; omega)]

/-- Two things one after the other. -/
theorem over_over {b : Buf} {off : Nat} {x y : List Byte} (h : off + x.length ≤ b.length) :
    over (over b off x) (off + x.length) y = over b off (x ++ y) := by
  unfold over
  have h1 : (b.take off ++ x ++ b.drop (off + x.length)).take (off + x.length) = b.take off ++ x := by
    apply List.take_left'
    simp; omega
  have h2 : (b.take off ++ x ++ b.drop (off + x.length)).drop (off + x.length + y.length) =
      b.drop (off + (x ++ y).length) := by
    rw [← List.drop_drop, List.drop_left' (by simp; omega), List.drop_drop, List.length_append]
    congr 1
    omega
  rw [h1, h2]
  simp

/-- Writing before a place does not change what comes after. -/
theorem over_drop_after {b : Buf} {off k : Nat} {bytes : List Byte} (h : off + bytes.length ≤ k) (hk : off + bytes.length ≤ b.length) :
    (over b off bytes).drop k = b.drop k := by
  unfold over
  obtain ⟨d, rfl⟩ := Nat.exists_eq_add_of_le h
  rw [← List.drop_drop, List.drop_left' (by simp; omega), List.drop_drop]

/-! ### Numbers -/

theorem dec_append (x y : List Byte) : dec (x ++ y) = dec x + 256 ^ x.length * dec y := by
  induction x with
  | nil => simp [dec]
  | cons a x ih =>
    simp only [List.cons_append, dec, ih, List.length_cons, Nat.pow_succ]
    ring

theorem intLoop_eq (w : Nat) : ∀ (n k : Nat), intLoop (w : Int) n ((256 : Int) ^ k) = enc n (w / 256 ^ k) := by
  intro n
  induction n with
  | zero => intro k; rfl
  | succ n ih =>
    intro k
    simp only [intLoop, enc]
    have h1 : ((256 : Int) ^ k * 256) = (256 : Int) ^ (k + 1) := (pow_succ _ _).symm
    rw [h1, ih (k + 1)]
    have h2 : w / 256 ^ (k + 1) = w / 256 ^ k / 256 := by rw [Nat.pow_succ, Nat.div_div_eq_div_mul]
    rw [h2]
    congr 1

theorem intToBytes_nat (w n : Nat) : intToBytes (w : Int) n = enc n w := by
  have := intLoop_eq w n 0
  simpa [intToBytes] using this

theorem intLoop_length (w : Int) : ∀ (n : Nat) (d : Int), (intLoop w n d).length = n
  | 0, _ => rfl
  | n + 1, d => by simp [intLoop, intLoop_length w n]

theorem intToBytes_length (w : Int) (n : Nat) : (intToBytes w n).length = n := intLoop_length w n 1

theorem bytesLoop_eq (b : Buf) (off : Nat) : ∀ (n acc : Nat), off + n ≤ b.length →
    bytesLoop b off n acc = .ok (acc * 256 ^ n + dec ((b.drop off).take n)) := by
  intro n
  induction n with
  | zero => intro acc _; simp [bytesLoop, dec]
  | succ n ih =>
    intro acc h
    have hlt : off + n < b.length := by omega
    have hx : (b.drop off).take (n + 1) = (b.drop off).take n ++ [b[off + n]] := by
      rw [List.take_add_one]
      congr 1
      rw [List.getElem?_drop, List.getElem?_eq_getElem hlt]
      rfl
    rw [bytesLoop, List.getElem?_eq_getElem hlt]
    simp only
    rw [ih _ (by omega), hx, dec_append]
    have hl : ((b.drop off).take n).length = n := by simp; omega
    rw [hl]
    simp only [dec]
    congr 1
    rw [Nat.pow_succ]
    ring

theorem bytesToInt_eq {b : Buf} {off n : Nat} (h : off + n ≤ b.length) :
    bytesToInt b off n = .ok (dec ((b.drop off).take n)) := by
  unfold bytesToInt
  rw [bytesLoop_eq b off n 0 h]
  simp

theorem bytesLoop_fail (b : Buf) (off : Nat) : ∀ (n acc : Nat) (e : Stop), bytesLoop b off n acc = .error e → e = .subscript := by
  intro n
  induction n with
  | zero => intro acc e h; simp [bytesLoop] at h
  | succ n ih =>
    intro acc e h
    rw [bytesLoop] at h
    cases hb : b[off + n]? with
    | none => rw [hb] at h; simp only [Except.error.injEq] at h; exact h.symm
    | some x => rw [hb] at h; exact ih _ _ h

/-- What is at a place of an array. -/
theorem bytesToInt_at {b : Buf} {off : Nat} {x r : List Byte} (h : b.drop off = x ++ r) (hx : x ≠ []) :
    bytesToInt b off x.length = .ok (dec x) := by
  have hl := congrArg List.length h
  have : 0 < x.length := List.length_pos_iff.mpr hx
  simp only [List.length_drop, List.length_append] at hl
  rw [bytesToInt_eq (by omega), h, List.take_left]

/-! ### Strings -/

theorem nulIdx_at (b : Buf) : ∀ (s r : List Byte) (i fuel : Nat), b.drop i = s ++ 0 :: r → 0 ∉ s → s.length < fuel →
    nulIdx b b.length fuel i = .ok (i + s.length) := by
  intro s
  induction s with
  | nil =>
    intro r i fuel h _ hf
    obtain ⟨f, rfl⟩ : ∃ f, fuel = f + 1 := ⟨fuel - 1, by simp at hf; omega⟩
    have hl := congrArg List.length h
    simp only [List.length_drop, List.nil_append, List.length_cons] at hl
    rw [nulIdx, if_neg (by omega)]
    have h0 : b[i]? = some 0 := by
      have := congrArg (fun l => l[0]?) h
      simpa using this
    rw [h0]
    simp
  | cons a s ih =>
    intro r i fuel h hn hf
    obtain ⟨f, rfl⟩ : ∃ f, fuel = f + 1 := ⟨fuel - 1, by simp at hf; omega⟩
    have hl := congrArg List.length h
    simp only [List.length_drop, List.length_append, List.length_cons] at hl
    rw [nulIdx, if_neg (by omega)]
    have h0 : b[i]? = some a := by
      have := congrArg (fun l => l[0]?) h
      simpa using this
    rw [h0]
    simp only [List.mem_cons, not_or] at hn
    simp only
    rw [if_neg (Ne.symm hn.1)]
    have h1 : b.drop (i + 1) = s ++ 0 :: r := by
      rw [← List.drop_drop, h]; rfl
    rw [ih r (i + 1) f h1 hn.2 (by simp only [List.length_cons] at hf; omega)]
    simp only [List.length_cons]
    congr 1
    omega

theorem readCString_at {b : Buf} {off : Nat} {s r : List Byte} (h : b.drop off = s ++ 0 :: r) (hn : 0 ∉ s) :
    readCString b off b.length = .ok (s, s.length) := by
  have hl := congrArg List.length h
  simp only [List.length_drop, List.length_append, List.length_cons] at hl
  unfold readCString
  rw [nulIdx_at b s r off (b.length + 2) h hn (by omega)]
  simp only [Nat.add_sub_cancel_left]
  rw [h, List.take_left]

theorem nulIdx_fail (b : Buf) (len : Nat) : ∀ (fuel i : Nat) (e : Stop), nulIdx b len fuel i = .error e → e = .subscript := by
  intro fuel
  induction fuel with
  | zero => intro i e h; simp only [nulIdx, Except.error.injEq] at h; exact h.symm
  | succ f ih =>
    intro i e h
    rw [nulIdx] at h
    split at h
    · cases h
    · split at h
      · cases h; rfl
      · split at h
        · cases h
        · exact ih _ _ h

/-! ### Inputs -/

theorem unmarshalAll_at (b : Buf) (ws : Nat) : ∀ (ps : List (Ty × Val)) (off : Nat) (r : List Byte),
    (∀ p ∈ ps, Fits p.1 p.2) → off ≤ b.length →
    b.drop off = (inC ps).flatMap (fun p => Marshal.wire (client ws) p.2) ++ r →
    unmarshalAll b off (ps.map (·.1)) = .ok (ps.map (·.2)) := by
  intro ps
  induction ps with
  | nil => intro off r _ _ _; rfl
  | cons p ps ih =>
    obtain ⟨t, v⟩ := p
    intro off r hf hoff h
    have hfit := hf (t, v) (by simp)
    simp only [inC, List.map_cons, List.flatMap_cons, List.append_assoc] at h
    simp only [List.map_cons, unmarshalAll]
    cases t with
    | int sz =>
      cases v with
      | string s => cases hfit
      | int n =>
        simp only [Fits] at hfit
        have h : b.drop off = enc sz n.toNat ++ ((inC ps).flatMap (fun p => Marshal.wire (client ws) p.2) ++ r) := h
        have hlen := Marshal.enc_length sz n.toNat
        have hd : dec (enc sz n.toNat) = n.toNat := by
          apply Marshal.dec_enc
          have h1 : ((n.toNat : Nat) : Int) < ((2 ^ (8 * sz) : Nat) : Int) := by
            rw [Int.toNat_of_nonneg hfit.1]
            push_cast
            exact hfit.2
          exact Int.ofNat_lt.mp h1
        have hr : bytesToInt b off sz = .ok n.toNat := by
          have hl := congrArg List.length h
          simp only [List.length_drop, List.length_append, hlen] at hl
          rw [bytesToInt_eq (by omega), h, List.take_left' hlen, hd]
        simp only [unmarshal, hr]
        have h2 : b.drop (off + sz) = (inC ps).flatMap (fun p => Marshal.wire (client ws) p.2) ++ r := by
          rw [← List.drop_drop, h, List.drop_left' hlen]
        have hl := congrArg List.length h
        simp only [List.length_drop, List.length_append, hlen] at hl
        rw [ih (off + sz) r (fun p hp => hf p (by simp [hp])) (by omega) h2]
        simp only [Int.toNat_of_nonneg hfit.1]
    | string =>
      cases v with
      | int n => cases hfit
      | string s =>
        simp only [Fits] at hfit
        have h : b.drop off = s ++ 0 :: ((inC ps).flatMap (fun p => Marshal.wire (client ws) p.2) ++ r) := by
          rw [h, show Marshal.wire (client ws) (Val.c Ty.string (Val.string s)) = s ++ [0] from rfl, List.append_assoc]
          rfl
        simp only [unmarshal, readCString_at h hfit]
        have h2 : b.drop (off + s.length + 1) = (inC ps).flatMap (fun p => Marshal.wire (client ws) p.2) ++ r := by
          rw [show off + s.length + 1 = off + (s.length + 1) by omega, ← List.drop_drop, h]
          rw [show ∀ x : List Byte, s ++ 0 :: x = (s ++ [0]) ++ x by simp, List.drop_left' (by simp)]
        have hl := congrArg List.length h
        simp only [List.length_drop, List.length_append, List.length_cons] at hl
        rw [ih (off + s.length + 1) r (fun p hp => hf p (by simp [hp])) (by omega) h2]

/-! ### Results -/

/-- The bytes of results that C can represent. -/
theorem marshalAll_fits (ws : Nat) : ∀ (ps : List (Ty × Val)) (b : Buf) (off : Nat), (∀ p ∈ ps, Fits p.1 p.2) →
    off + ((inC ps).flatMap (fun p => Marshal.wire (client ws) p.2)).length ≤ b.length →
    marshalAll b off ps = .ok (over b off ((inC ps).flatMap (fun p => Marshal.wire (client ws) p.2)),
      off + ((inC ps).flatMap (fun p => Marshal.wire (client ws) p.2)).length) := by
  intro ps
  induction ps with
  | nil =>
    intro b off _ _
    simp [marshalAll, inC, over]
  | cons p ps ih =>
    obtain ⟨t, v⟩ := p
    intro b off hf hl
    have hfit := hf (t, v) (by simp)
    have hsplit : (inC ((t, v) :: ps)).flatMap (fun p => Marshal.wire (client ws) p.2) =
        Marshal.wire (client ws) (v.c t) ++ (inC ps).flatMap (fun p => Marshal.wire (client ws) p.2) := by
      simp [inC]
    rw [hsplit] at hl ⊢
    rw [List.length_append] at hl ⊢
    have hone : marshal b off v t = .ok (over b off (Marshal.wire (client ws) (v.c t)),
        off + (Marshal.wire (client ws) (v.c t)).length) := by
      cases t with
      | int sz =>
        cases v with
        | string s => cases hfit
        | int n =>
          simp only [Fits] at hfit
          have hn : intToBytes n sz = enc sz n.toNat := by
            conv_lhs => rw [← Int.toNat_of_nonneg hfit.1]
            exact intToBytes_nat _ _
          simp only [Val.c, Marshal.wire] at hl ⊢
          have hle := Marshal.enc_length sz n.toNat
          simp only [marshal, hn]
          rw [put_ok _ (by omega)]
          simp only [hle]
      | string =>
        cases v with
        | int n => cases hfit
        | string s =>
          simp only [Val.c, Marshal.wire] at hl ⊢
          simp only [List.length_append, List.length_singleton] at hl ⊢
          simp only [marshal]
          rw [if_neg (by omega), if_pos (by omega), List.take_length, put_ok _ (by omega)]
          simp only
          rw [put_ok _ (by rw [over_length (by omega)]; simp only [List.length_singleton]; omega), over_over (by omega)]
          simp only [Nat.add_assoc]
    rw [marshalAll, hone]
    simp only
    rw [ih _ _ (fun p hp => hf p (by simp [hp])) (by rw [over_length (by omega)]; omega), over_over (by omega)]
    simp only [Nat.add_assoc]

/-- Whatever is marshalled, the array keeps its length and the offset stays in it. -/
theorem marshalAll_length : ∀ (ps : List (Ty × Val)) (b b' : Buf) (off off' : Nat),
    marshalAll b off ps = .ok (b', off') → off ≤ b.length → b'.length = b.length ∧ off ≤ off' ∧ off' ≤ b.length := by
  intro ps
  induction ps with
  | nil =>
    intro b b' off off' h ho
    simp only [marshalAll, Except.ok.injEq, Prod.mk.injEq] at h
    obtain ⟨rfl, rfl⟩ := h
    exact ⟨rfl, Nat.le_refl _, ho⟩
  | cons p ps ih =>
    obtain ⟨t, v⟩ := p
    intro b b' off off' h ho
    rw [marshalAll] at h
    cases hm : marshal b off v t with
    | error e => rw [hm] at h; cases h
    | ok q =>
      obtain ⟨b1, off1⟩ := q
      rw [hm] at h
      simp only at h
      have hone : b1.length = b.length ∧ off ≤ off1 ∧ off1 ≤ b.length := by
        cases t with
        | int sz =>
          cases v with
          | string s => simp [marshal] at hm
          | int n =>
            simp only [marshal] at hm
            cases hp : put .subscript b off (intToBytes n sz) with
            | error e => rw [hp] at hm; cases hm
            | ok b2 =>
              rw [hp] at hm
              simp only [Except.ok.injEq, Prod.mk.injEq] at hm
              obtain ⟨rfl, rfl⟩ := hm
              obtain ⟨p1, p2, _⟩ := put_length hp
              rw [intToBytes_length] at p2
              exact ⟨p1, by omega, p2⟩
        | string =>
          cases v with
          | int n => simp [marshal] at hm
          | string s =>
            simp only [marshal] at hm
            split at hm
            · cases hm
            · generalize (if s.length ≤ b.length - off - 1 then s.length else b.length - off - 1) = n at hm
              cases hp : put .subscript b off (s.take n) with
              | error e => rw [hp] at hm; cases hm
              | ok b2 =>
                rw [hp] at hm
                simp only at hm
                cases hq : put .subscript b2 (off + n) [0] with
                | error e => rw [hq] at hm; cases hm
                | ok b3 =>
                  rw [hq] at hm
                  simp only [Except.ok.injEq, Prod.mk.injEq] at hm
                  obtain ⟨rfl, rfl⟩ := hm
                  obtain ⟨p1, _, _⟩ := put_length hp
                  obtain ⟨q1, q2, _⟩ := put_length hq
                  simp only [List.length_singleton] at q2
                  exact ⟨by omega, by omega, by omega⟩
      obtain ⟨r1, r2, r3⟩ := ih _ _ _ _ h (by omega)
      exact ⟨by omega, by omega, by omega⟩

/-! ### Receiving -/

theorem recv_ok {ws : Nat} (b : Buf) (ep : Int) (msg : List Byte) (badge : Nat) (hb : b.length = bsize ws) (hw : WordSize ws)
    (hm : msg.length ≤ 120 * ws) (hbadge : badge < 2 ^ (8 * ws)) :
    ∃ b' r, recv ws b ep msg badge = .ok (b', msg.length, badge) ∧ b'.length = bsize ws ∧ b'.drop (reserved ws) = msg ++ r := by
  have hl1 := intToBytes_length ep ws
  have hll := Marshal.enc_length ws msg.length
  have hlb := Marshal.enc_length ws badge
  unfold recv
  rw [put_ok _ (by rw [hl1, hb]; unfold bsize; omega)]
  simp only
  have h1 := over_length (b := b) (off := 1) (bytes := intToBytes ep ws) (by rw [hl1, hb]; unfold bsize; omega)
  generalize over b 1 (intToBytes ep ws) = b1 at h1 ⊢
  have hx : 0 + (0 :: (enc ws msg.length ++ enc ws badge ++ msg)).length ≤ b1.length := by
    simp only [List.length_cons, List.length_append, hll, hlb, h1, hb]
    unfold bsize
    omega
  rw [put_ok _ hx]
  simp only
  have h2 := over_length hx
  have hd0 := over_drop (b := b1) (off := 0) (bytes := 0 :: (enc ws msg.length ++ enc ws badge ++ msg)) (by omega)
  rw [List.drop_zero] at hd0
  generalize hr : b1.drop (0 + (0 :: (enc ws msg.length ++ enc ws badge ++ msg)).length) = r at hd0
  generalize over b1 0 (0 :: (enc ws msg.length ++ enc ws badge ++ msg)) = b2 at h2 hd0 ⊢
  have hd1 : b2.drop 1 = enc ws msg.length ++ (enc ws badge ++ msg ++ r) := by
    rw [hd0]; simp
  have hd2 : b2.drop (1 + ws) = enc ws badge ++ (msg ++ r) := by
    rw [← List.drop_drop, hd1, List.drop_left' hll]; simp
  have hd3 : b2.drop (reserved ws) = msg ++ r := by
    rw [show reserved ws = (1 + ws) + ws by unfold reserved; omega, ← List.drop_drop, hd2, List.drop_left' hlb]
  have hlen : b2.length = bsize ws := by omega
  have e1 : bytesToInt b2 1 ws = .ok msg.length := by
    rw [bytesToInt_eq (by rw [hlen]; unfold bsize; omega), hd1, List.take_left' hll, Marshal.dec_enc]
    rcases hw with rfl | rfl
    · exact Nat.lt_of_le_of_lt hm (by decide)
    · exact Nat.lt_of_le_of_lt hm (by decide)
  have e2 : bytesToInt b2 (1 + ws) ws = .ok badge := by
    rw [bytesToInt_eq (by rw [hlen]; unfold bsize; omega), hd2, List.take_left' hlb, Marshal.dec_enc _ _ hbadge]
  rw [e1]
  simp only
  rw [e2]
  exact ⟨b2, r, rfl, hlen, hd3⟩

/-! ### Sending -/

/-- What is sent. -/
theorem send_ok {ws : Nat} (b : Buf) (ep : Int) (n : Nat) (ipc : Nat → Byte) (hb : b.length = bsize ws) (hw : WordSize ws)
    (hn : n ≤ 120 * ws) :
    ∃ b', send ws b ep (n : Int) ipc = .ok (b', (List.range ((n + ws - 1) / ws * ws)).map
        (Marshal.memcpy ⟨ipc, 0⟩ 0 ((b.drop (reserved ws)).take n)).mem) ∧ b'.length = bsize ws := by
  have hl1 := intToBytes_length ep ws
  have hl2 := Marshal.enc_length ws n
  unfold send
  have hx : 1 + (intToBytes ep ws).length ≤ b.length := by rw [hl1, hb]; unfold bsize; omega
  rw [put_ok _ hx, intToBytes_nat]
  simp only
  have h1 := over_length hx
  have hd1 := over_drop_after (b := b) (off := 1) (k := reserved ws) (bytes := intToBytes ep ws) (by rw [hl1]; unfold reserved; omega) hx
  generalize over b 1 (intToBytes ep ws) = b1 at h1 hd1 ⊢
  have hy : 1 + ws + (enc ws n).length ≤ b1.length := by rw [hl2, h1, hb]; unfold bsize; omega
  rw [put_ok _ hy]
  simp only
  have h2 := over_length hy
  have hd2 := over_drop_after (b := b1) (off := 1 + ws) (k := reserved ws) (bytes := enc ws n) (by rw [hl2]; unfold reserved; omega) hy
  have hw2 := over_drop (b := b1) (off := 1 + ws) (bytes := enc ws n) (by rw [hl2] at hy; omega)
  generalize over b1 (1 + ws) (enc ws n) = b2 at h2 hd2 hw2 ⊢
  have hlen : wordOf ((b2.drop (1 + ws)).take ws) = n := by
    unfold wordOf
    rw [hw2, List.take_left' hl2, Marshal.dec_enc]
    rcases hw with rfl | rfl
    · exact Nat.lt_of_le_of_lt hn (by decide)
    · exact Nat.lt_of_le_of_lt hn (by decide)
  rw [hlen, if_pos ⟨by rw [h2, h1, hb]; unfold reserved bsize; omega, hn⟩]
  refine ⟨b2, ?_, by omega⟩
  rw [hd2, hd1]

/-! ### The types of the ends -/

theorem typeDict_inv [DecidableEq τ] : ∀ (es : List (End τ)) (d : List (τ × List Nat)),
    (∀ p ∈ typeDict es d, ∀ x ∈ p.2, (∃ e ∈ es, e.type = p.1 ∧ e.badge = x) ∨ ∃ q ∈ d, q.1 = p.1 ∧ x ∈ q.2) ∧
    (∀ e ∈ es, ∃ p ∈ typeDict es d, p.1 = e.type ∧ e.badge ∈ p.2) ∧
    (∀ q ∈ d, ∃ p ∈ typeDict es d, p.1 = q.1 ∧ ∀ x ∈ q.2, x ∈ p.2) := by
  intro es
  induction es with
  | nil =>
    intro d
    exact ⟨fun p hp x hx => .inr ⟨p, hp, rfl, hx⟩, fun e he => (by simp at he), fun q hq => ⟨q, hq, rfl, fun x hx => hx⟩⟩
  | cons e es ih =>
    intro d
    rw [typeDict]
    by_cases hany : d.any (fun p => p.1 = e.type) = true
    · rw [if_pos hany]
      obtain ⟨i1, i2, i3⟩ := ih (d.map (fun p => if p.1 = e.type then (p.1, p.2 ++ [e.badge]) else p))
      obtain ⟨q0, hq0, hq0e⟩ := List.any_eq_true.mp hany
      have hq0e : q0.1 = e.type := by simpa using hq0e
      refine ⟨?_, ?_, ?_⟩
      · intro p hp x hx
        rcases i1 p hp x hx with ⟨e', he', h1, h2⟩ | ⟨q, hq, h1, h2⟩
        · exact .inl ⟨e', by simp [he'], h1, h2⟩
        · obtain ⟨q', hq', rfl⟩ := List.mem_map.mp hq
          by_cases hc : q'.1 = e.type
          · rw [if_pos hc] at h1 h2
            simp only [List.mem_append, List.mem_singleton] at h2
            rcases h2 with h2 | h2
            · exact .inr ⟨q', hq', h1, h2⟩
            · exact .inl ⟨e, by simp, by rw [← h1, hc], h2.symm⟩
          · rw [if_neg hc] at h1 h2
            exact .inr ⟨q', hq', h1, h2⟩
      · intro e' he'
        rcases List.mem_cons.mp he' with rfl | he'
        · obtain ⟨p, hp, h1, h2⟩ := i3 _ (List.mem_map.mpr ⟨q0, hq0, rfl⟩)
          rw [if_pos hq0e] at h1 h2
          exact ⟨p, hp, by rw [h1, hq0e], h2 _ (by simp)⟩
        · exact i2 e' he'
      · intro q hq
        obtain ⟨p, hp, h1, h2⟩ := i3 _ (List.mem_map.mpr ⟨q, hq, rfl⟩)
        by_cases hc : q.1 = e.type
        · rw [if_pos hc] at h1 h2
          exact ⟨p, hp, h1, fun x hx => h2 x (by simp [hx])⟩
        · rw [if_neg hc] at h1 h2
          exact ⟨p, hp, h1, h2⟩
    · rw [if_neg hany]
      obtain ⟨i1, i2, i3⟩ := ih (d ++ [(e.type, [e.badge])])
      refine ⟨?_, ?_, ?_⟩
      · intro p hp x hx
        rcases i1 p hp x hx with ⟨e', he', h1, h2⟩ | ⟨q, hq, h1, h2⟩
        · exact .inl ⟨e', by simp [he'], h1, h2⟩
        · simp only [List.mem_append, List.mem_singleton] at hq
          rcases hq with hq | rfl
          · exact .inr ⟨q, hq, h1, h2⟩
          · simp only [List.mem_singleton] at h2
            exact .inl ⟨e, by simp, h1, h2.symm⟩
      · intro e' he'
        rcases List.mem_cons.mp he' with rfl | he'
        · obtain ⟨p, hp, h1, h2⟩ := i3 (e'.type, [e'.badge]) (by simp)
          exact ⟨p, hp, h1, h2 _ (by simp)⟩
        · exact i2 e' he'
      · intro q hq
        exact i3 q (by simp [hq])

/-- The badge decides the type, if the badges are different. -/
theorem typeOf_end [DecidableEq τ] {ends : List (End τ)} {e : End τ} (he : e ∈ ends)
    (hd : ∀ e' ∈ ends, e'.badge = e.badge → e'.type = e.type) : typeOf ends e.badge = some e.type := by
  obtain ⟨i1, i2, _⟩ := typeDict_inv ends []
  unfold typeOf
  cases hf : (typeDict ends []).find? (fun p => p.2.contains e.badge) with
  | none =>
    obtain ⟨p, hp, _, h2⟩ := i2 e he
    have := List.find?_eq_none.mp hf p hp
    simp [h2] at this
  | some p =>
    have hp := List.mem_of_find?_eq_some hf
    have hc := List.find?_some hf
    simp only [List.contains_iff_mem] at hc
    rcases i1 p hp _ hc with ⟨e', he', h1, h2⟩ | ⟨q, hq, _⟩
    · simp only [Option.map_some, Option.some.injEq]
      rw [← h1]
      exact hd e' he' h2
    · simp at hq

/-- Without an end that has the badge there is no type. -/
theorem typeOf_none [DecidableEq τ] {ends : List (End τ)} {badge : Nat} (h : ∀ e ∈ ends, e.badge ≠ badge) :
    typeOf ends badge = none := by
  obtain ⟨i1, _, _⟩ := typeDict_inv ends []
  unfold typeOf
  cases hf : (typeDict ends []).find? (fun p => p.2.contains badge) with
  | none => rfl
  | some p =>
    have hp := List.mem_of_find?_eq_some hf
    have hc := List.find?_some hf
    simp only [List.contains_iff_mem] at hc
    rcases i1 p hp _ hc with ⟨e', he', _, h2⟩ | ⟨q, hq, _⟩
    · exact absurd h2 (h e' he')
    · simp at hq

end Verif.CakeRpc
