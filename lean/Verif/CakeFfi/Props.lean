import Verif.CakeFfi.Spec
import Verif.Marshal.Props
import Mathlib.Tactic.Ring

/-!
# Properties: files, arguments and the start of a component in CakeML (C96, C97)
-/

namespace Verif.CakeFfi

open Marshal (Byte enc dec)

theorem number_append (x y : List Byte) : number (x ++ y) = number x * 256 ^ y.length + number y := by
  induction x with
  | nil => simp [number]
  | cons b x ih =>
    simp only [List.cons_append, number, ih, List.length_append]
    rw [Nat.pow_add]
    ring

theorem dec_reverse (x : List Byte) : dec x.reverse = number x := by
  have hd : ∀ x y : List Byte, dec (x ++ y) = dec x + 256 ^ x.length * dec y := by
    intro x y
    induction x with
    | nil => simp [dec]
    | cons a x ih =>
      simp only [List.cons_append, dec, ih, List.length_cons, Nat.pow_succ]
      ring
  induction x with
  | nil => rfl
  | cons b x ih =>
    simp only [List.reverse_cons, number]
    rw [hd, ih, List.length_reverse]
    simp only [dec]
    ring

theorem unswapped_eq (x : List Byte) : unswapped x = number x := dec_reverse x

theorem number_swapped {n v : Nat} (h : v < 2 ^ (8 * n)) : number (swapped n v) = v := by
  rw [← dec_reverse, swapped, List.reverse_reverse, Marshal.dec_enc n v h]

theorem swapped_length (n v : Nat) : (swapped n v).length = n := by
  rw [swapped, List.length_reverse, Marshal.enc_length]

theorem toInt_descriptor {v : Nat} {fd : Int} (hd : Descriptor fd) (h : (v : Int) = fd) : toInt v = fd := by
  have h1 : v < 2 ^ 31 := by have := hd.2; omega
  have h2 : v % 2 ^ 32 = v := Nat.mod_eq_of_lt (by omega)
  unfold toInt
  rw [h2, if_pos h1]
  exact h

theorem load_append (x y : List Byte) (n : Nat) (h : x.length = n) : load (x ++ y) 0 n = some x := by
  unfold load
  rw [if_pos (by simp; omega), List.drop_zero, List.take_left' h]

theorem store_head (b x : Byte) (r : List Byte) : store (b :: r) 0 [x] = some (x :: r) := by
  simp [store]

theorem store_at (p x y r : List Byte) (hx : x.length = y.length) : store (p ++ x ++ r) p.length y = some (p ++ y ++ r) := by
  unfold store
  rw [if_pos (by simp; omega)]
  rw [List.drop_left' (by simp; omega), List.append_assoc p x r, List.take_left]

/-- C96: opening a file for writing reports success exactly when the file was opened, with a handle of it. -/
theorem open_out_reports (fd : Int) (s : Byte) (old r : List Byte) (hold : old.length = 8) :
    (Descriptor fd → ∃ h, Handle h fd ∧ openOut (s :: (old ++ r)) fd = some (0 :: (h ++ r))) ∧
    (fd < 0 → openOut (s :: (old ++ r)) fd = some (1 :: (old ++ r))) := by
  constructor
  · intro hd
    have hsmall : toU64 fd = fd.toNat := by
      unfold toU64
      rw [Int.emod_eq_of_lt hd.1 (by have := hd.2; omega)]
    refine ⟨swapped 8 fd.toNat, ⟨swapped_length _ _, ?_⟩, ?_⟩
    · rw [number_swapped (by have := hd.1; have := hd.2; omega)]
      exact Int.toNat_of_nonneg hd.1
    · unfold openOut
      rw [if_pos hd.1, store_head, hsmall]
      simp only [Option.bind_some]
      exact store_at [0] old (swapped 8 fd.toNat) r (by rw [swapped_length, hold])
  · intro h
    unfold openOut
    rw [if_neg (by omega), store_head]

/-- **Disagreement with C96.** Opening a file for reading reports a failure exactly when the file was opened: whatever
descriptor the system has returned is lost, and when there is no file then the caller is told that it was opened. -/
theorem open_in_wrong (fd : Int) (hfd : -2 ^ 31 ≤ fd) (s : Byte) (old r : List Byte) (hold : old.length = 8) :
    (0 ≤ fd → openIn (s :: (old ++ r)) fd = some (1 :: (old ++ r))) ∧
    (fd < 0 → ∃ h, h.length = 8 ∧ openIn (s :: (old ++ r)) fd = some (0 :: (h ++ r)) ∧
      ∀ rest : List Byte, closeCall (h ++ rest) = some (.close fd)) := by
  constructor
  · intro h
    unfold openIn
    rw [if_neg (by omega), store_head]
  · intro h
    refine ⟨swapped 8 (toU64 fd), swapped_length _ _, ?_, ?_⟩
    · unfold openIn
      rw [if_pos h, store_head]
      simp only [Option.bind_some]
      exact store_at [0] old (swapped 8 (toU64 fd)) r (by rw [swapped_length, hold])
    · intro rest
      unfold closeCall
      rw [load_append _ _ _ (swapped_length _ _), Option.map_some, unswapped_eq]
      have hv : toU64 fd = (fd + 2 ^ 64).toNat := by
        unfold toU64
        congr 1
        omega
      rw [number_swapped (by rw [hv]; omega)]
      have : toInt (toU64 fd) = fd := by
        unfold toInt
        rw [hv]
        have h2 : ((fd + 2 ^ 64).toNat : Int) = fd + 2 ^ 64 := Int.toNat_of_nonneg (by omega)
        have h3 : (((fd + 2 ^ 64).toNat % 2 ^ 32 : Nat) : Int) = fd + 2 ^ 32 := by omega
        rw [if_neg (by omega), h3]
        omega
      rw [this]

/-- C96: reading asks the file of the handle for the number of bytes that the caller wants; when there is room for them,
the caller finds the status, how many bytes there were, and the bytes. -/
theorem read_partial {fd : Int} (hd : Descriptor fd) {h : List Byte} (hh : Handle h fd) (x n y r : List Byte) (hn : n.length = 2)
    (hy : y.length = 2) (hroom : number n ≤ r.length) :
    readCall (h ++ x) (n ++ y ++ r) = some (.read fd (number n)) ∧
    (∀ data : List Byte, data.length ≤ number n → ∃ cnt last, readDone (n ++ y ++ r) (some data) =
      some (0 :: (cnt ++ [last] ++ data ++ r.drop data.length)) ∧ cnt.length = 2 ∧ number cnt = data.length) ∧
    ∃ tail, readDone (n ++ y ++ r) none = some (1 :: tail) ∧ tail.length + 1 = (n ++ y ++ r).length := by
  have hb : number n < 2 ^ 16 := by
    rw [← dec_reverse]
    have := Marshal.dec_lt n.reverse
    rw [List.length_reverse, hn] at this
    exact this
  obtain ⟨n0, n1, rfl⟩ : ∃ n0 n1, n = [n0, n1] := by
    match n, hn with
    | [a, b], _ => exact ⟨a, b, rfl⟩
  obtain ⟨y0, y1, rfl⟩ : ∃ y0 y1, y = [y0, y1] := by
    match y, hy with
    | [a, b], _ => exact ⟨a, b, rfl⟩
  refine ⟨?_, ?_, ?_⟩
  · unfold readCall
    rw [load_append _ _ _ hh.1, List.append_assoc, load_append _ _ _ (by rfl)]
    simp only [Option.bind_some, Option.map_some, unswapped_eq]
    rw [toInt_descriptor hd hh.2]
  · intro data hdata
    have h1 : store ([n0, n1] ++ [y0, y1] ++ r) 4 data = some ([n0, n1, y0, y1] ++ data ++ r.drop data.length) := by
      have hs := store_at [n0, n1, y0, y1] (r.take data.length) data (r.drop data.length) (by rw [List.length_take]; omega)
      have : [n0, n1] ++ [y0, y1] ++ r = [n0, n1, y0, y1] ++ r.take data.length ++ r.drop data.length := by
        simp
      rw [this]
      exact hs
    have hlen := swapped_length 2 data.length
    refine ⟨swapped 2 data.length, y1, ?_, hlen, number_swapped (by omega)⟩
    unfold readDone
    simp only [h1, Option.bind_some]
    unfold report
    simp only
    rw [show [n0, n1, y0, y1] ++ data ++ r.drop data.length = n0 :: ([n1, y0] ++ ([y1] ++ data ++ r.drop data.length)) by simp,
      store_head]
    simp only [Option.bind_some]
    have hs := store_at [0] [n1, y0] (swapped 2 data.length) ([y1] ++ data ++ r.drop data.length) (by rw [hlen]; rfl)
    simp only [List.cons_append, List.append_assoc, List.length_singleton, List.nil_append] at hs ⊢
    exact hs
  · refine ⟨n1 :: y0 :: y1 :: r, ?_, by simp⟩
    simp [readDone, report, store]

/-- What is missing in `read_partial`: the size of the array is not looked at. When more bytes are asked for than there is
room for, and the file has them, they are written behind the array. -/
theorem read_overruns (n y r data : List Byte) (hn : n.length = 2) (hy : y.length = 2) (hdata : r.length < data.length) :
    readDone (n ++ y ++ r) (some data) = none := by
  unfold readDone store
  simp only
  rw [if_neg (by simp [hn, hy]; omega)]
  rfl

/-- C96: writing gives the file of the handle the bytes that the caller has chosen by a number and an offset; and the caller
finds the status and how many of them were written. -/
theorem write_spec {fd : Int} (hd : Descriptor fd) {h : List Byte} (hh : Handle h fd) (x n off before bytes after : List Byte)
    (hn : n.length = 2) (hoff : off.length = 2) (hb : number off = before.length) (hl : number n = bytes.length) :
    writeCall (h ++ x) (n ++ off ++ before ++ bytes ++ after) = some (.write fd bytes) ∧
    (∀ k ≤ bytes.length, ∃ cnt tail, writeDone (n ++ off ++ before ++ bytes ++ after) (some k) = some (0 :: (cnt ++ tail)) ∧
      cnt.length = 2 ∧ number cnt = k) ∧
    ∃ tail, writeDone (n ++ off ++ before ++ bytes ++ after) none = some (1 :: tail) := by
  have hbn : number n < 2 ^ 16 := by
    rw [← dec_reverse]
    have := Marshal.dec_lt n.reverse
    rw [List.length_reverse, hn] at this
    exact this
  have hc : writeCall (h ++ x) (n ++ off ++ before ++ bytes ++ after) = some (.write fd bytes) := by
    unfold writeCall
    rw [load_append _ _ _ hh.1]
    have e1 : load (n ++ off ++ before ++ bytes ++ after) 0 2 = some n := by
      rw [show n ++ off ++ before ++ bytes ++ after = n ++ (off ++ before ++ bytes ++ after) by simp]
      exact load_append _ _ _ hn
    have e2 : load (n ++ off ++ before ++ bytes ++ after) 2 2 = some off := by
      unfold load
      rw [if_pos (by simp; omega)]
      rw [show n ++ off ++ before ++ bytes ++ after = n ++ (off ++ (before ++ bytes ++ after)) by simp, List.drop_left' hn,
        List.take_left' hoff]
    have e3 : load (n ++ off ++ before ++ bytes ++ after) (4 + number off) (number n) = some bytes := by
      unfold load
      rw [if_pos (by simp; omega)]
      rw [show n ++ off ++ before ++ bytes ++ after = (n ++ off ++ before) ++ (bytes ++ after) by simp,
        List.drop_left' (by simp; omega), List.take_left' hl.symm]
    rw [e1]
    simp only [Option.bind_some]
    rw [e2]
    simp only [Option.bind_some, unswapped_eq]
    rw [e3]
    simp only [Option.map_some]
    rw [toInt_descriptor hd hh.2]
  obtain ⟨n0, n1, rfl⟩ : ∃ n0 n1, n = [n0, n1] := by
    match n, hn with
    | [a, b], _ => exact ⟨a, b, rfl⟩
  obtain ⟨y0, y1, rfl⟩ : ∃ y0 y1, off = [y0, y1] := by
    match off, hoff with
    | [a, b], _ => exact ⟨a, b, rfl⟩
  refine ⟨hc, ?_, ?_⟩
  · intro k hk
    have hlen := swapped_length 2 k
    refine ⟨swapped 2 k, y1 :: (before ++ bytes ++ after), ?_, hlen, number_swapped (by omega)⟩
    unfold writeDone report
    simp only
    rw [show [n0, n1] ++ [y0, y1] ++ before ++ bytes ++ after = n0 :: ([n1, y0] ++ (y1 :: (before ++ bytes ++ after))) by simp, store_head]
    simp only [Option.bind_some]
    exact store_at [0] [n1, y0] (swapped 2 k) (y1 :: (before ++ bytes ++ after)) (by rw [hlen]; rfl)
  · refine ⟨n1 :: y0 :: y1 :: (before ++ bytes ++ after), ?_⟩
    simp [writeDone, report, store]

/-- C96: closing closes the file of the handle, and reports whether that worked. -/
theorem close_spec {fd : Int} (hd : Descriptor fd) {h : List Byte} (hh : Handle h fd) (x r : List Byte) (s : Byte) :
    closeCall (h ++ x) = some (.close fd) ∧ closeDone (s :: r) true = some (0 :: r) ∧ closeDone (s :: r) false = some (1 :: r) := by
  refine ⟨?_, store_head _ _ _, store_head _ _ _⟩
  unfold closeCall
  rw [load_append _ _ _ hh.1, Option.map_some, unswapped_eq, toInt_descriptor hd hh.2]

/-! ### Arguments -/

/-- C97: the number of arguments, the length of each of them and each of them, if there are less than 65536 and they are
shorter than 65536 bytes and there is room for the terminator. -/
theorem arguments_partial (argv : List (List Byte)) (i : Nat) (s : List Byte) (hi : argv[i]? = some s) (hc : argv.length < 2 ^ 16)
    (hl : s.length < 2 ^ 16) (x0 x1 : Byte) (r : List Byte) :
    (∃ cnt, argCount argv (x0 :: x1 :: r) = some (cnt ++ r) ∧ number cnt = argv.length) ∧
    (∀ idx : List Byte, idx.length = 2 → number idx = i →
      (∃ len, argLength argv (idx ++ r) = some (len ++ r) ∧ number len = s.length) ∧
      (s.length + 1 ≤ 2 + r.length → ∃ tail, arg argv (idx ++ r) = some (s ++ 0 :: tail))) := by
  refine ⟨⟨swapped 2 argv.length, ?_, number_swapped hc⟩, ?_⟩
  · exact store_at [] [x0, x1] (swapped 2 argv.length) r (by rw [swapped_length]; rfl)
  · intro idx hidx hnum
    constructor
    · refine ⟨swapped 2 s.length, ?_, number_swapped hl⟩
      unfold argLength
      rw [load_append _ _ _ hidx]
      simp only [Option.bind_some, unswapped_eq, hnum, hi]
      exact store_at [] idx (swapped 2 s.length) r (by rw [swapped_length, hidx])
    · intro hroom
      unfold arg
      rw [load_append _ _ _ hidx]
      simp only [Option.bind_some, unswapped_eq, hnum, hi]
      refine ⟨(idx ++ r).drop (s.length + 1), ?_⟩
      unfold store
      rw [if_pos (by simp [hidx]; omega)]
      simp

/-- **Disagreement with C97.** An array of as many bytes as `get_arg_length` tells is one byte too short for `get_arg`. -/
theorem terminator_behind (argv : List (List Byte)) (i : Nat) (s : List Byte) (hi : argv[i]? = some s) (idx r : List Byte)
    (hidx : idx.length = 2) (hnum : number idx = i) (hlen : (idx ++ r).length = s.length) : arg argv (idx ++ r) = none := by
  unfold arg
  rw [load_append _ _ _ hidx]
  simp only [Option.bind_some, unswapped_eq, hnum, hi]
  unfold store
  rw [if_neg (by rw [hlen]; simp)]

/-! ### Start -/

/-- C97: the two functions return zero or minus one; the component runs exactly if both return zero, and after everything
else; after a failure nothing more is done. -/
theorem starts_in_order (r1 r2 : Int) (h1 : r1 = 0 ∨ r1 = -1) (h2 : r2 = 0 ∨ r2 = -1) :
    (r1 = 0 → r2 = 0 → entry r1 r2 = [.preInit, .preSync, .postInit, .postSync, .run]) ∧
    (r1 = 0 → r2 ≠ 0 → entry r1 r2 = [.preInit, .preSync, .postInit, .postSync]) ∧
    (r1 ≠ 0 → entry r1 r2 = [.preInit, .preSync]) := by
  rcases h1 with rfl | rfl <;> rcases h2 with rfl | rfl <;> decide

/-! ### Examples -/

example : Handle [0, 0, 0, 0, 0, 0, 1, 2] 258 ∧ Descriptor 258 := ⟨⟨rfl, by decide⟩, by decide, by decide⟩

/-- Reading ten bytes of which there are three. -/
example : readCall [0, 0, 0, 0, 0, 0, 0, 5] ([0, 10, 9, 9] ++ List.replicate 12 7) = some (.read 5 10) ∧
    readDone ([0, 10, 9, 9] ++ List.replicate 12 7) (some [65, 66, 67]) = some ([0, 0, 3, 9, 65, 66, 67] ++ List.replicate 9 7) := by
  decide

/-- Writing two bytes from the third on. -/
example : writeCall [0, 0, 0, 0, 0, 0, 0, 5] [0, 2, 0, 3, 1, 1, 1, 65, 66, 1] = some (.write 5 [65, 66]) := by decide

example : openIn (List.replicate 9 7) 5 = some (1 :: List.replicate 8 7) ∧ openIn (List.replicate 9 7) (-1) = some (0 :: List.replicate 8 255) := by
  decide

example : arg [[97], [98, 99]] [0, 1, 7, 7] = some [98, 99, 0, 7] ∧ arg [[97], [98, 99]] [0, 1] = none := by decide

end Verif.CakeFfi
