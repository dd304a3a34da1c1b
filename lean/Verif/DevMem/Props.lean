import Verif.DevMem.Spec
import Verif.Macros.Props
import Mathlib.Tactic.ByContra

/-!
# Theorems for C86
-/

namespace Verif.DevMem

open Verif.Macros (alignPageAddress nextPageMultiple getPageSize)
open Spec

/-! ### Cells -/

theorem number_append (l : List Nat) (x : Nat) : number (l ++ [x]) = number l * 2 ^ 32 + x := by
  simp [number]

theorem foldl_shift (f : Nat → Nat) (n acc : Nat) :
    (List.range n).foldl (fun acc j => acc + f j <<< (j * 32)) acc =
      acc + (List.range n).foldl (fun acc j => acc + f j <<< (j * 32)) 0 := by
  induction n generalizing acc with
  | zero => simp
  | succ n ih =>
    rw [List.range_succ, List.foldl_append, List.foldl_append, ih]
    simp [Nat.add_assoc]

theorem foldl_succ (f : Nat → Nat) (n : Nat) :
    (List.range (n + 1)).foldl (fun acc j => acc + f j <<< (j * 32)) 0 =
      f 0 + ((List.range n).foldl (fun acc j => acc + f (j + 1) <<< (j * 32)) 0) * 2 ^ 32 := by
  induction n with
  | zero => simp [List.range_succ]
  | succ n ih =>
    rw [List.range_succ, List.foldl_append, ih, List.range_succ (n := n), List.foldl_append]
    simp only [List.foldl_cons, List.foldl_nil, Nat.shiftLeft_eq, Nat.add_mul]
    rw [Nat.add_assoc, Nat.mul_assoc, ← Nat.pow_add, Nat.one_mul]

/-- The loop reads a big-endian number. -/
theorem cellsNumber_eq (l : List Nat) : ∀ (a b : List Nat), cellsNumber (a ++ l ++ b) a.length l.length = number l := by
  induction l using List.reverseRecOn with
  | nil => intro a b; rfl
  | append_singleton l x ih =>
    intro a b
    rw [number_append, ← ih a (x :: b), cellsNumber, List.length_append, List.length_singleton,
      foldl_succ (fun j => (a ++ (l ++ [x]) ++ b).getD (a.length + (l.length + 1 - 1 - j)) 0), cellsNumber]
    have h0 : (a ++ (l ++ [x]) ++ b).getD (a.length + (l.length + 1 - 1 - 0)) 0 = x := by
      simp [List.getD_eq_getElem?_getD, List.getElem?_append]
    have h1 : ∀ m, m ≤ l.length →
        (List.range m).foldl (fun acc j => acc + (a ++ (l ++ [x]) ++ b).getD (a.length + (l.length + 1 - 1 - (j + 1))) 0 <<< (j * 32)) 0 =
        (List.range m).foldl (fun acc j => acc + (a ++ l ++ x :: b).getD (a.length + (l.length - 1 - j)) 0 <<< (j * 32)) 0 := by
      intro m
      induction m with
      | zero => intro _; rfl
      | succ m ihm =>
        intro hm
        rw [List.range_succ, List.foldl_append, List.foldl_append, ihm (by omega)]
        simp only [List.foldl_cons, List.foldl_nil]
        have e : a ++ (l ++ [x]) ++ b = a ++ l ++ x :: b := by simp
        rw [e, show l.length + 1 - 1 - (m + 1) = l.length - 1 - m by omega]
    rw [h0, h1 _ (Nat.le_refl _)]
    omega

/-- **C86 (cells).** The registers of a device are those that its property lists: address and size in
big-endian cells, one after the other; an incomplete entry at the end does not count. -/
theorem registers_decoded (ac sc : Nat) (hsc : sc ≠ 0) (es : List (List Nat × List Nat)) (tail : List Nat)
    (he : ∀ e ∈ es, e.1.length = ac ∧ e.2.length = sc) (ht : tail.length < ac + sc) :
    parseReg (some (es.flatMap (fun e => e.1 ++ e.2) ++ tail)) ac sc =
      .ok (es.map fun e => (number e.1, number e.2)) := by
  have hlen : ∀ es : List (List Nat × List Nat), (∀ e ∈ es, e.1.length = ac ∧ e.2.length = sc) →
      (es.flatMap (fun e => e.1 ++ e.2)).length = es.length * (ac + sc) := by
    intro es
    induction es with
    | nil => simp
    | cons e es ih =>
      intro h
      rw [List.flatMap_cons, List.length_append, ih (fun x hx => h x (by simp [hx])), List.length_append,
        (h e (by simp)).1, (h e (by simp)).2, List.length_cons, Nat.succ_mul]
      omega
  have hdiv : (es.flatMap (fun e => e.1 ++ e.2) ++ tail).length / (ac + sc) = es.length := by
    rw [List.length_append, hlen es he, Nat.div_eq_iff (by omega)]
    constructor <;> omega
  simp only [parseReg]
  rw [if_neg hsc, hdiv]
  congr 1
  apply List.ext_getElem
  · simp
  intro i h1 h2
  have hi : i < es.length := by simpa using h2
  simp only [List.getElem_map, List.getElem_range]
  have hsplit : es.flatMap (fun e => e.1 ++ e.2) ++ tail =
      (es.take i).flatMap (fun e => e.1 ++ e.2) ++ (es[i].1 ++ es[i].2) ++
        ((es.drop (i + 1)).flatMap (fun e => e.1 ++ e.2) ++ tail) := by
    have hes : es = es.take i ++ es[i] :: es.drop (i + 1) := by
      rw [List.cons_getElem_drop_succ, List.take_append_drop]
    have := congrArg (List.flatMap fun e => e.1 ++ e.2) hes
    rw [List.flatMap_append, List.flatMap_cons] at this
    rw [this]
    simp only [List.append_assoc]
  have hpre : ((es.take i).flatMap (fun e => e.1 ++ e.2)).length = i * (ac + sc) := by
    rw [hlen _ (fun x hx => he x (List.mem_of_mem_take hx)), List.length_take, Nat.min_eq_left (by omega)]
  have hei := he es[i] (List.getElem_mem hi)
  refine Prod.ext ?_ ?_
  · simp only
    have := cellsNumber_eq es[i].1 ((es.take i).flatMap (fun e => e.1 ++ e.2))
      (es[i].2 ++ ((es.drop (i + 1)).flatMap (fun e => e.1 ++ e.2) ++ tail))
    rw [hpre, hei.1] at this
    rw [hsplit, ← this]
    simp only [List.append_assoc]
  · simp only
    have := cellsNumber_eq es[i].2 ((es.take i).flatMap (fun e => e.1 ++ e.2) ++ es[i].1)
      ((es.drop (i + 1)).flatMap (fun e => e.1 ++ e.2) ++ tail)
    rw [List.length_append, hpre, hei.1, hei.2] at this
    rw [hsplit, ← this]
    simp only [List.append_assoc]

/-- A device without registers has none; one whose registers have no size is refused. -/
theorem no_registers (ac sc : Nat) : parseReg none ac sc = .ok [] ∧ ∀ regs, parseReg (some regs) ac 0 = .error .template := by
  constructor
  · rfl
  · intro regs; rfl

/-! ### Frames -/

theorem frames_shows (P S page : Nat) (hp : 0 < page) (hd : page ∣ S) (off a : Nat) :
    Shows (frames P S page) off a ↔ off < S ∧ a = P + off := by
  obtain ⟨k, rfl⟩ := hd
  simp only [Shows, frames, List.mem_map, List.mem_range, Nat.mul_div_cancel_left k hp]
  constructor
  · rintro ⟨_, ⟨i, hi, rfl⟩, h1, h2, rfl⟩
    simp only at *
    have : (i + 1) * page ≤ k * page := Nat.mul_le_mul_right page hi
    rw [Nat.add_mul, Nat.one_mul, Nat.mul_comm k page] at this
    omega
  · rintro ⟨h, rfl⟩
    refine ⟨_, ⟨off / page, ?_, rfl⟩, ?_, ?_, ?_⟩
    · rw [Nat.div_lt_iff_lt_mul hp, Nat.mul_comm]
      exact h
    · exact Nat.div_mul_le_self off page
    · have := Nat.lt_div_mul_add hp (a := off)
      simpa using this
    · have := Nat.div_mul_le_self off page
      simp only
      omega

theorem frames_mappable (P S page : Nat) (hp : 0 < page) (hs : page ≤ S) : Mappable (frames P S page) ↔ page ∣ P := by
  simp only [Mappable, frames, List.mem_map, List.mem_range]
  constructor
  · intro h
    have := h _ ⟨0, Nat.div_pos hs hp, rfl⟩
    simpa using this
  · rintro h _ ⟨i, _, rfl⟩
    exact (Nat.dvd_add_right h).2 (Nat.dvd_mul_left page i)

theorem roundUpUnsafe_self (x y : Nat) (hy : 0 < y) (hd : y ∣ x) : roundUpUnsafe x y = x := by
  obtain ⟨k, rfl⟩ := hd
  rw [roundUpUnsafe, show (y * k + y - 1) / y = k by
    rw [Nat.div_eq_iff hy]; rw [Nat.mul_comm k y]; constructor <;> omega, Nat.mul_comm]

/-- The size of the mapping is the least sufficient number of pages. -/
theorem nextPageMultiple_pages (n : Nat) (ps : List Nat) :
    nextPageMultiple (n + 1) n (4096 :: ps) = some (pages 4096 n : Int) := by
  obtain ⟨r, k, h1, h2, h3, h4⟩ := Verif.Macros.nextPageMultiple_spec n 4096 ps
  have hk : k ≤ n := h4 n (by omega)
  rw [h1 (n + 1) (by omega)]
  have hb : k ≤ (n + 4096 - 1) / 4096 - 1 := h4 _ (by omega)
  have : r = pages 4096 n := by
    simp only [pages]
    omega
  rw [this]

theorem alignPage_eq (a : Nat) : alignPageAddress a 4096 = a / 4096 * 4096 := by
  have h := Verif.Macros.alignPage_spec a 12
  obtain ⟨⟨c, hc⟩, h2, h3⟩ := h
  have h4 := h3 ((a / 4096 * 4096 : Nat) : Int) ⟨(a / 4096 : Nat), by push_cast; omega⟩ (by push_cast; omega)
  simp only [show (2 : Nat) ^ 12 = 4096 from rfl] at *
  push_cast at *
  omega

theorem pages_pos (n : Nat) : 4096 ≤ pages 4096 n ∧ n ≤ pages 4096 n ∧ 4096 ∣ pages 4096 n ∧
    (0 < n → pages 4096 n < n + 4096) := by
  refine ⟨?_, ?_, ⟨_, rfl⟩, ?_⟩ <;> simp only [pages] <;> omega

theorem page_of_pages (n : Nat) (ps : List Nat) (hps : ∀ p ∈ ps, 0 < p) :
    0 < getPageSize (pages 4096 n) (4096 :: ps) ∧ getPageSize (pages 4096 n) (4096 :: ps) ∣ pages 4096 n ∧
    getPageSize (pages 4096 n) (4096 :: ps) ≤ pages 4096 n := by
  obtain ⟨h1, _, h3, _⟩ := pages_pos n
  unfold getPageSize
  cases hf : (4096 :: ps).reverse.find? (fun sz => decide (pages 4096 n ≥ sz) && decide (pages 4096 n % sz = 0)) with
  | none =>
    have := List.find?_eq_none.1 hf 4096 (by simp)
    simp [h1, Nat.mod_eq_zero_of_dvd h3] at this
  | some z =>
    have hz := List.find?_some hf
    simp only [Bool.and_eq_true, decide_eq_true_eq] at hz
    have hm := List.mem_reverse.1 (List.mem_of_find?_eq_some hf)
    refine ⟨?_, Nat.dvd_of_mod_eq_zero hz.2, hz.1⟩
    rcases List.mem_cons.1 hm with rfl | hm
    · decide
    · exact hps z hm

/-- **C86 (device tree).** Every register of a device gets a mapping of its own: of whole pages, beginning with the
page that its address is in, and as many as its size needs; byte by byte at the same distance from the start. -/
theorem register_mapping (ps : List Nat) (hps : ∀ p ∈ ps, 0 < p) (cached : Bool) (a n : Nat) :
    ∃ r, register 4096 ps cached (a, n) = .ok r ∧ r.cached = cached ∧ r.symbolBytes = pages 4096 n ∧
      ∀ off x, Shows r.frames off x ↔ off < pages 4096 n ∧ x = a / 4096 * 4096 + off := by
  obtain ⟨h1, h2, h3⟩ := page_of_pages n ps hps
  simp only [register, nextPageMultiple_pages, Int.toNat_natCast, alignPage_eq]
  rw [roundUpUnsafe_self _ _ h1 h2]
  refine ⟨_, if_pos ⟨Nat.le_refl _, Nat.mod_eq_zero_of_dvd h2⟩, rfl, rfl, ?_⟩
  intro off x
  exact frames_shows _ _ _ h1 h2 off x

theorem mapM_ok {α β : Type} (f : α → Except Err β) (g : α → β) : ∀ (l : List α), (∀ x ∈ l, f x = .ok (g x)) →
    l.mapM f = .ok (l.map g)
  | [], _ => rfl
  | x :: l, h => by
    rw [List.mapM_cons, h x (by simp), mapM_ok f g l (fun y hy => h y (by simp [hy]))]
    rfl

/-- **C86 (device tree).** All registers of all devices are mapped, in order. -/
theorem registers_mapped (ps : List Nat) (hps : ∀ p ∈ ps, 0 < p) (cached : Option Bool) (ac sc : Nat) (hsc : sc ≠ 0)
    (es : List (List Nat × List Nat)) (tail : List Nat)
    (he : ∀ e ∈ es, e.1.length = ac ∧ e.2.length = sc) (ht : tail.length < ac + sc) :
    ∃ rs, registers 4096 ps cached (some (es.flatMap (fun e => e.1 ++ e.2) ++ tail)) ac sc = .ok rs ∧
      List.Forall₂ (fun e r => r.cached = cached.getD false ∧ ∀ off x, Shows r.frames off x ↔
        off < pages 4096 (number e.2) ∧ x = number e.1 / 4096 * 4096 + off) es rs := by
  classical
  have hr := register_mapping ps hps (cached.getD false)
  choose g hg1 hg2 hg3 hg4 using hr
  refine ⟨(es.map fun e => (number e.1, number e.2)).map fun b => g b.1 b.2, ?_, ?_⟩
  · rw [registers, registers_decoded ac sc hsc es tail he ht]
    exact mapM_ok _ _ _ fun b _ => hg1 b.1 b.2
  · rw [List.map_map, List.forall₂_map_right_iff]
    apply List.forall₂_same.2
    intro e _
    exact ⟨hg2 _ _, hg4 _ _⟩

/-- **C86 (coverage).** All bytes of a register are mapped exactly if they fit into the pages that its size needs.
Missing are registers that touch one page more. -/
theorem covered_partial (ps : List Nat) (hps : ∀ p ∈ ps, 0 < p) (cached : Bool) (a n : Nat) (r : Region)
    (h : register 4096 ps cached (a, n) = .ok r) :
    (∀ b, a ≤ b → b < a + n → ∃ off, Shows r.frames off b) ↔ n = 0 ∨ a % 4096 + n ≤ pages 4096 n := by
  obtain ⟨r', h', _, _, hs⟩ := register_mapping ps hps cached a n
  rw [h] at h'
  cases h'
  simp only [hs]
  constructor
  · intro hall
    rcases Nat.eq_zero_or_pos n with h0 | h0
    · exact .inl h0
    · obtain ⟨off, h1, h2⟩ := hall (a + n - 1) (by omega) (by omega)
      right
      omega
  · rintro hc b h1 h2
    exact ⟨b - a / 4096 * 4096, by omega, by omega⟩

/-- **C86 (nothing else).** Only pages that the register touches are mapped. -/
theorem nothing_else (ps : List Nat) (hps : ∀ p ∈ ps, 0 < p) (cached : Bool) (a n : Nat) (hn : 0 < n) (r : Region)
    (h : register 4096 ps cached (a, n) = .ok r) (off x : Nat) (hx : Shows r.frames off x) :
    ∃ b, a ≤ b ∧ b < a + n ∧ x / 4096 = b / 4096 := by
  obtain ⟨r', h', _, _, hs⟩ := register_mapping ps hps cached a n
  rw [h] at h'
  cases h'
  obtain ⟨h1, h2⟩ := (hs off x).1 hx
  obtain ⟨_, _, ⟨k, hk⟩, hlt⟩ := pages_pos n
  have := hlt hn
  by_cases hc : x < a
  · exact ⟨a, Nat.le_refl _, by omega, by omega⟩
  · by_cases hc' : x < a + n
    · exact ⟨x, by omega, hc', rfl⟩
    · exact ⟨a + n - 1, by omega, by omega, by omega⟩

/-- **C86 (alignment).** The frames of a register can be mapped exactly if their size divides the address of the
first page. -/
theorem mappable_iff (ps : List Nat) (hps : ∀ p ∈ ps, 0 < p) (cached : Bool) (a n : Nat) (r : Region)
    (h : register 4096 ps cached (a, n) = .ok r) :
    Mappable r.frames ↔ getPageSize (pages 4096 n) (4096 :: ps) ∣ a / 4096 * 4096 := by
  obtain ⟨h1, h2, h3⟩ := page_of_pages n ps hps
  simp only [register, nextPageMultiple_pages, Int.toNat_natCast, alignPage_eq] at h
  rw [roundUpUnsafe_self _ _ h1 h2, checked, if_pos ⟨Nat.le_refl _, Nat.mod_eq_zero_of_dvd h2⟩] at h
  cases h
  exact frames_mappable _ _ _ h1 h3

/-- A UART of two pages: everything is mapped. -/
example : ∃ r, register 4096 [2097152] false (0x9000100, 0x1800) = .ok r ∧ Mappable r.frames ∧
    ∀ b, 0x9000100 ≤ b → b < 0x9000100 + 0x1800 → ∃ off, Shows r.frames off b := by
  obtain ⟨r, h, _⟩ := register_mapping [2097152] (by simp) false 0x9000100 0x1800
  refine ⟨r, h, (mappable_iff _ (by simp) _ _ _ _ h).2 ?_, (covered_partial _ (by simp) _ _ _ _ h).2 ?_⟩ <;> decide

/-- Two entries of one address cell and one size cell. -/
example : registers 4096 [2097152] none (some [0x1000, 0x100, 0x3000, 0x2000]) 1 1 =
    .ok [⟨4096, [⟨0x1000, 4096, 0⟩], false⟩, ⟨8192, [⟨0x3000, 4096, 0⟩, ⟨0x4000, 4096, 4096⟩], false⟩] := by decide

/-- **Disagreement with C86.** The address is rounded down, but the size is not enlarged: the end of a register that
crosses a page is not mapped, and there is no error. -/
theorem straddling_unmapped : ∃ r, register 4096 [2097152] false (0x9000c00, 0x1000) = .ok r ∧
    ¬ ∃ off, Shows r.frames off (0x9000c00 + 0x1000 - 1) := by
  obtain ⟨r, h, _, _, hs⟩ := register_mapping [2097152] (by simp) false 0x9000c00 0x1000
  refine ⟨r, h, ?_⟩
  rintro ⟨off, ho⟩
  obtain ⟨h1, h2⟩ := (hs off _).1 ho
  have : pages 4096 0x1000 = 4096 := by decide
  omega

/-- **Disagreement with C86.** Large frames are chosen by size only: they cannot be mapped at an address that is a
multiple of the smallest page only, and there is no error. -/
theorem large_frame_unmappable : ∃ r, register 4096 [2097152] false (0x9001000, 0x200000) = .ok r ∧ ¬ Mappable r.frames := by
  obtain ⟨r, h, _⟩ := register_mapping [2097152] (by simp) false 0x9001000 0x200000
  refine ⟨r, h, ?_⟩
  rw [mappable_iff _ (by simp) _ _ _ _ h]
  decide

/-! ### seL4HardwareMMIO -/

/-- **C86 (MMIO, what is accepted).** Exactly if address and size are set, the address is not negative, the size is
a multiple of a page size and the size of the dataport's type. -/
theorem mmio_accepted_iff (ps : List Nat) (hps : ∀ p ∈ ps, 0 < p) (paddr size : Option Setting) (cached : Option Bool)
    (typeBytes : Nat) :
    (∃ r, mmio ps paddr size cached typeBytes = .ok r) ↔
      ∃ a n : Nat, paddr = some (.int a) ∧ size = some (.int n) ∧ 0 < n ∧ (∃ p ∈ ps, p ≤ n ∧ p ∣ n) ∧ typeBytes = n := by
  constructor
  · rintro ⟨r, h⟩
    match paddr, size, h with
    | some (.int a), some (.int n), h =>
      simp only [mmio] at h
      split at h
      · cases h
      · rename_i ha
        split at h
        · cases h
        · rename_i hn
          split at h
          · cases h
          · rename_i hp
            split at h
            · cases h
            · split at h
              · rename_i ht
                refine ⟨a.toNat, n.toNat, ?_, ?_, by omega, ?_, ht⟩
                · congr 2; omega
                · congr 2; omega
                · unfold getPageSize at hp
                  cases hf : ps.reverse.find? (fun sz => decide (n.toNat ≥ sz) && decide (n.toNat % sz = 0)) with
                  | none => rw [hf] at hp; exact absurd rfl hp
                  | some z =>
                    have hz := List.find?_some hf
                    simp only [Bool.and_eq_true, decide_eq_true_eq] at hz
                    exact ⟨z, List.mem_reverse.1 (List.mem_of_find?_eq_some hf), hz.1, Nat.dvd_of_mod_eq_zero hz.2⟩
              · cases h
    | none, _, h => simp [mmio] at h
    | some .other, _, h => simp [mmio] at h
    | some (.int a), none, h => simp [mmio] at h
    | some (.int a), some .other, h => simp [mmio] at h
  · rintro ⟨a, n, rfl, rfl, hn, ⟨p, hp, h1, h2⟩, rfl⟩
    have hpage : ∃ z, getPageSize typeBytes ps = z ∧ 0 < z ∧ z ∣ typeBytes := by
      unfold getPageSize
      cases hf : ps.reverse.find? (fun sz => decide (typeBytes ≥ sz) && decide (typeBytes % sz = 0)) with
      | none =>
        have := List.find?_eq_none.1 hf p (List.mem_reverse.2 hp)
        simp [h1, Nat.mod_eq_zero_of_dvd h2] at this
      | some z =>
        have hz := List.find?_some hf
        simp only [Bool.and_eq_true, decide_eq_true_eq] at hz
        exact ⟨z, rfl, hps z (List.mem_reverse.1 (List.mem_of_find?_eq_some hf)), Nat.dvd_of_mod_eq_zero hz.2⟩
    obtain ⟨z, hz, hz0, hzd⟩ := hpage
    simp only [mmio, Int.toNat_natCast, hz]
    rw [if_neg (by omega), if_neg (by omega), if_neg (by omega), roundUpUnsafe_self _ _ hz0 hzd, checked,
      if_pos ⟨Nat.le_refl _, Nat.mod_eq_zero_of_dvd hzd⟩]
    simp only [if_true]
    exact ⟨_, rfl⟩

/-- **C86 (MMIO, mapping).** The device is mapped from its first to its last byte, at the dataport's start, and with the
caching that is set (none by default). Its frames can be mapped exactly if their size divides the address. -/
theorem mmio_mapping (ps : List Nat) (hps : ∀ p ∈ ps, 0 < p) (a n : Nat) (cached : Option Bool) (typeBytes : Nat)
    (r : Region) (P S : Nat) (h : mmio ps (some (.int a)) (some (.int n)) cached typeBytes = .ok (r, P, S)) :
    P = a ∧ S = n ∧ r.symbolBytes = n ∧ r.cached = cached.getD false ∧
    (∀ off x, Shows r.frames off x ↔ off < n ∧ x = a + off) ∧
    (Mappable r.frames ↔ getPageSize n ps ∣ a) := by
  simp only [mmio, Int.toNat_natCast] at h
  split at h
  · cases h
  · split at h
    · cases h
    · split at h
      · cases h
      · rename_i hp
        have hz : 0 < getPageSize n ps ∧ getPageSize n ps ∣ n ∧ getPageSize n ps ≤ n := by
          revert hp
          unfold getPageSize
          cases hf : ps.reverse.find? (fun sz => decide (n ≥ sz) && decide (n % sz = 0)) with
          | none => intro hp; exact absurd rfl hp
          | some z =>
            intro _
            have hz := List.find?_some hf
            simp only [Bool.and_eq_true, decide_eq_true_eq] at hz
            exact ⟨hps z (List.mem_reverse.1 (List.mem_of_find?_eq_some hf)), Nat.dvd_of_mod_eq_zero hz.2, hz.1⟩
        split at h
        · cases h
        · rename_i r' hc
          rw [checked] at hc
          split at hc
          · split at h
            · rename_i ht
              cases hc
              cases h
              exact ⟨rfl, rfl, by subst ht; exact roundUpUnsafe_self _ _ hz.1 hz.2.1, rfl, frames_shows _ _ _ hz.1 hz.2.1,
                frames_mappable _ _ _ hz.1 hz.2.2⟩
            · cases h
          · cases hc

example : (mmio [4096, 2097152] (some (.int 0x10000000)) (some (.int 8192)) none 8192).toOption.map (·.1) =
    some ⟨8192, [⟨0x10000000, 4096, 0⟩, ⟨0x10001000, 4096, 4096⟩], false⟩ := by decide

/-- **Disagreement with C86.** An address that no frame can have is accepted. -/
theorem unaligned_accepted : ∃ r, mmio [4096, 2097152] (some (.int 0x10000800)) (some (.int 4096)) none 4096 = .ok r ∧
    ¬ Mappable r.1.frames := by
  refine ⟨(⟨4096, [⟨0x10000800, 4096, 0⟩], false⟩, 0x10000800, 4096), by decide, ?_⟩
  intro h
  have := h ⟨0x10000800, 4096, 0⟩ (by simp)
  revert this
  decide

/-- **C86 (translation).** Addresses are translated exactly if the whole range is in the device, to the place where it
is mapped. Missing are ranges that end after the last address (`translate_wraps`). -/
theorem translate_partial (w P S x n : Nat) (h : x + n < 2 ^ w) :
    translate w P S x n = if P ≤ x ∧ x + n ≤ P + S then some (x - P) else none := by
  rw [translate, Nat.mod_eq_of_lt h]

/-- **Disagreement with C86.** A range that wraps around is translated, although most of it is not in the device. -/
theorem translate_wraps : translate 32 0x10000000 4096 0x10000000 0xf0000000 = some 0 := by decide

end Verif.DevMem
