import Verif.BootFrames.Spec
import Verif.Macros.Props
import Mathlib.Tactic.ByContra

/-!
# Boot information in a component (C93)
-/

namespace Verif.BootFrames

/-- C93: a symbol of whole pages that is filled with a piece of boot information shows this piece, and zeros after its end. -/
theorem filled (piece : List Nat) (pages k : Nat) (hk : k < pages * 4096) :
    symbolByte piece (fillFrames (pages * 4096)) k = some ((piece[k]?).getD 0) := by
  have hd : pages * 4096 / 4096 = pages := Nat.mul_div_cancel _ (by decide)
  have hi : k / 4096 < pages := by omega
  have hl : (if pages * 4096 - k / 4096 * 4096 ≥ 4096 then 4096 else pages * 4096 - k / 4096 * 4096) = 4096 := by
    rw [if_pos]; omega
  rw [symbolByte, fillFrames, hd, List.getElem?_map, List.getElem?_range hi]
  simp only [Option.map_some, hl, frameByte, Nat.zero_le, Nat.zero_add, true_and, Nat.sub_zero]
  rw [if_pos (by omega)]
  have : k / 4096 * 4096 + k % 4096 = k := by omega
  rw [this]

/-- Nothing is behind the last whole page. -/
theorem beyond (piece : List Nat) (size k : Nat) (hk : size / 4096 * 4096 ≤ k) : symbolByte piece (fillFrames size) k = none := by
  rw [symbolByte, fillFrames, List.getElem?_eq_none (by simp; omega)]
  rfl

/-- **Disagreement with C93.** A symbol that is not a whole number of pages has no memory behind its end. -/
theorem tail_not_backed (piece : List Nat) (size : Nat) (h : size % 4096 ≠ 0) : ∃ k < size, symbolByte piece (fillFrames size) k = none :=
  ⟨size - 1, by omega, beyond piece size _ (by omega)⟩

theorem dtbSymbolSize_eq (d : Dtb) : ∃ pages, dtbSymbolSize d = some (pages * 4096) ∧ d.size + 4096 ≤ pages * 4096 ∧
    pages * 4096 < d.size + 2 * 4096 := by
  refine ⟨(d.size + 4095) / 4096 + 1, ?_, by omega, by omega⟩
  have h : Int.fdiv ((d.size : Int) + 4096 - 1) 4096 = (((d.size + 4095) / 4096 : Nat) : Int) := by
    have : ((d.size : Int) + 4096 - 1) = ((d.size + 4095 : Nat) : Int) := by omega
    rw [this, Int.fdiv_eq_ediv_of_nonneg _ (by decide)]
    rfl
  have hr : Macros.roundUp (d.size : Int) 4096 = some ((((d.size + 4095) / 4096 : Nat) : Int) * 4096) := by
    rw [Macros.roundUp, if_pos (by decide), h]
  rw [dtbSymbolSize, hr, Option.map_some, Option.some.injEq]
  generalize (d.size + 4095) / 4096 = q
  omega

/-- C93: a component that has a device tree in its settings finds it, byte for byte, behind the pointer of the interface; the symbol has memory behind
all of its bytes, and less than two pages more than the tree. -/
theorem device_tree (d : Dtb) (header : Nat) (hh : header ≤ 4096) (hdr tree : List Nat) (h1 : hdr.length = header) (h2 : tree.length = d.size) :
    ∃ size fs, dtbSymbolSize d = some size ∧ dtbFrames d = some fs ∧ size < d.size + 2 * 4096 ∧
      (∀ k < size, (symbolByte (hdr ++ tree) fs k).isSome) ∧
      ∀ k < d.size, fdtByte header (dtbFrames d) (hdr ++ tree) k = some (tree[k]?) := by
  obtain ⟨pages, h, hlo, hhi⟩ := dtbSymbolSize_eq d
  have hf : dtbFrames d = some (fillFrames (pages * 4096)) := by rw [dtbFrames, h]; rfl
  refine ⟨_, _, h, hf, hhi, ?_, ?_⟩
  · intro k hk
    rw [filled _ _ _ hk]; rfl
  · intro k hk
    rw [hf, fdtByte, Option.map_some, filled _ _ _ (by omega), List.getElem?_append_right (by omega)]
    have : header + k - hdr.length = k := by omega
    rw [this, List.getElem?_eq_getElem (by omega)]
    rfl

/-- C93: the setting of the component is used, and otherwise that of the first connection that has one. -/
theorem dtb_choice (own : Option Dtb) (composition : Option (List (Option Dtb))) (d : Dtb) : dtbOf own composition = some d ↔
    own = some d ∨ own = none ∧ ∃ cs a b, composition = some cs ∧ cs = a ++ some d :: b ∧ ∀ x ∈ a, x = none := by
  have key : ∀ cs : List (Option Dtb), firstDtb cs = some d ↔ ∃ a b, cs = a ++ some d :: b ∧ ∀ x ∈ a, x = none := by
    intro cs
    induction cs with
    | nil => simp [firstDtb]
    | cons c cs ih =>
      cases c with
      | none =>
        rw [firstDtb, ih]
        constructor
        · rintro ⟨a, b, rfl, h⟩
          exact ⟨none :: a, b, rfl, by simpa using h⟩
        · rintro ⟨a, b, h, hn⟩
          cases a with
          | nil => cases h
          | cons x a =>
            simp only [List.cons_append, List.cons.injEq] at h
            exact ⟨a, b, h.2, fun x hx => hn x (by simp [hx])⟩
      | some e =>
        rw [firstDtb]
        constructor
        · intro h; cases h
          exact ⟨[], cs, rfl, by simp⟩
        · rintro ⟨a, b, h, hn⟩
          cases a with
          | nil => simp only [List.nil_append, List.cons.injEq] at h; exact h.1
          | cons x a =>
            simp only [List.cons_append, List.cons.injEq] at h
            have := hn x (by simp)
            rw [← h.1] at this
            cases this
  cases own with
  | some e => simp [dtbOf]
  | none =>
    cases composition with
    | none => simp [dtbOf]
    | some cs => simp [dtbOf, key]

/-- C93: a component without a device tree in its settings gets the null pointer, and only such a component does. -/
theorem no_device_tree (own : Option Dtb) (composition : Option (List (Option Dtb))) (header : Nat) (piece : List Nat) (k : Nat) :
    fdtByte header ((dtbOf own composition).bind dtbFrames) piece k = none ↔
      own = none ∧ ∀ cs, composition = some cs → ∀ x ∈ cs, x = none := by
  have hs : ∀ d, ∃ fs, dtbFrames d = some fs := by
    intro d
    obtain ⟨pages, h, _⟩ := dtbSymbolSize_eq d
    exact ⟨_, by rw [dtbFrames, h]; rfl⟩
  have hn : fdtByte header ((dtbOf own composition).bind dtbFrames) piece k = none ↔ dtbOf own composition = none := by
    cases hd : dtbOf own composition with
    | none => simp [fdtByte]
    | some d =>
      obtain ⟨fs, hf⟩ := hs d
      simp [fdtByte, hf]
  have hf : ∀ cs, firstDtb cs = none ↔ ∀ x ∈ cs, x = none := by
    intro cs
    induction cs with
    | nil => simp [firstDtb]
    | cons c cs ih => cases c <;> simp [firstDtb, ih]
  rw [hn]
  cases own with
  | some d => simp [dtbOf]
  | none =>
    cases composition with
    | none => simp [dtbOf]
    | some cs => simp [dtbOf, hf]

theorem readAll_inside (piece : List Nat) : ∀ ks : List Nat, (∀ k ∈ ks, k < 4096) →
    readAll piece ks = some (ks.map (fun k => (piece[k]?).getD 0)) := by
  intro ks
  induction ks with
  | nil => intro _; rfl
  | cons k ks ih =>
    intro h
    rw [readAll, show fillFrames 4096 = fillFrames (1 * 4096) from rfl, filled piece 1 k (by have := h k (by simp); omega),
      ih (fun k hk => h k (by simp [hk]))]
    rfl

theorem readAll_outside (piece : List Nat) : ∀ ks : List Nat, (∃ k ∈ ks, 4096 ≤ k) → readAll piece ks = none := by
  intro ks
  induction ks with
  | nil => rintro ⟨k, hk, _⟩; cases hk
  | cons k ks ih =>
    rintro ⟨j, hj, hl⟩
    rw [readAll]
    rcases List.mem_cons.mp hj with rfl | hj
    · rw [beyond piece 4096 j (by omega)]; rfl
    · rw [ih ⟨j, hj, hl⟩]
      cases symbolByte piece (fillFrames 4096) k <;> rfl

theorem mapping_eq (xs : Extra) (type : Nat) : (∀ p, mapping xs type = some p → (type, p) ∈ xs) ∧
    (mapping xs type = none → ∀ p, (type, p) ∉ xs) := by
  have key : ∀ (xs : Extra) (m : Option (Option (List Nat))),
      (∀ p, xs.foldl (fun m x => if type = x.1 then some x.2 else m) m = some p → (type, p) ∈ xs ∨ m = some p) ∧
      (xs.foldl (fun m x => if type = x.1 then some x.2 else m) m = none → (∀ p, (type, p) ∉ xs) ∧ m = none) := by
    intro xs
    induction xs with
    | nil => intro m; simp
    | cons x xs ih =>
      intro m
      obtain ⟨t, q⟩ := x
      rw [List.foldl_cons]
      obtain ⟨i1, i2⟩ := ih (if type = t then some q else m)
      constructor
      · intro p hp
        rcases i1 p hp with h | h
        · exact .inl (by simp [h])
        · split at h
          · rename_i ht
            cases h
            exact .inl (by simp [ht])
          · exact .inr h
      · intro hp
        obtain ⟨j1, j2⟩ := i2 hp
        split at j2
        · cases j2
        · rename_i ht
          refine ⟨fun p hp => ?_, j2⟩
          rcases List.mem_cons.mp hp with h | h
          · simp only [Prod.mk.injEq] at h
            exact ht h.1
          · exact j1 p h
  obtain ⟨k1, k2⟩ := key xs none
  refine ⟨fun p hp => (k1 p hp).resolve_right (by simp), fun hp => (k2 hp).1⟩

/-- C93 (partial): boot information that was asked for is copied as far as there is room; for what was not asked for, or does not exist,
the answer is -1. Missing are pieces of more than one page (`large_piece`). -/
theorem extended_partial (xs : Extra) (hx : OneLoader xs) (type maxLen : Nat) :
    (∀ piece, Provided xs type (some piece) → piece.length ≤ 4096 ∨ maxLen ≤ 4096 → extended xs type maxLen = .copied (piece.take maxLen)) ∧
    ((∀ piece, ¬ Provided xs type (some piece)) → extended xs type maxLen = .absent) := by
  obtain ⟨m1, m2⟩ := mapping_eq xs type
  constructor
  · intro piece hp hl
    cases hm : mapping xs type with
    | none => exact absurd hp (m2 hm _)
    | some p =>
      have := hx type _ _ (m1 p hm) hp
      subst this
      simp only [extended, hm]
      rw [readAll_inside piece _ (fun k hk => by rw [List.mem_range] at hk; omega)]
      simp only [Answer.copied.injEq]
      apply List.ext_getElem?
      intro i
      rw [List.getElem?_map, List.getElem?_take]
      by_cases hi : i < min piece.length maxLen
      · rw [List.getElem?_range hi, if_pos (by omega), Option.map_some, List.getElem?_eq_getElem (by omega)]
        rfl
      · rw [List.getElem?_eq_none (by simp; omega), Option.map_none]
        split
        · rw [List.getElem?_eq_none (by omega)]
        · rfl
  · intro hn
    cases hm : mapping xs type with
    | none => simp [extended, hm]
    | some p =>
      cases p with
      | none => simp [extended, hm]
      | some piece => exact absurd (m1 _ hm) (hn piece)

/-- **Disagreement with C93.** A piece of boot information that is larger than a page is copied from beyond the page that was filled. -/
theorem large_piece (xs : Extra) (hx : OneLoader xs) (type maxLen : Nat) (piece : List Nat) (hp : Provided xs type (some piece))
    (h1 : 4096 < piece.length) (h2 : 4096 < maxLen) : extended xs type maxLen = .outside := by
  obtain ⟨m1, m2⟩ := mapping_eq xs type
  cases hm : mapping xs type with
  | none => exact absurd hp (m2 hm _)
  | some p =>
    have := hx type _ _ (m1 p hm) hp
    subst this
    simp only [extended, hm]
    rw [readAll_outside piece _ ⟨4096, by rw [List.mem_range]; omega, Nat.le_refl _⟩]

/-- A device tree of two pages and a bit. -/
example : dtbSymbolSize ⟨8200⟩ = some 16384 ∧ (dtbFrames ⟨8200⟩).map List.length = some 4 ∧
    (dtbFrames ⟨8200⟩).bind (·[2]?) = some ⟨0, 4096, 8192⟩ := by decide

/-- Pieces for three types. -/
def demo : Extra := [(1, some [16, 0, 7, 8]), (5, none), (6, some [6])]

example : OneLoader demo := by
  intro t p q hp hq
  simp only [demo, List.mem_cons, List.not_mem_nil, or_false, Prod.mk.injEq] at hp hq
  rcases hp with ⟨rfl, rfl⟩ | ⟨rfl, rfl⟩ | ⟨rfl, rfl⟩ <;> rcases hq with ⟨h, rfl⟩ | ⟨h, rfl⟩ | ⟨h, rfl⟩ <;> first | rfl | (exact absurd h (by decide))

example : extended demo 1 3 = .copied [16, 0, 7] := by decide

example : extended demo 5 3 = .absent ∧ extended demo 2 3 = .absent := by decide

end Verif.BootFrames
