import Verif.Interrupts.Spec
import Mathlib.Data.List.Basic

namespace Verif.Interrupts
open Spec

theorem flatMap_cells_get (specs : List Specifier) (pre : List Val) : ∀ (i k : Nat), k < 3 →
    (pre ++ specs.flatMap cells)[pre.length + (i * 3 + k)]? = (specs[i]?).bind (fun s => (cells s)[k]?) := by
  induction specs generalizing pre with
  | nil =>
    intro i k _
    rw [List.flatMap_nil, List.append_nil, List.getElem?_eq_none (by omega)]
    simp
  | cons s specs ih =>
    intro i k hk
    rw [List.flatMap_cons]
    cases i with
    | zero =>
      rw [← List.append_assoc, List.getElem?_append_left (by simp [cells]; omega),
        List.getElem?_append_right (by omega)]
      simp
    | succ i =>
      have := ih (pre ++ cells s) i k hk
      rw [← List.append_assoc]
      simp only [List.length_append] at this
      have e : pre.length + ((i + 1) * 3 + k) = pre.length + (cells s).length + (i * 3 + k) := by
        simp [cells]; omega
      rw [e, this]
      simp

theorem flatMap_cells_length (specs : List Specifier) : (specs.flatMap cells).length = 3 * specs.length := by
  induction specs with
  | nil => rfl
  | cons s specs ih =>
    rw [List.flatMap_cons, List.length_append, ih]
    simp [cells]; omega

theorem armLoop_spec (vals : List Val) (skip : Nat) (f : Nat → Irq) : ∀ is : List Nat,
    (∀ i ∈ is, armIrq vals[i * 3 + skip]? vals[i * 3 + skip + 1]? vals[i * 3 + skip + 2]? = .ok (f i)) →
    armLoop vals skip is = .ok (is.map f) := by
  intro is
  induction is with
  | nil => intro _; rfl
  | cons i is ih =>
    intro h
    simp only [armLoop, h i (by simp), ih (fun j hj => h j (by simp [hj])), List.map_cons]

theorem genLoop_spec (vals : List Val) (c : Nat) (f : Nat → Irq) : ∀ is : List Nat,
    (∀ i ∈ is, genIrq vals c i = .ok (f i)) → genLoop vals c is = .ok (is.map f) := by
  intro is
  induction is with
  | nil => intro _; rfl
  | cons i is ih =>
    intro h
    simp only [genLoop, h i (by simp), ih (fun j hj => h j (by simp [hj])), List.map_cons]

theorem range_map_get {α : Type} (l : List α) (d : α) : (List.range l.length).map (fun i => (l[i]?).getD d) = l := by
  apply List.ext_getElem
  · simp
  · intro i h1 h2
    simp at h1
    simp [h1]

theorem armIrq_spec (s : Specifier) (hp : Plain s) :
    armIrq (some (.num s.type)) (some (.num s.number)) (some (.num s.flags)) = .ok ⟨.num (armNumber s), trigger s⟩ := by
  obtain ⟨ty, n, fl⟩ := s
  simp only [armIrq, armNumber, trigger]
  have ht : (if fl < 4 then 1 else 0) = (if fl = 1 ∨ fl = 2 then (1 : Nat) else 0) := by
    rcases hp with h | h | h | h <;> simp only at h <;> subst h <;> decide
  by_cases h0 : ty = 0
  · subst h0
    simp [ht]
  · simp [ht, h0]

/-- C55, ARM: an `interrupts` property made of three-cell specifiers decodes to one entry per
specifier, with the right number and trigger, if there are not too many; otherwise an exception is
raised. Partial: trailing cells are ignored instead of rejected (`arm_trailing_ignored`), and other
flag values are misread (`arm_flags_with_mask`). -/
theorem arm_decode_partial (specs : List Specifier) (hp : ∀ s ∈ specs, Plain s) (ext : Option (List Val)) (max : Int) :
    if max = -1 ∨ (specs.length : Int) ≤ max then
      parse ⟨some (specs.flatMap cells), ext⟩ max true =
        .ok (specs.map (fun s => ⟨.num (armNumber s), trigger s⟩))
    else ∃ e, parse ⟨some (specs.flatMap cells), ext⟩ max true = .error e := by
  have hn : (specs.flatMap cells).length / 3 = specs.length := by rw [flatMap_cells_length]; omega
  simp only [parse, armParse, if_true, Bool.false_eq_true, if_false, hn]
  by_cases hmax : max = -1 ∨ (specs.length : Int) ≤ max
  · rw [if_pos hmax, if_neg (by omega)]
    rw [armLoop_spec _ 0 (fun i => ((specs.map (fun s => (⟨.num (armNumber s), trigger s⟩ : Irq)))[i]?).getD ⟨.num 0, 0⟩)]
    · have := range_map_get (specs.map (fun s => (⟨.num (armNumber s), trigger s⟩ : Irq))) ⟨.num 0, 0⟩
      rw [List.length_map] at this
      rw [this]
    · intro i hi
      rw [List.mem_range] at hi
      have g := flatMap_cells_get specs [] i
      simp only [List.nil_append, List.length_nil, Nat.zero_add] at g
      have g0 := g 0 (by omega)
      have g1 := g 1 (by omega)
      have g2 := g 2 (by omega)
      rw [List.getElem?_eq_getElem hi] at g0 g1 g2
      simp only [Nat.add_zero, Option.bind_some] at g0 g1 g2 ⊢
      rw [g0, g1, g2]
      have := armIrq_spec specs[i] (hp _ (List.getElem_mem hi))
      simp only [cells, List.getElem?_cons_zero, List.getElem?_cons_succ]
      rw [this]
      simp [List.getElem?_map, List.getElem?_eq_getElem hi]
  · rw [if_neg hmax, if_pos (by omega)]
    exact ⟨_, rfl⟩

/-- C55, ARM: one extended interrupt. Partial: several extended interrupts are misread
(`arm_extended_two_wrong`). -/
theorem arm_extended_partial (ref : Val) (s : Specifier) (hp : Plain s) (max : Int) (hmax : max = -1 ∨ 1 ≤ max) :
    parse ⟨none, some (ref :: cells s)⟩ max true = .ok [⟨.num (armNumber s), trigger s⟩] := by
  have h4 : (ref :: cells s).length / 4 = 1 := by simp [cells]
  simp only [parse, armParse, if_true, h4]
  rw [if_neg (by omega)]
  have := armIrq_spec s hp
  simp [armLoop, cells, List.range_succ, this]

theorem mod4_trigger (s : Specifier) (hp : Plain s) : (if s.flags % 4 ≠ 0 then (1 : Nat) else 0) = trigger s := by
  obtain ⟨ty, n, fl⟩ := s
  unfold trigger
  rcases hp with h | h | h | h <;> simp only at h <;> subst h <;> simp

theorem genParse_three (specs : List Specifier) (hne : specs ≠ []) (hp : ∀ s ∈ specs, Plain s) (max : Int) :
    if max = -1 ∨ (specs.length : Int) ≤ max then
      genParse (specs.flatMap cells) max = .ok (specs.map (fun s => ⟨.num s.number, trigger s⟩))
    else ∃ e, genParse (specs.flatMap cells) max = .error e := by
  have hl := flatMap_cells_length specs
  have hpos : 0 < specs.length := List.length_pos_iff.mpr hne
  have hc : (if (specs.flatMap cells).length < 3 then 1 else 3) = 3 := by rw [if_neg (by omega)]
  have hn : (specs.flatMap cells).length / 3 = specs.length := by omega
  have hmod : ¬ ((specs.flatMap cells).length % 3 ≠ 0) := by omega
  unfold genParse
  simp only [hc, hn, if_neg hmod]
  by_cases hmax : max = -1 ∨ (specs.length : Int) ≤ max
  · rw [if_pos hmax, if_neg (by omega)]
    rw [genLoop_spec _ 3 (fun i => ((specs.map (fun s => (⟨.num s.number, trigger s⟩ : Irq)))[i]?).getD ⟨.num 0, 0⟩)]
    · have := range_map_get (specs.map (fun s => (⟨.num s.number, trigger s⟩ : Irq))) ⟨.num 0, 0⟩
      rw [List.length_map] at this
      rw [this]
    · intro i hi
      rw [List.mem_range] at hi
      have g := flatMap_cells_get specs [] i
      simp only [List.nil_append, List.length_nil, Nat.zero_add] at g
      have g0 := g 0 (by omega)
      have g1 := g 1 (by omega)
      have g2 := g 2 (by omega)
      rw [List.getElem?_eq_getElem hi] at g0 g1 g2
      simp only [Nat.add_zero, Option.bind_some, cells, List.getElem?_cons_zero, List.getElem?_cons_succ] at g0 g1 g2
      have ht := mod4_trigger specs[i] (hp _ (List.getElem_mem hi))
      unfold genIrq parseInt
      rw [if_pos rfl]
      change (match (match (specs.flatMap cells)[i * 3 + 1]? with
        | some (.num n) => Except.ok n | some (.other _) => .error "TemplateError: is not a number" | none => .error "IndexError") with
        | .error e => _ | .ok irq => _) = _
      have e0 : (specs.flatMap cells)[i * 3]? = some (.num specs[i].type) := g0
      have e1 : (specs.flatMap cells)[i * 3 + 1]? = some (.num specs[i].number) := g1
      have e2 : (specs.flatMap cells)[i * 3 + 2]? = some (.num specs[i].flags) := g2
      simp only [e0, e1, e2, ht]
      simp [List.getElem?_map, List.getElem?_eq_getElem hi]
  · rw [if_neg hmax, if_pos (by omega)]
    exact ⟨_, rfl⟩

theorem genParse_one (ids : List Int) (hshort : ids.length < 3) (max : Int) (hmax : max = -1 ∨ (ids.length : Int) ≤ max) :
    genParse (ids.map .num) max = .ok (ids.map (fun n => ⟨.num n, 1⟩)) := by
  unfold genParse
  simp only [List.length_map, if_pos hshort, Nat.mod_one, Nat.div_one]
  rw [if_neg (by decide), if_neg (by omega)]
  rw [genLoop_spec _ 1 (fun i => ((ids.map (fun n => (⟨.num n, 1⟩ : Irq)))[i]?).getD ⟨.num 0, 0⟩)]
  · have := range_map_get (ids.map (fun n => (⟨.num n, 1⟩ : Irq))) ⟨.num 0, 0⟩
    rw [List.length_map] at this
    rw [this]
  · intro i hi
    rw [List.mem_range] at hi
    unfold genIrq
    rw [if_neg (by decide)]
    simp [parseInt, List.getElem?_map, List.getElem?_eq_getElem hi]

/-- C55, other architectures: a property made of three-cell specifiers, or of at most two one-cell
specifiers, decodes to one entry per specifier. Partial: see `three_one_cell_wrong`. -/
theorem other_decode_partial (max : Int) (ext : Option (List Val)) (ref : Val) :
    (∀ specs : List Specifier, specs ≠ [] → (∀ s ∈ specs, Plain s) → (max = -1 ∨ (specs.length : Int) ≤ max) →
      parse ⟨some (specs.flatMap cells), ext⟩ max false = .ok (specs.map (fun s => ⟨.num s.number, trigger s⟩)) ∧
      parse ⟨none, some (ref :: specs.flatMap cells)⟩ max false = .ok (specs.map (fun s => ⟨.num s.number, trigger s⟩))) ∧
    (∀ ids : List Int, ids.length < 3 → (max = -1 ∨ (ids.length : Int) ≤ max) →
      parse ⟨some (ids.map .num), ext⟩ max false = .ok (ids.map (fun n => ⟨.num n, 1⟩)) ∧
      parse ⟨none, some (ref :: ids.map .num)⟩ max false = .ok (ids.map (fun n => ⟨.num n, 1⟩))) := by
  constructor
  · intro specs hne hp hmax
    have h := genParse_three specs hne hp max
    rw [if_pos hmax] at h
    refine ⟨by simp only [parse, Bool.false_eq_true, if_false]; exact h, ?_⟩
    simp only [parse, Bool.false_eq_true, if_false]
    have hl := flatMap_cells_length specs
    have hpos : 0 < specs.length := List.length_pos_iff.mpr hne
    rw [if_pos (by rw [List.length_cons]; omega)]
    simpa using h
  · intro ids hshort hmax
    have h := genParse_one ids hshort max hmax
    refine ⟨by simp only [parse, Bool.false_eq_true, if_false]; exact h, ?_⟩
    simp only [parse, Bool.false_eq_true, if_false]
    cases ids with
    | nil => rfl
    | cons a ids =>
      rw [if_pos (by simp)]
      simpa using h

/-- C55, other architectures: malformed lengths, too many interrupts and values that are not
numbers raise an error. -/
theorem other_malformed (vals : List Val) (ext : Option (List Val)) (max : Int) :
    (3 ≤ vals.length → vals.length % 3 ≠ 0 → ∃ e, parse ⟨some vals, ext⟩ max false = .error e) ∧
    (∀ out, parse ⟨some vals, ext⟩ max false = .ok out →
      (max = -1 ∨ (out.length : Int) ≤ max) ∧ ∀ v ∈ vals, ∃ n, v = .num n) := by
  simp only [parse, Bool.false_eq_true, if_false]
  constructor
  · intro h3 hmod
    unfold genParse
    have hc : (if vals.length < 3 then 1 else 3) = 3 := by rw [if_neg (by omega)]
    simp only [hc, if_pos hmod]
    exact ⟨_, rfl⟩
  · intro out h
    have hlen : ∀ (c : Nat) (is : List Nat) (out : List Irq), genLoop vals c is = .ok out →
        out.length = is.length ∧ ∀ i ∈ is, ∃ q, genIrq vals c i = .ok q := by
      intro c is
      induction is with
      | nil => intro out h; cases h; simp
      | cons i is ih =>
        intro out h
        simp only [genLoop] at h
        cases hi : genIrq vals c i with
        | error e => rw [hi] at h; cases h
        | ok q =>
          rw [hi] at h
          simp only [] at h
          cases hr : genLoop vals c is with
          | error e => rw [hr] at h; cases h
          | ok r =>
            rw [hr] at h
            cases h
            obtain ⟨a, b⟩ := ih r hr
            refine ⟨by simp [a], ?_⟩
            intro j hj
            rcases List.mem_cons.mp hj with rfl | hj
            · exact ⟨q, hi⟩
            · exact b j hj
    have hint : ∀ (idx : Nat) (n : Int), parseInt vals idx = .ok n → vals[idx]? = some (.num n) := by
      intro idx n hn
      unfold parseInt at hn
      cases hx : vals[idx]? with
      | none => rw [hx] at hn; cases hn
      | some v =>
        rw [hx] at hn
        cases v with
        | num m => cases hn; rfl
        | other s => cases hn
    unfold genParse at h
    by_cases h3 : vals.length < 3
    · simp only [if_pos h3, Nat.mod_one, Nat.div_one] at h
      rw [if_neg (by decide)] at h
      by_cases hm : max ≠ -1 ∧ (vals.length : Int) > max
      · rw [if_pos hm] at h; cases h
      · rw [if_neg hm] at h
        obtain ⟨a, b⟩ := hlen 1 _ out h
        rw [List.length_range] at a
        refine ⟨by omega, ?_⟩
        intro v hv
        obtain ⟨i, hi, hiv⟩ := List.getElem_of_mem hv
        obtain ⟨q, hq⟩ := b i (List.mem_range.mpr hi)
        unfold genIrq at hq
        rw [if_neg (by decide)] at hq
        cases hp : parseInt vals i with
        | error e => rw [hp] at hq; cases hq
        | ok n =>
          have := hint i n hp
          rw [List.getElem?_eq_getElem hi, hiv] at this
          exact ⟨n, Option.some.inj this⟩
    · simp only [if_neg h3] at h
      by_cases hmod : vals.length % 3 ≠ 0
      · rw [if_pos hmod] at h; cases h
      · rw [if_neg hmod] at h
        by_cases hm : max ≠ -1 ∧ ((vals.length / 3 : Nat) : Int) > max
        · rw [if_pos hm] at h; cases h
        · rw [if_neg hm] at h
          obtain ⟨a, b⟩ := hlen 3 _ out h
          rw [List.length_range] at a
          refine ⟨by omega, ?_⟩
          intro v hv
          obtain ⟨i, hi, hiv⟩ := List.getElem_of_mem hv
          obtain ⟨q, hq⟩ := b (i / 3) (List.mem_range.mpr (by omega))
          unfold genIrq at hq
          rw [if_pos rfl] at hq
          cases h1 : parseInt vals (i / 3 * 3 + 1) with
          | error e => rw [h1] at hq; cases hq
          | ok n1 =>
            rw [h1] at hq
            simp only [] at hq
            cases h2 : parseInt vals (i / 3 * 3 + 2) with
            | error e => rw [h2] at hq; cases hq
            | ok n2 =>
              rw [h2] at hq
              simp only [] at hq
              cases h0 : parseInt vals (i / 3 * 3) with
              | error e => rw [h0] at hq; cases hq
              | ok n0 =>
                have hcase : i = i / 3 * 3 ∨ i = i / 3 * 3 + 1 ∨ i = i / 3 * 3 + 2 := by omega
                have hget : vals[i]? = some v := by rw [List.getElem?_eq_getElem hi, hiv]
                rcases hcase with e | e | e
                · rw [e, hint _ _ h0] at hget; exact ⟨n0, (Option.some.inj hget).symm⟩
                · rw [e, hint _ _ h1] at hget; exact ⟨n1, (Option.some.inj hget).symm⟩
                · rw [e, hint _ _ h2] at hget; exact ⟨n2, (Option.some.inj hget).symm⟩

/-- C55: no interrupts property, no interrupts. -/
theorem no_property (max : Int) (arm : Bool) : parse ⟨none, none⟩ max arm = .ok [] := rfl

/-! ### Concrete cases -/

/-- The hypotheses can be met. -/
example : parse ⟨some ([⟨0, 5, 4⟩, ⟨1, 7, 1⟩].flatMap cells), none⟩ (-1) true =
    .ok [⟨.num 37, 0⟩, ⟨.num 7, 1⟩] := rfl

example : parse ⟨none, some (.num 99 :: cells ⟨0, 5, 4⟩)⟩ (-1) false = .ok [⟨.num 5, 0⟩] := rfl

/-- C55 does not hold in full on ARM: cells after the last complete specifier are ignored. -/
theorem arm_trailing_ignored :
    parse ⟨some [.num 0, .num 5, .num 4, .num 0, .num 6], none⟩ (-1) true = .ok [⟨.num 37, 0⟩] := rfl

/-- C55 does not hold in full on ARM: the second of two extended interrupts is read from the wrong
cells: the number reported is 0 (its type) and not 38. -/
theorem arm_extended_two_wrong :
    parse ⟨none, some (.num 99 :: cells ⟨0, 5, 4⟩ ++ .num 99 :: cells ⟨0, 6, 4⟩)⟩ (-1) true =
      .ok [⟨.num 37, 0⟩, ⟨.num 0, 0⟩] := rfl

/-- C55 does not hold in full on ARM: an edge triggered private interrupt with a processor mask in
its flags (here 0xf01) is taken for level triggered; on other architectures it is not. -/
theorem arm_flags_with_mask :
    parse ⟨some (cells ⟨1, 5, 0xf01⟩), none⟩ (-1) true = .ok [⟨.num 5, 0⟩] ∧
    parse ⟨some (cells ⟨1, 5, 0xf01⟩), none⟩ (-1) false = .ok [⟨.num 5, 1⟩] := ⟨rfl, rfl⟩

/-- C55 does not hold in full elsewhere: three one-cell interrupts are read as one specifier. -/
theorem three_one_cell_wrong :
    parse ⟨some [.num 10, .num 11, .num 12], none⟩ (-1) false = .ok [⟨.num 11, 0⟩] := rfl

end Verif.Interrupts
