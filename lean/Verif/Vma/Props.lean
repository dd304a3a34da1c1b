import Verif.Vma.Spec

/-!
# C66: a range of memory is accepted exactly if it is mapped

`covered_iff` is the exact condition: the byte *after* the range must be mapped as well. So what is accepted is
mapped (`madvise_mapped`, `mincore_mapped`, `mlock_mapped`), and what is mapped is accepted unless it ends where
mapped memory ends (`madvise_iff_partial`, `mincore_iff_partial`, `mlock_iff_partial`; `end_refused` and
`whole_stack_refused` for the rest).
-/

namespace Verif.Vma

theorem lookup_some {vmas : List Vma} {a : Nat} {v : Vma} (h : lookup vmas a = some v) : v ∈ vmas ∧ v.Has a := by
  have h2 := List.find?_some h
  simp only [decide_eq_true_eq] at h2
  exact ⟨List.mem_of_find?_eq_some h, h2.1, h2.2⟩

theorem lookup_none {vmas : List Vma} {a : Nat} (h : lookup vmas a = none) : ∀ v ∈ vmas, ¬ v.Has a := by
  intro v hv hh
  have := List.find?_eq_none.mp h v hv
  simp only [decide_eq_true_eq] at this
  exact this ⟨hh.1, hh.2⟩

theorem real_iff (v : Vma) : (!v.read && !v.write && !v.execute) = false ↔ v.Real := by
  unfold Vma.Real
  cases v.read <;> cases v.write <;> cases v.execute <;> simp

theorem scan_sound (vmas : List Vma) : ∀ (fuel addr len : Nat), scan vmas fuel addr len = true → ∀ a, addr ≤ a → a ≤ addr + len → Mapped vmas a := by
  intro fuel
  induction fuel with
  | zero => intro addr len h; cases h
  | succ fuel ih =>
    intro addr len h a h1 h2
    rw [scan] at h
    cases hl : lookup vmas addr with
    | none => rw [hl] at h; cases h
    | some v =>
      rw [hl] at h
      obtain ⟨hv, hh⟩ := lookup_some hl
      simp only at h
      by_cases hr : (!v.read && !v.write && !v.execute) = true
      · rw [if_pos hr] at h; cases h
      · rw [if_neg hr] at h
        have hreal := (real_iff v).mp (by simpa using hr)
        have := hh.2
        by_cases hlen : v.stop - addr > len
        · exact ⟨v, hv, ⟨by have := hh.1; omega, by omega⟩, hreal⟩
        · rw [if_neg hlen] at h
          by_cases ha : a < v.stop
          · exact ⟨v, hv, ⟨by have := hh.1; omega, ha⟩, hreal⟩
          · exact ih _ _ h a (by omega) (by omega)

theorem scan_complete {W : Nat} {vmas : List Vma} (hp : Proper W vmas) : ∀ (fuel addr len : Nat), W < addr + fuel → (∀ a, addr ≤ a → a ≤ addr + len → Mapped vmas a) →
    scan vmas fuel addr len = true := by
  intro fuel
  induction fuel with
  | zero =>
    intro addr len hf h
    obtain ⟨v, hv, hh, _⟩ := h addr (Nat.le_refl _) (by omega)
    have := hp.inside v hv
    have := hh.2
    omega
  | succ fuel ih =>
    intro addr len hf h
    obtain ⟨w, hw, hwh, hwr⟩ := h addr (Nat.le_refl _) (by omega)
    rw [scan]
    cases hl : lookup vmas addr with
    | none => exact absurd hwh (lookup_none hl w hw)
    | some v =>
      obtain ⟨hv, hh⟩ := lookup_some hl
      have hreal := (hp.agree w hw v hv addr hwh hh).mp hwr
      simp only
      rw [if_neg (by rw [(real_iff v).mpr hreal]; simp)]
      by_cases hlen : v.stop - addr > len
      · rw [if_pos hlen]
      · rw [if_neg hlen]
        have := hh.2
        exact ih _ _ (by omega) fun a h1 h2 => h a (by omega) (by omega)

/-- **C66, the exact condition.** The range and the byte after it. -/
theorem covered_iff (W : Nat) (vmas : List Vma) (hp : Proper W vmas) (addr len : Nat) (hlen : len < W) :
    covered W vmas addr len = true ↔ AllMapped vmas addr (len + 1) := by
  unfold covered AllMapped
  by_cases hw : W - 1 - len < addr
  · rw [if_pos hw]
    simp only [Bool.false_eq_true, false_iff]
    intro h
    obtain ⟨v, hv, hh, _⟩ := h (addr + len) (by omega) (by omega)
    have := hp.inside v hv
    have := hh.2
    omega
  · rw [if_neg hw]
    constructor
    · intro h a h1 h2
      exact scan_sound vmas _ _ _ h a h1 (by omega)
    · intro h
      exact scan_complete hp _ _ _ (by omega) fun a h1 h2 => h a h1 (by omega)

/-- What is covered is mapped, whatever the table is. -/
theorem covered_mapped (W : Nat) (vmas : List Vma) (addr len : Nat) (h : covered W vmas addr len = true) : AllMapped vmas addr len := by
  unfold covered at h
  split at h
  · cases h
  · exact fun a h1 h2 => scan_sound vmas _ _ _ h a h1 (by omega)

/-- The loop ends: more rounds make no difference. -/
theorem scan_fuel {W : Nat} {vmas : List Vma} (hp : Proper W vmas) : ∀ (fuel fuel' addr len : Nat), W < addr + fuel → fuel ≤ fuel' →
    scan vmas fuel addr len = scan vmas fuel' addr len := by
  intro fuel
  induction fuel with
  | zero =>
    intro fuel' addr len hf _
    cases fuel' with
    | zero => rfl
    | succ fuel' =>
      rw [scan, scan]
      cases hl : lookup vmas addr with
      | none => rfl
      | some v =>
        obtain ⟨hv, hh⟩ := lookup_some hl
        have := hp.inside v hv
        have := hh.2
        omega
  | succ fuel ih =>
    intro fuel' addr len hf hle
    cases fuel' with
    | zero => omega
    | succ fuel' =>
      rw [scan, scan]
      cases hl : lookup vmas addr with
      | none => rfl
      | some v =>
        obtain ⟨hv, hh⟩ := lookup_some hl
        have := hh.2
        simp only
        rw [ih fuel' v.stop _ (by omega) (by omega)]

theorem allMapped_succ (vmas : List Vma) (addr len : Nat) : AllMapped vmas addr (len + 1) ↔ AllMapped vmas addr len ∧ Mapped vmas (addr + len) := by
  constructor
  · exact fun h => ⟨fun a h1 h2 => h a h1 (by omega), h _ (by omega) (by omega)⟩
  · rintro ⟨h1, h2⟩ a ha hb
    by_cases he : a = addr + len
    · rw [he]; exact h2
    · exact h1 a ha (by omega)

/-! ## madvise -/

/-- **C66.** What `madvise` accepts is mapped. -/
theorem madvise_mapped (W page : Nat) (vmas : List Vma) (advices : List Int) (addr length : Nat) (advice : Int)
    (h : madvise W page vmas advices addr length advice = .ok) : addr % page = 0 ∧ 0 < length ∧ advice ∈ advices ∧ AllMapped vmas addr length := by
  unfold madvise at h
  by_cases h1 : page = 0
  · rw [if_pos h1] at h; cases h
  rw [if_neg h1] at h
  by_cases h2 : addr % page ≠ 0
  · rw [if_pos h2] at h; cases h
  rw [if_neg h2] at h
  by_cases h3 : length = 0
  · rw [if_pos h3] at h; cases h
  rw [if_neg h3] at h
  by_cases h4 : advice ∉ advices
  · rw [if_pos h4] at h; cases h
  rw [if_neg h4] at h
  by_cases h5 : covered W vmas addr length = true
  · exact ⟨not_not.mp h2, by omega, not_not.mp h4, covered_mapped _ _ _ _ h5⟩
  · simp [h5] at h

/-- **C66.** Where the range is followed by mapped memory, `madvise` accepts exactly the valid requests about mapped
memory, and tells invalid ones (`EINVAL`) from those that are not mapped (`ENOMEM`). -/
theorem madvise_iff_partial (W page : Nat) (vmas : List Vma) (hp : Proper W vmas) (advices : List Int) (addr length : Nat) (hlen : length < W) (advice : Int)
    (hnext : Mapped vmas (addr + length)) :
    (madvise W page vmas advices addr length advice = .ok ↔ page ≠ 0 ∧ addr % page = 0 ∧ length ≠ 0 ∧ advice ∈ advices ∧ AllMapped vmas addr length) ∧
    (madvise W page vmas advices addr length advice = .ENOMEM ↔ page ≠ 0 ∧ addr % page = 0 ∧ length ≠ 0 ∧ advice ∈ advices ∧ ¬ AllMapped vmas addr length) := by
  have hc := covered_iff W vmas hp addr length hlen
  rw [allMapped_succ] at hc
  have hc' : covered W vmas addr length = true ↔ AllMapped vmas addr length := hc.trans ⟨fun h => h.1, fun h => ⟨h, hnext⟩⟩
  rw [← hc']
  unfold madvise
  by_cases h1 : page = 0
  · simp [h1]
  by_cases h2 : addr % page = 0
  · by_cases h3 : length = 0
    · simp [h1, h2, h3]
    · by_cases h4 : advice ∈ advices
      · cases covered W vmas addr length <;> simp [h1, h2, h3, h4]
      · simp [h1, h2, h3, h4]
  · simp [h1, h2]

/-! ## mincore -/

/-- **C66.** What `mincore` reports as resident is mapped, and exactly one entry is written for each page of it; if
it reports an error, nothing is written. -/
theorem mincore_mapped (W page : Nat) (vmas : List Vma) (addr length vec : Nat) :
    ((mincore W page vmas addr length vec).1 = .ok → AllMapped vmas addr length ∧ addr % page = 0 ∧ 0 < vec ∧
      (mincore W page vmas addr length vec).2 * page < length + page ∧ length ≤ (mincore W page vmas addr length vec).2 * page) ∧
    ((mincore W page vmas addr length vec).1 ≠ .ok → (mincore W page vmas addr length vec).2 = 0) := by
  unfold mincore
  by_cases h1 : page = 0
  · simp [h1]
  rw [if_neg h1]
  by_cases h2 : addr % page = 0
  · rw [if_neg (by simp [h2])]
    by_cases h3 : W - 1 - length < addr
    · simp [h3]
    rw [if_neg h3]
    simp only
    by_cases h4 : vec = 0 ∨ (vec + (length / page + if length % page ≠ 0 then 1 else 0)) % W < vec
    · simp only [if_pos h4]
      simp
    · simp only [if_neg h4]
      by_cases h5 : covered W vmas addr length = true
      · simp only [h5, if_true, ne_eq, not_true_eq_false, false_imp_iff, and_true, true_imp_iff]
        refine ⟨covered_mapped _ _ _ _ h5, h2, by omega, ?_⟩
        have hdm := Nat.div_add_mod length page
        have hlt := Nat.mod_lt length (Nat.pos_of_ne_zero h1)
        rw [Nat.add_mul, Nat.mul_comm (length / page) page]
        split
        · rename_i hm
          have : ¬ length % page = 0 := hm
          omega
        · rename_i hm
          have : length % page = 0 := by by_contra hh; exact hm hh
          omega
      · simp [h5]
  · simp [h2]

/-- **C66.** Where the range is followed by mapped memory, `mincore` succeeds exactly for aligned, mapped ranges and
valid vectors. -/
theorem mincore_iff_partial (W page : Nat) (vmas : List Vma) (hp : Proper W vmas) (addr length vec : Nat) (hlen : length < W) (hnext : Mapped vmas (addr + length))
    (hvec : 0 < vec ∧ vec + (length / page + 1) < W) :
    (mincore W page vmas addr length vec).1 = .ok ↔ page ≠ 0 ∧ addr % page = 0 ∧ AllMapped vmas addr length := by
  have hc := covered_iff W vmas hp addr length hlen
  rw [allMapped_succ] at hc
  have hc' : covered W vmas addr length = true ↔ AllMapped vmas addr length := hc.trans ⟨fun h => h.1, fun h => ⟨h, hnext⟩⟩
  rw [← hc']
  unfold mincore
  by_cases h1 : page = 0
  · simp [h1]
  rw [if_neg h1]
  by_cases h2 : addr % page = 0
  · rw [if_neg (by simp [h2])]
    have h3 : ¬ W - 1 - length < addr := by
      obtain ⟨v, hv, hh, _⟩ := hnext
      have := hp.inside v hv
      have := hh.2
      omega
    rw [if_neg h3]
    have h4 : ¬ (vec = 0 ∨ (vec + (length / page + if length % page ≠ 0 then 1 else 0)) % W < vec) := by
      have : (if length % page ≠ 0 then 1 else 0) ≤ 1 := by split <;> omega
      generalize length / page = q at hvec ⊢
      rw [Nat.mod_eq_of_lt (by omega)]
      omega
    simp only [if_neg h4]
    cases covered W vmas addr length <;> simp [h1, h2]
  · simp [h1, h2]

/-! ## mlock and munlock -/

/-- **C66.** What can be locked is mapped. -/
theorem mlock_mapped (W page : Nat) (vmas : List Vma) (addr len : Nat) (h : mlock W page vmas addr len = .ok) : addr % page = 0 ∧ AllMapped vmas addr len := by
  unfold mlock at h
  by_cases h0 : (addr + len) % W < addr
  · rw [if_pos h0] at h; cases h
  rw [if_neg h0] at h
  by_cases h1 : page = 0
  · rw [if_pos h1] at h; cases h
  rw [if_neg h1] at h
  by_cases h2 : addr % page ≠ 0
  · rw [if_pos h2] at h; cases h
  rw [if_neg h2] at h
  by_cases h5 : covered W vmas addr len = true
  · exact ⟨not_not.mp h2, covered_mapped _ _ _ _ h5⟩
  · rw [if_neg h5] at h; cases h

/-- **C66.** Where the range is followed by mapped memory, exactly aligned mapped ranges can be locked. -/
theorem mlock_iff_partial (W page : Nat) (vmas : List Vma) (hp : Proper W vmas) (addr len : Nat) (hlen : len < W) (hnext : Mapped vmas (addr + len)) :
    mlock W page vmas addr len = .ok ↔ page ≠ 0 ∧ addr % page = 0 ∧ AllMapped vmas addr len := by
  have hc := covered_iff W vmas hp addr len hlen
  rw [allMapped_succ] at hc
  have hc' : covered W vmas addr len = true ↔ AllMapped vmas addr len := hc.trans ⟨fun h => h.1, fun h => ⟨h, hnext⟩⟩
  rw [← hc']
  have h0 : ¬ (addr + len) % W < addr := by
    obtain ⟨v, hv, hh, _⟩ := hnext
    have := hp.inside v hv
    have := hh.2
    rw [Nat.mod_eq_of_lt (by omega)]
    omega
  unfold mlock
  rw [if_neg h0]
  by_cases h1 : page = 0
  · simp [h1]
  by_cases h2 : addr % page = 0
  · cases covered W vmas addr len <;> simp [h1, h2]
  · simp [h1, h2]

/-! ## Where mapped memory ends -/

/-- **Disagreement with C66.** A range that ends where mapped memory ends is refused by all of them. -/
theorem end_refused (W page : Nat) (vmas : List Vma) (hp : Proper W vmas) (addr len : Nat) (hlen : len < W) (hend : ¬ Mapped vmas (addr + len)) (advices : List Int) (advice : Int) (vec : Nat) :
    madvise W page vmas advices addr len advice ≠ .ok ∧ (mincore W page vmas addr len vec).1 ≠ .ok ∧ mlock W page vmas addr len ≠ .ok := by
  have hc : covered W vmas addr len = false := by
    rw [Bool.eq_false_iff]
    intro h
    exact hend (((allMapped_succ _ _ _).mp ((covered_iff W vmas hp addr len hlen).mp h)).2)
  refine ⟨?_, ?_, ?_⟩
  · unfold madvise
    rw [hc]
    intro h
    simp only [Bool.not_false, if_true] at h
    split at h
    · cases h
    · split at h
      · cases h
      · split at h
        · cases h
        · split at h <;> cases h
  · unfold mincore
    simp only [hc, Bool.false_eq_true, if_false]
    intro h
    split at h
    · cases h
    · split at h
      · cases h
      · split at h
        · cases h
        · split at h
          · split at h <;> cases h
          · split at h <;> cases h
  · unfold mlock
    simp only [hc, Bool.false_eq_true, if_false]
    intro h
    split at h
    · cases h
    · split at h
      · cases h
      · split at h <;> cases h

/-! ## The table of a component -/

theorem mem_thread {p : Nat} {s : Sections} {ts : List Thread} {t : Thread} (ht : t ∈ ts) {v : Vma} (hv : v ∈ threadVmas p t) : v ∈ vmas p s ts :=
  List.mem_append_right _ (List.mem_flatMap.mpr ⟨t, ht, hv⟩)

theorem not_real (a b : Nat) : ¬ (⟨a, b, false, false, false⟩ : Vma).Real := by simp [Vma.Real]

/-- **C66, guards.** No range that touches the guards of a stack or of an IPC buffer is accepted. -/
theorem guards_refused (W p : Nat) (s : Sections) (ts : List Thread) (hp : Proper W (vmas p s ts)) (t : Thread) (ht : t ∈ ts) (g : Nat)
    (hg : (t.stack ≤ g ∧ g < t.stack + p) ∨ (t.stack + t.stackSize p - p ≤ g ∧ g < t.stack + t.stackSize p) ∨
      (t.ipc ≤ g ∧ g < t.ipc + p) ∨ (t.ipc + p * 2 ≤ g ∧ g < t.ipc + p * 3))
    (addr len : Nat) (h1 : addr ≤ g) (h2 : g < addr + len) : covered W (vmas p s ts) addr len = false := by
  rw [Bool.eq_false_iff]
  intro h
  obtain ⟨v, hv, hh, hr⟩ := covered_mapped _ _ _ _ h g h1 h2
  rcases hg with hg | hg | hg | hg
  · exact not_real _ _ ((hp.agree v hv _ (mem_thread ht (List.mem_of_elem_eq_true (by simp [threadVmas]) : (⟨t.stack, t.stack + p, false, false, false⟩ : Vma) ∈ threadVmas p t)) g hh ⟨hg.1, hg.2⟩).mp hr)
  · exact not_real _ _ ((hp.agree v hv _ (mem_thread ht (List.mem_of_elem_eq_true (by simp [threadVmas]) : (⟨t.stack + t.stackSize p - p, t.stack + t.stackSize p, false, false, false⟩ : Vma) ∈ threadVmas p t)) g hh ⟨hg.1, hg.2⟩).mp hr)
  · exact not_real _ _ ((hp.agree v hv _ (mem_thread ht (List.mem_of_elem_eq_true (by simp [threadVmas]) : (⟨t.ipc, t.ipc + p, false, false, false⟩ : Vma) ∈ threadVmas p t)) g hh ⟨hg.1, hg.2⟩).mp hr)
  · exact not_real _ _ ((hp.agree v hv _ (mem_thread ht (List.mem_of_elem_eq_true (by simp [threadVmas]) : (⟨t.ipc + p * 2, t.ipc + p * 3, false, false, false⟩ : Vma) ∈ threadVmas p t)) g hh ⟨hg.1, hg.2⟩).mp hr)

theorem stack_mapped (p : Nat) (s : Sections) (ts : List Thread) (t : Thread) (ht : t ∈ ts) (a : Nat) (h1 : t.stack + p ≤ a) (h2 : a < t.stack + t.stackSize p - p) :
    Mapped (vmas p s ts) a :=
  ⟨_, mem_thread ht (List.mem_of_elem_eq_true (by simp [threadVmas]) : (⟨t.stack + p, t.stack + t.stackSize p - p, true, true, false⟩ : Vma) ∈ threadVmas p t), ⟨h1, h2⟩, .inl rfl⟩

/-- **C66, stacks.** A range of the stack of a thread that stops before the end of the stack is accepted. -/
theorem stack_accepted (W p : Nat) (s : Sections) (ts : List Thread) (hp : Proper W (vmas p s ts)) (t : Thread) (ht : t ∈ ts) (addr len : Nat)
    (h1 : t.stack + p ≤ addr) (h2 : addr + len < t.stack + t.stackSize p - p) : covered W (vmas p s ts) addr len = true := by
  have hlen : len < W := by
    obtain ⟨v, hv, hh, _⟩ := stack_mapped p s ts t ht (addr + len) (by omega) h2
    have := hp.inside v hv
    have := hh.2
    omega
  rw [covered_iff W _ hp addr len hlen]
  exact fun a ha hb => stack_mapped p s ts t ht a (by omega) (by omega)

/-- **Disagreement with C66.** Every byte of the stack of a thread is mapped, but a request for a part that goes up
to its end is refused. -/
theorem whole_stack_refused (W p : Nat) (h0 : 0 < p) (s : Sections) (ts : List Thread) (hp : Proper W (vmas p s ts)) (t : Thread) (ht : t ∈ ts) (addr : Nat)
    (h1 : t.stack + p ≤ addr) (h2 : addr ≤ t.stack + t.stackSize p - p) :
    AllMapped (vmas p s ts) addr (t.stack + t.stackSize p - p - addr) ∧ covered W (vmas p s ts) addr (t.stack + t.stackSize p - p - addr) = false := by
  have hbig : p * 2 ≤ t.stackSize p := by unfold Thread.stackSize; omega
  have hg : (⟨t.stack + t.stackSize p - p, t.stack + t.stackSize p, false, false, false⟩ : Vma) ∈ vmas p s ts := mem_thread ht (List.mem_of_elem_eq_true (by simp [threadVmas]))
  have hW := hp.inside _ hg
  simp only at hW
  refine ⟨fun a ha hb => stack_mapped p s ts t ht a (by omega) (by omega), ?_⟩
  rw [Bool.eq_false_iff, Ne, covered_iff W _ hp _ _ (by omega)]
  intro h
  obtain ⟨v, hv, hh, hr⟩ := h (t.stack + t.stackSize p - p) h2 (by omega)
  exact not_real _ _ ((hp.agree v hv _ hg _ hh ⟨Nat.le_refl _, (by show t.stack + t.stackSize p - p < t.stack + t.stackSize p; omega)⟩).mp hr)

/-- **C66, the table.** For every layout and all threads, the table says of exactly the memory that the component has
that it is mapped. -/
theorem table_exact (p : Nat) (s : Sections) (ho : s.Ordered) (ts : List Thread) (a : Nat) : Mapped (vmas p s ts) a ↔ Has p s ts a := by
  obtain ⟨ho1, ho2, ho3⟩ := ho
  constructor
  · rintro ⟨v, hv, ⟨h1, h2⟩, hr⟩
    rcases List.mem_append.mp hv with hv | hv
    · simp only [List.mem_cons, List.not_mem_nil, or_false] at hv
      rcases hv with rfl | rfl | rfl | rfl | rfl <;> simp only at h1 h2
      · exact .inl ⟨h1, by omega⟩
      · exact .inl ⟨by omega, by omega⟩
      · exact .inl ⟨by omega, h2⟩
      · exact .inr (.inl ⟨h1, h2⟩)
      · exact .inr (.inr (.inl ⟨h1, h2⟩))
    · obtain ⟨t, ht, hv⟩ := List.mem_flatMap.mp hv
      simp only [threadVmas, Thread.stackSize, List.mem_cons, List.not_mem_nil, or_false] at hv
      rcases hv with rfl | rfl | rfl | rfl | rfl | rfl <;> simp only at h1 h2
      · simp [Vma.Real] at hr
      · exact .inr (.inr (.inr ⟨t, ht, .inl ⟨h1, by omega⟩⟩))
      · simp [Vma.Real] at hr
      · simp [Vma.Real] at hr
      · exact .inr (.inr (.inr ⟨t, ht, .inr ⟨h1, by omega⟩⟩))
      · simp [Vma.Real] at hr
  · have hmem : ∀ v, v ∈ [(⟨s.executableStart, s.etext, true, false, true⟩ : Vma), ⟨s.etext, s.preinitStart, true, false, false⟩, ⟨s.preinitStart, s.edata, true, true, false⟩,
        ⟨s.bssStart, s.fin, true, true, false⟩, ⟨s.dma, s.dma + s.dmaSize, true, true, false⟩] → v ∈ vmas p s ts := fun v hv => List.mem_append_left _ hv
    rintro (⟨h1, h2⟩ | ⟨h1, h2⟩ | ⟨h1, h2⟩ | ⟨t, ht, ⟨h1, h2⟩ | ⟨h1, h2⟩⟩)
    · by_cases h3 : a < s.etext
      · exact ⟨⟨s.executableStart, s.etext, true, false, true⟩, hmem _ (by simp), ⟨h1, h3⟩, .inl rfl⟩
      · by_cases h4 : a < s.preinitStart
        · exact ⟨⟨s.etext, s.preinitStart, true, false, false⟩, hmem _ (by simp), ⟨Nat.not_lt.mp h3, h4⟩, .inl rfl⟩
        · exact ⟨⟨s.preinitStart, s.edata, true, true, false⟩, hmem _ (by simp), ⟨Nat.not_lt.mp h4, h2⟩, .inl rfl⟩
    · exact ⟨⟨s.bssStart, s.fin, true, true, false⟩, hmem _ (by simp), ⟨h1, h2⟩, .inl rfl⟩
    · exact ⟨⟨s.dma, s.dma + s.dmaSize, true, true, false⟩, hmem _ (by simp), ⟨h1, h2⟩, .inl rfl⟩
    · exact stack_mapped p s ts t ht a h1 (by unfold Thread.stackSize; omega)
    · exact ⟨⟨t.ipc + p, t.ipc + p * 2, true, true, false⟩, mem_thread ht (by simp [threadVmas]), ⟨h1, (by show a < t.ipc + p * 2; omega)⟩, .inl rfl⟩

/-! ## The hypotheses can be met -/

/-- Text from 16 to 32, data up to 40, bss from 44 to 60, DMA pool from 64 to 72, and a thread whose stack of 5 bytes
is at 80 with pages of 4 bytes. -/
def demo : List Vma := vmas 4 ⟨16, 32, 36, 40, 44, 60, 64, 8⟩ [⟨80, 5, 96⟩]

example : (⟨16, 32, 36, 40, 44, 60, 64, 8⟩ : Sections).Ordered := by unfold Sections.Ordered; decide

theorem demo_proper : Proper 128 demo := by
  refine ⟨by decide, ?_⟩
  intro v hv w hw a h1 h2
  simp only [demo, vmas, threadVmas, Thread.stackSize, List.flatMap_cons, List.flatMap_nil, List.append_nil, List.cons_append, List.nil_append, List.mem_cons, List.not_mem_nil, or_false] at hv hw
  rcases hv with rfl | rfl | rfl | rfl | rfl | rfl | rfl | rfl | rfl | rfl | rfl <;>
  rcases hw with rfl | rfl | rfl | rfl | rfl | rfl | rfl | rfl | rfl | rfl | rfl <;>
  first
    | exact Iff.rfl
    | (exfalso; simp only [Vma.Has] at h1 h2; omega)
    | simp [Vma.Real]

/-- From the text over the read-only data into the data. -/
example : madvise 128 4 demo [0, 1] 20 18 1 = .ok := by decide
example : mincore 128 4 demo 20 18 7 = (.ok, 5) := by decide
/-- The whole stack, and the stack without its last byte. -/
example : mlock 128 4 demo 84 8 = .ENOMEM ∧ mlock 128 4 demo 84 7 = .ok := by decide
example : Mapped demo (20 + 18) := ⟨⟨36, 40, true, true, false⟩, by decide, ⟨by decide, by decide⟩, .inl rfl⟩
example : ¬ Mapped demo (84 + 8) := by
  rintro ⟨v, hv, hh, hr⟩
  simp only [demo, vmas, threadVmas, Thread.stackSize, List.flatMap_cons, List.flatMap_nil, List.append_nil, List.cons_append, List.nil_append, List.mem_cons, List.not_mem_nil, or_false] at hv
  rcases hv with rfl | rfl | rfl | rfl | rfl | rfl | rfl | rfl | rfl | rfl | rfl <;> simp [Vma.Has, Vma.Real] at hh hr

end Verif.Vma
