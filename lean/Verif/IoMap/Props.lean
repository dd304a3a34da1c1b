import Verif.IoMap.Spec

namespace Verif.IoMap

/-- Between the rounds: what has been counted is mapped, and the last frame ends where it should. -/
def Inv (frames : List Frame) (paddr : Nat) (st : St) (prev : Option Frame) : Prop :=
  (st.counting = false ∧ st.counter = 0) ∨
  (st.counting = true ∧ Mapped frames paddr st.counter st.base ∧
    ∃ f, prev = some f ∧ f.paddr + f.size = paddr + st.counter ∧ f.vaddr + f.size = st.base + st.counter)

theorem loop_sound (frames : List Frame) (paddr size : Nat) : ∀ (fs pre : List Frame) (st : St) (prev : Option Frame),
    frames = pre ++ fs → pre.getLast? = prev → VirtualFollows (prev.toList ++ fs) → Inv frames paddr st prev →
    loop paddr size st fs ≠ 0 → Mapped frames paddr size (loop paddr size st fs) := by
  intro fs
  induction fs with
  | nil => intro pre st prev _ _ _ _ h; exact absurd rfl h
  | cons f fs ih =>
    intro pre st prev hf hprev hv hinv hne
    have hmem : f ∈ frames := by rw [hf]; simp
    have hnew : Inv frames paddr (round paddr st f) (some f) := by
      unfold round
      rcases hinv with ⟨h1, h2⟩ | ⟨h1, h2, g, h3, h4, h5⟩
      · rw [h1]
        simp only [Bool.false_eq_true, if_false]
        split
        · rename_i hc
          right
          refine ⟨rfl, ?_, f, rfl, ?_, ?_⟩
          · intro i hi
            simp only [h2] at hi ⊢
            exact ⟨f, hmem, by omega, by omega, by omega⟩
          · simp only [h2]; omega
          · simp only [h2]; omega
        · exact .inl ⟨h1, h2⟩
      · rw [h1]
        simp only [if_true]
        split
        · rename_i hc
          right
          subst h3
          have hvf : f.paddr = g.paddr + g.size → f.vaddr = g.vaddr + g.size := by
            simp only [Option.toList_some, List.singleton_append, VirtualFollows] at hv
            exact hv.1
          have hva := hvf (by omega)
          refine ⟨rfl, ?_, f, rfl, ?_, ?_⟩
          · intro i hi
            simp only at hi ⊢
            by_cases hlt : i < st.counter
            · exact h2 i hlt
            · exact ⟨f, hmem, by omega, by omega, by omega⟩
          · simp only; omega
          · simp only; omega
        · exact .inl ⟨rfl, rfl⟩
    rw [loop] at hne ⊢
    split
    · rename_i hge
      rcases hnew with ⟨h1, h2⟩ | ⟨h1, h2, _⟩
      · intro i hi; omega
      · intro i hi; exact h2 i (by omega)
    · rename_i hlt
      rw [if_neg hlt] at hne
      refine ih (pre ++ [f]) _ (some f) (by simp [hf]) (by simp) ?_ hnew hne
      simp only [Option.toList_some, List.singleton_append]
      cases prev with
      | none => simpa using hv
      | some g =>
        simp only [Option.toList_some, List.singleton_append, VirtualFollows] at hv
        exact hv.2

/-- C50, first half, for tables in which neighbours that follow each other in physical memory also do so in
virtual memory: a successful mapping maps every byte. -/
theorem ioMap_sound_partial (frames : List Frame) (hv : VirtualFollows frames) (paddr size : Nat) (h : ioMap frames paddr size ≠ 0) :
    Mapped frames paddr size (ioMap frames paddr size) := by
  unfold ioMap at h ⊢
  split at h
  · exact absurd rfl h
  · rename_i ha
    rw [if_neg ha]
    exact loop_sound frames paddr size frames [] _ none (by simp) rfl (by simpa using hv) (.inl ⟨rfl, rfl⟩) h

/-- The condition on the table is needed: two frames with adjacent physical, but not adjacent virtual
addresses are returned as one mapping. -/
theorem not_contiguous : ∃ frames paddr size, ioMap frames paddr size ≠ 0 ∧ ¬ Mapped frames paddr size (ioMap frames paddr size) := by
  refine ⟨[⟨0x1000, 0x50000, 0x1000⟩, ⟨0x2000, 0x90000, 0x1000⟩], 0x1000, 0x2000, by decide, ?_⟩
  intro h
  obtain ⟨f, hf, h1, h2, h3⟩ := h 0x1000 (by decide)
  have hr : ioMap [⟨0x1000, 0x50000, 0x1000⟩, ⟨0x2000, 0x90000, 0x1000⟩] 0x1000 0x2000 = 0x50000 := by decide
  rw [hr] at h3
  simp only [List.mem_cons, List.not_mem_nil, or_false] at hf
  rcases hf with rfl | rfl
  · simp only at h2; omega
  · simp only at h1 h3; omega

theorem run_complete (paddr size : Nat) : ∀ (run post : List Frame) (st : St), st.counting = true → st.counter < size →
    Consecutive run → (∀ f, run.head? = some f → f.paddr = paddr + st.counter) → run ≠ [] → paddr + size ≤ lastEnd run →
    loop paddr size st (run ++ post) = st.base := by
  intro run
  induction run with
  | nil => intro post st _ _ _ _ h; exact absurd rfl h
  | cons f run ih =>
    intro post st hc hlt hcon hhead _ hend
    have hp := hhead f rfl
    have hr : round paddr st f = { st with counter := st.counter + f.size } := by
      rw [round, if_pos hc, if_pos hp.symm]
    rw [List.cons_append, loop, hr]
    simp only
    split
    · rfl
    · rename_i hn
      cases run with
      | nil =>
        simp only [lastEnd] at hend
        omega
      | cons g run =>
        refine ih post _ hc (by simp only; omega) hcon.2 ?_ (by simp) hend
        intro g' hg
        simp only [List.head?_cons, Option.some.injEq] at hg
        subst hg
        simp only
        rw [hcon.1]; omega

theorem skip_pre (paddr size : Nat) (hs : 0 < size) : ∀ (pre rest : List Frame), (∀ f ∈ pre, ¬ Contains f paddr) →
    loop paddr size ⟨false, 0, 0⟩ (pre ++ rest) = loop paddr size ⟨false, 0, 0⟩ rest := by
  intro pre
  induction pre with
  | nil => intro rest _; rfl
  | cons f pre ih =>
    intro rest h
    have hf : ¬ (paddr ≥ f.paddr ∧ f.paddr + f.size > paddr) := h f (by simp)
    have hr : round paddr ⟨false, 0, 0⟩ f = ⟨false, 0, 0⟩ := by
      simp only [round, Bool.false_eq_true, if_false, if_neg hf]
    rw [List.cons_append, loop, hr]
    simp only
    rw [if_neg (by omega)]
    exact ih rest (fun f hf => h f (by simp [hf]))

/-- C50, second half: if the range is covered by neighbours in the table that follow each other in
physical memory, and no frame before them contains its beginning, the mapping succeeds with the address
of its first byte. -/
theorem ioMap_complete_partial (pre : List Frame) (f : Frame) (run post : List Frame) (paddr size : Nat) (hs : 0 < size)
    (hal : paddr % 4096 = 0 ∨ size % 4096 = 0) (hpre : ∀ g ∈ pre, ¬ Contains g paddr) (hf : Contains f paddr)
    (hcon : Consecutive (f :: run)) (hend : paddr + size ≤ lastEnd (f :: run)) :
    ioMap (pre ++ f :: run ++ post) paddr size = f.vaddr + (paddr - f.paddr) := by
  obtain ⟨h1, h2⟩ := hf
  unfold ioMap
  rw [if_neg (by omega), List.append_assoc, skip_pre paddr size hs pre _ hpre, List.cons_append, loop]
  have hr : round paddr ⟨false, 0, 0⟩ f = ⟨true, f.vaddr + (paddr - f.paddr), f.paddr + f.size - paddr⟩ := by
    simp only [round, Bool.false_eq_true, if_false]
    rw [if_pos ⟨h1, h2⟩]
    congr 1
    omega
  rw [hr]
  simp only
  split
  · rfl
  · rename_i hn
    cases run with
    | nil => simp only [lastEnd] at hend; omega
    | cons g run =>
      refine run_complete paddr size (g :: run) post ⟨true, f.vaddr + (paddr - f.paddr), f.paddr + f.size - paddr⟩ rfl (by simp only; omega)
        hcon.2 ?_ (by simp) hend
      intro g' hg
      simp only [List.head?_cons, Option.some.injEq] at hg
      subst hg
      simp only
      rw [hcon.1]; omega

/-- C50 fails: the range is covered by two neighbours in the table, but another mapping of its first page
comes directly before them, and is given up without looking at the second one as a new beginning. -/
theorem covered_not_mapped :
    ioMap [⟨0x1000, 0x50000, 0x1000⟩, ⟨0x1000, 0x90000, 0x1000⟩, ⟨0x2000, 0x91000, 0x1000⟩] 0x1000 0x2000 = 0 ∧
    Mapped [⟨0x1000, 0x50000, 0x1000⟩, ⟨0x1000, 0x90000, 0x1000⟩, ⟨0x2000, 0x91000, 0x1000⟩] 0x1000 0x2000 0x90000 := by
  refine ⟨by decide, ?_⟩
  intro i hi
  by_cases h : i < 0x1000
  · exact ⟨⟨0x1000, 0x90000, 0x1000⟩, by simp, by simp only; omega, by simp only; omega, by simp only; omega⟩
  · exact ⟨⟨0x2000, 0x91000, 0x1000⟩, by simp, by simp only; omega, by simp only; omega, by simp only; omega⟩

/-- A device of two pages after one of one page. -/
example : ioMap [⟨0x8000, 0x40000, 0x1000⟩, ⟨0x1000, 0x50000, 0x1000⟩, ⟨0x2000, 0x51000, 0x1000⟩] 0x1000 0x2000 = 0x50000 ∧
    ioMap [⟨0x8000, 0x40000, 0x1000⟩, ⟨0x1000, 0x50000, 0x1000⟩, ⟨0x2000, 0x51000, 0x1000⟩] 0x2000 0x2000 = 0 ∧
    VirtualFollows [⟨0x8000, 0x40000, 0x1000⟩, ⟨0x1000, 0x50000, 0x1000⟩, ⟨0x2000, 0x51000, 0x1000⟩] := by
  refine ⟨by decide, by decide, ?_⟩
  simp [VirtualFollows]

/-! ### Tracking -/

/-- Unmapping is accepted exactly if the pointer was returned by a mapping more often than it has been
unmapped. -/
theorem unmap_iff (mapped : List Nat) (p : Nat) : (tracedUnmap mapped p).2 = true ↔ 0 < mapped.count p := by
  have key : ∀ l : List Nat, (llRemove l p).isSome ↔ 0 < l.count p := by
    intro l
    induction l with
    | nil => simp [llRemove]
    | cons x xs ih =>
      by_cases h : x = p
      · simp [llRemove, h]
      · simp [llRemove, h, ih]
  unfold tracedUnmap
  have := key mapped
  split <;> simp_all

theorem unmap_count (mapped : List Nat) (p q : Nat) :
    (tracedUnmap mapped p).1.count q = mapped.count q - (if p = q then 1 else 0) := by
  have key : ∀ l : List Nat, ∀ l', llRemove l p = some l' → l'.count q = l.count q - (if p = q then 1 else 0) := by
    intro l
    induction l with
    | nil => intro l' h; simp [llRemove] at h
    | cons x xs ih =>
      intro l' h
      by_cases hx : x = p
      · simp only [llRemove, hx, if_true, Option.some.injEq] at h
        subst h
        by_cases hpq : p = q
        · simp [hx, hpq]
        · simp [hx, hpq]
      · simp only [llRemove, if_neg hx, Option.map_eq_some_iff] at h
        obtain ⟨m, hm, rfl⟩ := h
        have hh := ih m hm
        by_cases hxq : x = q
        · have : p ≠ q := fun e => hx (hxq.trans e.symm)
          simp only [if_neg this] at hh ⊢
          simp [List.count_cons, hh]
        · simp only [List.count_cons, hh]
          simp [hxq]
  unfold tracedUnmap
  cases h : llRemove mapped p with
  | some m => exact key _ _ h
  | none =>
    have hz : mapped.count p = 0 := by
      by_contra hne
      have := (unmap_iff mapped p).mpr (by omega)
      rw [tracedUnmap, h] at this
      cases this
    simp only
    split
    · rename_i hpq; subst hpq; omega
    · omega

theorem run_count (frames : List Frame) (p : Nat) : ∀ (cs : List Call) (mapped : List Nat) (es : List Event),
    mapped.count p = outstanding p es → (run frames mapped es cs).1.count p = outstanding p (run frames mapped es cs).2 := by
  intro cs
  induction cs with
  | nil => intro mapped es h; exact h
  | cons c cs ih =>
    intro mapped es h
    refine ih _ _ ?_
    cases c with
    | unmap q => simp only [step, outstanding, unmap_count, h]
    | map paddr size memory =>
      simp only [step, tracedMap, outstanding]
      by_cases hm : ioMap frames paddr size ≠ 0 ∧ memory = true
      · rw [if_pos hm, List.count_cons, h]
        by_cases hp : ioMap frames paddr size = p
        · rw [if_pos (by simpa using hp), if_pos ⟨hp ▸ hm.1, hp, hm.2⟩]
        · rw [if_neg (by simpa using hp), if_neg (fun hh => hp hh.2.1)]
      · rw [if_neg hm, h, if_neg]
        · rfl
        · rintro ⟨h1, h2, h3⟩
          exact hm ⟨h2 ▸ h1, h3⟩

/-- C50, in debug builds: after every history, unmapping is accepted without an error message exactly for the
pointers that have been mapped more often than unmapped (and recorded). -/
theorem unmap_accepted_iff (frames : List Frame) (cs : List Call) (p : Nat) :
    (tracedUnmap (run frames [] [] cs).1 p).2 = true ↔ 0 < outstanding p (run frames [] [] cs).2 := by
  rw [unmap_iff, run_count frames p cs [] [] rfl]

example : (run [⟨4096, 100, 4096⟩, ⟨8192, 4196, 4096⟩] [] []
      [.map 4096 8192 true, .map 4096 4096 true, .map 0 4096 true, .unmap 100, .unmap 100, .unmap 100, .unmap 0]).2 =
    [.unmapped 0 false, .unmapped 100 false, .unmapped 100 true, .unmapped 100 true, .mapped 0 true, .mapped 100 true, .mapped 100 true] := by
  decide

end Verif.IoMap
