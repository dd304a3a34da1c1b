import Mathlib.Data.Finset.Card
import Mathlib.Data.List.Dedup
import Verif.FaultMap.Spec

/-!
# C64: the memory map that is printed for a fault shows every region once, from top to bottom, and marks the
region of the fault
-/

namespace Verif.FaultMap

theorem pick_inverted {limit : Nat} {regs : List Region} {cur : Option Region} : pick limit cur regs = none ↔ ∃ r ∈ regs, r.last < r.start := by
  induction regs generalizing cur with
  | nil => simp [pick]
  | cons r rs ih =>
    rw [pick]
    by_cases h : r.start ≤ r.last
    · rw [if_pos h]
      have : (∃ x ∈ r :: rs, x.last < x.start) ↔ ∃ x ∈ rs, x.last < x.start := by
        simp only [List.mem_cons, exists_eq_or_imp]
        constructor
        · rintro (h1 | h1)
          · omega
          · exact h1
        · exact .inr
      rw [this]
      split <;> exact ih
    · rw [if_neg h]
      simp only [true_iff]
      exact ⟨r, List.mem_cons_self, by omega⟩

/-- The picked region is the highest one under the limit. -/
theorem pick_some {limit : Nat} {regs : List Region} {cur : Option Region} (hi : ∀ r ∈ regs, r.start ≤ r.last) (hc : ∀ c ∈ cur, c.last ≤ limit) :
    ∃ out, pick limit cur regs = some out ∧
      (∀ c ∈ out, (c ∈ regs ∨ c ∈ cur) ∧ c.last ≤ limit ∧ (∀ r ∈ regs, r.last ≤ limit → r.last ≤ c.last) ∧ (∀ r ∈ cur, r.last ≤ c.last)) ∧
      (out = none → cur = none ∧ ∀ r ∈ regs, limit < r.last) := by
  induction regs generalizing cur with
  | nil =>
    refine ⟨cur, rfl, fun c h => ⟨.inr h, hc c h, fun r hr => (by cases hr), fun r hr => ?_⟩, fun h => ⟨h, fun r hr => (by cases hr)⟩⟩
    cases cur with
    | none => cases h
    | some x =>
      cases h; cases hr; exact le_refl _
  | cons r rs ih =>
    have hi' : ∀ r ∈ rs, r.start ≤ r.last := fun x hx => hi x (List.mem_cons_of_mem _ hx)
    rw [pick, if_pos (hi r List.mem_cons_self)]
    by_cases hcond : r.last ≤ limit ∧ (cur = none ∨ ∃ c ∈ cur, c.last < r.last)
    · rw [if_pos hcond]
      obtain ⟨out, h1, h2, h3⟩ := ih (cur := some r) hi' (by intro c hcc; cases hcc; exact hcond.1)
      refine ⟨out, h1, fun c hcm => ?_, fun h => ?_⟩
      · obtain ⟨g1, g2, g3, g4⟩ := h2 c hcm
        have hr := g4 r rfl
        refine ⟨.inl ?_, g2, ?_, ?_⟩
        · rcases g1 with g1 | g1
          · exact List.mem_cons_of_mem _ g1
          · cases g1; exact List.mem_cons_self
        · intro x hx hl
          rcases List.mem_cons.mp hx with rfl | hx
          · exact hr
          · exact g3 x hx hl
        · intro x hx
          rcases hcond.2 with h | ⟨y, hy, hlt⟩
          · rw [h] at hx; cases hx
          · rw [Option.mem_def] at hx hy
            rw [hx] at hy
            cases hy
            omega
      · exact absurd (h3 h).1 (by simp)
    · rw [if_neg hcond]
      obtain ⟨out, h1, h2, h3⟩ := ih (cur := cur) hi' hc
      refine ⟨out, h1, fun c hcm => ?_, fun h => ?_⟩
      · obtain ⟨g1, g2, g3, g4⟩ := h2 c hcm
        refine ⟨g1.imp (List.mem_cons_of_mem _) id, g2, ?_, g4⟩
        intro x hx hl
        rcases List.mem_cons.mp hx with rfl | hx
        · have : ¬ (cur = none ∨ ∃ c ∈ cur, c.last < x.last) := fun h => hcond ⟨hl, h⟩
          cases hcur : cur with
          | none => exact absurd (.inl hcur) this
          | some y =>
            have hy := g4 y hcur
            have : ¬ y.last < x.last := fun h => this (.inr ⟨y, hcur, h⟩)
            omega
        · exact g3 x hx hl
      · obtain ⟨g1, g2⟩ := h3 h
        refine ⟨g1, ?_⟩
        intro x hx
        rcases List.mem_cons.mp hx with rfl | hx
        · by_contra hl
          exact hcond ⟨by omega, .inl g1⟩
        · exact g2 x hx

/-- The regions still to be printed. -/
def rest (limit : Nat) (regs : List Region) : List Region := regs.filter fun r => decide (r.last ≤ limit)

theorem pred_pos (W x : Nat) (h0 : 0 < x) (h1 : x < W) : pred W x = x - 1 := by
  unfold pred
  rw [show x + W - 1 = (x - 1) + W by omega, Nat.add_mod_right, Nat.mod_eq_of_lt (by omega)]

theorem loop_exact (W addr : Nat) (regs : List Region) (hp : Proper W regs) (hn : (regs.map (·.last)).Nodup) :
    ∀ (todo limit lastStart : Nat) (up : Option Region), (rest limit regs).length = todo →
      (match up with | none => limit = W - 1 ∧ lastStart = 0 | some u => u ∈ regs ∧ limit = u.last - 1 ∧ lastStart = u.start) →
      ∃ order, order.Perm (rest limit regs) ∧ order.Pairwise (fun a b => b.last < a.last) ∧
        loop W addr regs todo limit lastStart = some (picture addr up order) := by
  intro todo
  induction todo with
  | zero =>
    intro limit lastStart up hl _
    rw [List.length_eq_zero_iff.mp hl]
    exact ⟨[], .refl _, .nil, rfl⟩
  | succ todo ih =>
    intro limit lastStart up hl hup
    obtain ⟨out, h1, h2, h3⟩ := pick_some (limit := limit) (regs := regs) (cur := none) (fun r hr => (hp r hr).1) (by simp)
    rw [loop, h1]
    cases out with
    | none =>
      exfalso
      have := (h3 rfl).2
      have : rest limit regs = [] := by
        rw [rest, List.filter_eq_nil_iff]
        intro r hr
        have := this r hr
        simp; omega
      rw [this] at hl
      cases hl
    | some c =>
      obtain ⟨g1, g2, g3, _⟩ := h2 c rfl
      have hc : c ∈ regs := by
        rcases g1 with g1 | g1
        · exact g1
        · cases g1
      obtain ⟨p1, p2, p3⟩ := hp c hc
      have hpred : pred W c.last = c.last - 1 := pred_pos W _ (by omega) (by omega)
      have hnr : regs.Nodup := List.Nodup.of_map _ hn
      have hinj : ∀ x ∈ regs, x.last = c.last → x = c := fun x hx h => List.inj_on_of_nodup_map hn hx hc h
      have hperm : (c :: rest (c.last - 1) regs).Perm (rest limit regs) := by
        have hd1 : (c :: rest (c.last - 1) regs).Nodup := by
          refine List.nodup_cons.mpr ⟨fun h => ?_, hnr.filter _⟩
          simp only [rest, List.mem_filter, decide_eq_true_eq] at h
          omega
        have hd2 : (rest limit regs).Nodup := hnr.filter _
        rw [List.perm_ext_iff_of_nodup hd1 hd2]
        intro x
        simp only [rest, List.mem_cons, List.mem_filter, decide_eq_true_eq]
        constructor
        · rintro (rfl | ⟨h5, h6⟩)
          · exact ⟨hc, g2⟩
          · exact ⟨h5, by omega⟩
        · rintro ⟨h5, h6⟩
          have := g3 x h5 h6
          by_cases hx : x.last = c.last
          · exact .inl (hinj x h5 hx)
          · exact .inr ⟨h5, by omega⟩
      have hlen : (rest (c.last - 1) regs).length = todo := by
        have := hperm.length_eq
        rw [List.length_cons] at this
        omega
      obtain ⟨order, o1, o2, o3⟩ := ih (c.last - 1) c.start (some c) hlen ⟨hc, rfl, rfl⟩
      refine ⟨c :: order, (o1.cons c).trans hperm, ?_, ?_⟩
      · rw [List.pairwise_cons]
        refine ⟨fun x hx => ?_, o2⟩
        have := (o1.mem_iff).mp hx
        simp only [rest, List.mem_filter, decide_eq_true_eq] at this
        omega
      · simp only [hpred, o3, picture, Option.some.injEq]
        congr 1
        unfold lines
        congr 3
        cases up with
        | none =>
          obtain ⟨rfl, rfl⟩ := hup
          have : pred W 0 = W - 1 := by
            unfold pred
            rw [Nat.zero_add, Nat.mod_eq_of_lt (by omega)]
          rw [this, if_pos (by omega), if_neg (by simp)]
          rfl
        | some u =>
          obtain ⟨hu, rfl, rfl⟩ := hup
          obtain ⟨u1, u2, u3⟩ := hp u hu
          rw [if_pos (show u.last - 1 ≠ W - 1 by omega)]
          simp only [above]
          by_cases hz : u.start = 0
          · have : pred W 0 = W - 1 := by
              unfold pred
              rw [Nat.zero_add, Nat.mod_eq_of_lt (by omega)]
            rw [hz, this, if_pos (by omega), if_neg (by omega)]
            rfl
          · rw [pred_pos W u.start (by omega) (by omega)]
            by_cases ha : c.last + 1 = u.start
            · rw [if_neg (by omega), if_pos ha]
            · rw [if_pos (by omega), if_neg ha]
              rfl

theorem entries_proper {W : Nat} {regs : List Region} (hp : Proper W regs) (n : String) (junk : List Region) : entries (regs ++ ⟨0, 0, n⟩ :: junk) = regs := by
  unfold entries
  rw [List.takeWhile_append_of_pos]
  · simp
  · intro r hr
    have := (hp r hr).2.2
    simp
    tauto

/-- If the regions end at different addresses, the output is the picture of all of them, each once, from top to
bottom. -/
theorem shows_all (W addr : Nat) (regs : List Region) (hp : Proper W regs) (hn : (regs.map (·.last)).Nodup) (n : String) (junk : List Region) :
    ∃ order, order.Perm regs ∧ order.Pairwise (fun a b => b.last < a.last) ∧
      showFault W (regs ++ ⟨0, 0, n⟩ :: junk) addr = some (picture addr none order) := by
  unfold showFault
  rw [entries_proper hp]
  have hr : rest (W - 1) regs = regs := by
    rw [rest, List.filter_eq_self]
    intro r hr
    have := hp r hr
    simp
    omega
  obtain ⟨order, h1, h2, h3⟩ := loop_exact W addr regs hp hn regs.length (W - 1) 0 none (by rw [hr]) ⟨rfl, rfl⟩
  rw [hr] at h1
  exact ⟨order, h1, h2, h3⟩

theorem picture_fault (addr : Nat) (up : Option Region) (order : List Region) :
    (picture addr up order).count (.fault addr) = (order.filter fun r => decide (r.Has addr)).length := by
  induction order generalizing up with
  | nil => rfl
  | cons r rs ih =>
    rw [picture]
    simp only [List.count_append, ih]
    have h1 : (above r up).count (.fault addr) = 0 := by
      unfold above
      cases up with
      | none => simp
      | some u => simp only; split <;> simp
    rw [h1, List.filter_cons]
    by_cases h : r.Has addr
    · simp [h]; omega
    · simp [h]

/-- The mark is printed once for every region that contains the address of the fault, and never if there is
none. -/
theorem mark_count (W addr : Nat) (regs : List Region) (hp : Proper W regs) (hn : (regs.map (·.last)).Nodup) (n : String) (junk : List Region) :
    ∃ out, showFault W (regs ++ ⟨0, 0, n⟩ :: junk) addr = some out ∧ out.count (.fault addr) = (regs.filter fun r => decide (r.Has addr)).length := by
  obtain ⟨order, h1, _, h3⟩ := shows_all W addr regs hp hn n junk
  exact ⟨_, h3, by rw [picture_fault]; exact (h1.filter _).length_eq⟩

theorem filter_one {regs : List Region} {addr : Nat} (hd : regs.Pairwise fun x y => x.Has addr → ¬ y.Has addr) (hex : ∃ r ∈ regs, r.Has addr) :
    (regs.filter fun r => decide (r.Has addr)).length = 1 := by
  induction regs with
  | nil => obtain ⟨_, h, _⟩ := hex; cases h
  | cons r rs ih =>
    rw [List.pairwise_cons] at hd
    rw [List.filter_cons]
    by_cases h : r.Has addr
    · rw [if_pos (by simpa using h), List.length_cons, List.filter_eq_nil_iff.mpr]
      · rfl
      · intro x hx
        simpa using hd.1 x hx h
    · rw [if_neg (by simpa using h)]
      refine ih hd.2 ?_
      obtain ⟨x, hx, h2⟩ := hex
      rcases List.mem_cons.mp hx with rfl | hx
      · exact absurd h2 h
      · exact ⟨x, hx, h2⟩

/-- **Full C64 fails for inverted regions**: an assertion fails and nothing more is shown. -/
theorem inverted_aborts (W addr : Nat) (map : List Region) (h : ∃ r ∈ entries map, r.last < r.start) : showFault W map addr = none := by
  unfold showFault
  obtain ⟨r, hr, hlt⟩ := h
  cases hm : (entries map).length with
  | zero => rw [List.length_eq_zero_iff.mp hm] at hr; cases hr
  | succ k => rw [loop, pick_inverted.mpr ⟨r, hr, hlt⟩]

theorem rest_length_lt {regs : List Region} {limit l : Nat} (h : l ≤ limit) : (rest l regs).length ≤ (rest limit regs).length := by
  unfold rest
  rw [← List.countP_eq_length_filter, ← List.countP_eq_length_filter]
  exact List.countP_mono_left fun x _ hx => by simp at hx ⊢; omega

/-- **Full C64 fails for regions with the same end**: an assertion fails. -/
theorem loop_too_many (W addr : Nat) (regs : List Region) (hp : Proper W regs) :
    ∀ (todo limit lastStart : Nat), limit < W → ((rest limit regs).map (·.last)).toFinset.card < todo → loop W addr regs todo limit lastStart = none := by
  intro todo
  induction todo with
  | zero => intro _ _ _ h; omega
  | succ todo ih =>
    intro limit lastStart hlim hlt
    obtain ⟨out, h1, h2, h3⟩ := pick_some (limit := limit) (regs := regs) (cur := none) (fun r hr => (hp r hr).1) (by simp)
    rw [loop, h1]
    cases out with
    | none => rfl
    | some c =>
      obtain ⟨g1, g2, g3, _⟩ := h2 c rfl
      have hc : c ∈ regs := by
        rcases g1 with g1 | g1
        · exact g1
        · cases g1
      obtain ⟨p1, p2, p3⟩ := hp c hc
      have hpred : pred W c.last = c.last - 1 := pred_pos W _ (by omega) (by omega)
      have hsub : insert c.last ((rest (c.last - 1) regs).map (·.last)).toFinset ⊆ ((rest limit regs).map (·.last)).toFinset := by
        intro x hx
        rw [Finset.mem_insert, List.mem_toFinset] at hx
        rw [List.mem_toFinset]
        rcases hx with rfl | hx
        · exact List.mem_map.mpr ⟨c, by simp [rest, hc, g2], rfl⟩
        · obtain ⟨r, hr, rfl⟩ := List.mem_map.mp hx
          simp only [rest, List.mem_filter, decide_eq_true_eq] at hr
          exact List.mem_map.mpr ⟨r, by simp [rest, hr.1]; omega, rfl⟩
      have hcard := Finset.card_le_card hsub
      rw [Finset.card_insert_of_notMem (by
        rw [List.mem_toFinset]
        intro h
        obtain ⟨r, hr, he⟩ := List.mem_map.mp h
        simp only [rest, List.mem_filter, decide_eq_true_eq] at hr
        omega)] at hcard
      simp only [hpred]
      rw [ih (c.last - 1) c.start (by omega) (by omega)]

/-- Two regions that end at the same address: an assertion fails and the picture is not finished. -/
theorem same_end_aborts (W addr : Nat) (regs : List Region) (hp : Proper W regs) (hd : ¬ (regs.map (·.last)).Nodup) (n : String) (junk : List Region) :
    showFault W (regs ++ ⟨0, 0, n⟩ :: junk) addr = none := by
  unfold showFault
  rw [entries_proper hp]
  have hne : regs ≠ [] := by rintro rfl; exact hd (by simp)
  obtain ⟨x, hx⟩ := List.exists_mem_of_ne_nil _ hne
  refine loop_too_many W addr regs hp _ _ _ (by have := hp x hx; omega) ?_
  have hr : rest (W - 1) regs = regs := by
    rw [rest, List.filter_eq_self]
    intro r hr
    have := hp r hr
    simp
    omega
  rw [hr]
  have := List.toFinset_card_le (regs.map (·.last))
  rw [List.length_map] at this
  refine lt_of_le_of_ne this fun h => hd ?_
  have h2 : (regs.map (·.last)).dedup.length = (regs.map (·.last)).length := by
    rw [List.length_map, ← h]; rfl
  rw [← (List.dedup_sublist _).eq_of_length h2]
  exact List.nodup_dedup _

/-- The memory map that a component passes: if code, stack and IPC buffer lie apart and have at least one page
besides the guard pages, it is shown without a failed assertion. -/
theorem thread_map_shown (W page code codeEnd stack stackSize ipc ipcSize addr : Nat) (hpg : 1 < page) (h1 : 0 < code) (h2 : code < codeEnd)
    (h3 : 2 * page < stackSize) (h4 : 2 * page < ipcSize) (h5 : codeEnd ≤ stack ∧ codeEnd ≤ ipc) (h6 : stack + stackSize ≤ ipc ∨ ipc + ipcSize ≤ stack)
    (h7 : stack + stackSize < W ∧ ipc + ipcSize < W) :
    ∃ out, showFault W (threadMap page code codeEnd stack stackSize ipc ipcSize) addr = some out ∧
      ((stack ≤ addr ∧ addr < stack + stackSize) ∨ (ipc ≤ addr ∧ addr < ipc + ipcSize) ∨ (code ≤ addr ∧ addr < codeEnd) → out.count (.fault addr) = 1) := by
  have e : threadMap page code codeEnd stack stackSize ipc ipcSize = (threadMap page code codeEnd stack stackSize ipc ipcSize).take 7 ++ ⟨0, 0, ""⟩ :: [] := rfl
  rw [e]
  obtain ⟨out, g1, g2⟩ := mark_count W addr ((threadMap page code codeEnd stack stackSize ipc ipcSize).take 7) (by
    intro r hr
    simp only [threadMap, List.take_succ_cons, List.take_zero, List.mem_cons, List.not_mem_nil, or_false] at hr
    rcases hr with rfl | rfl | rfl | rfl | rfl | rfl | rfl <;> simp only <;> omega) (by
    simp only [threadMap, List.take_succ_cons, List.take_zero, List.map_cons, List.map_nil, List.nodup_cons, List.mem_cons, List.not_mem_nil, or_false, not_false_eq_true, List.nodup_nil, and_true, not_or]
    omega) "" []
  refine ⟨out, g1, fun h => ?_⟩
  rw [g2]
  refine filter_one ?_ ?_
  · simp only [threadMap, List.take_succ_cons, List.take_zero, List.pairwise_cons, List.mem_cons, List.not_mem_nil, or_false, forall_eq_or_imp, forall_eq,
      false_imp_iff, implies_true, List.Pairwise.nil, and_true, Region.Has]
    refine ⟨⟨?_, ?_, ?_, ?_, ?_, ?_⟩, ⟨?_, ?_, ?_, ?_, ?_⟩, ⟨?_, ?_, ?_, ?_⟩, ⟨?_, ?_, ?_⟩, ⟨?_, ?_⟩, ?_⟩ <;> intro a1 a2 <;> omega
  · rcases h with h | h | h
    · by_cases q1 : addr < stack + page
      · exact ⟨_, List.mem_cons_of_mem _ List.mem_cons_self, by simp only [Region.Has]; omega⟩
      · by_cases q2 : addr < stack + stackSize - page
        · exact ⟨_, List.mem_cons_of_mem _ (List.mem_cons_of_mem _ List.mem_cons_self), by simp only [Region.Has]; omega⟩
        · exact ⟨_, List.mem_cons_of_mem _ (List.mem_cons_of_mem _ (List.mem_cons_of_mem _ List.mem_cons_self)), by simp only [Region.Has]; omega⟩
    · by_cases q1 : addr < ipc + page
      · exact ⟨_, List.mem_cons_of_mem _ (List.mem_cons_of_mem _ (List.mem_cons_of_mem _ (List.mem_cons_of_mem _ List.mem_cons_self))), by simp only [Region.Has]; omega⟩
      · by_cases q2 : addr < ipc + ipcSize - page
        · exact ⟨_, List.mem_cons_of_mem _ (List.mem_cons_of_mem _ (List.mem_cons_of_mem _ (List.mem_cons_of_mem _ (List.mem_cons_of_mem _ List.mem_cons_self)))), by simp only [Region.Has]; omega⟩
        · exact ⟨_, List.mem_cons_of_mem _ (List.mem_cons_of_mem _ (List.mem_cons_of_mem _ (List.mem_cons_of_mem _ (List.mem_cons_of_mem _ (List.mem_cons_of_mem _ List.mem_cons_self))))), by simp only [Region.Has]; omega⟩
    · exact ⟨_, List.mem_cons_self, by simp only [Region.Has]; omega⟩

example : ∃ W page code codeEnd stack stackSize ipc ipcSize : Nat, 1 < page ∧ 0 < code ∧ code < codeEnd ∧ 2 * page < stackSize ∧ 2 * page < ipcSize ∧
    (codeEnd ≤ stack ∧ codeEnd ≤ ipc) ∧ (stack + stackSize ≤ ipc ∨ ipc + ipcSize ≤ stack) ∧ (stack + stackSize < W ∧ ipc + ipcSize < W) :=
  ⟨1000, 4, 8, 20, 40, 16, 80, 12, by omega, by omega, by omega, by omega, by omega, by omega, by omega, by omega⟩

/-- An example of the output: two regions that touch, and one below a gap. -/
example : showFault 1000 [⟨10, 19, "code"⟩, ⟨40, 49, "guard"⟩, ⟨50, 99, "stack"⟩, ⟨0, 0, ""⟩] 45 =
    some [.address 99, .name "stack", .address 50, .name "guard", .fault 45, .address 40, .undescribed, .address 19, .name "code", .address 10] := by decide

end Verif.FaultMap
