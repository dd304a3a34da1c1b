import Verif.KeyTable.Spec

/-!
# C143: the table of keywords
-/

namespace Verif.KeyTable

theorem matches_iff (w : Text) : matches_ w = true ↔ CouldCollide w := by
  cases w with
  | nil =>
    constructor
    · intro h; cases h
    · rintro ⟨_, _, h, _⟩; cases h
  | cons c r =>
    unfold matches_ letter CouldCollide
    rw [decide_eq_true_eq]
    constructor
    · intro h
      exact ⟨c, r, rfl, h⟩
    · rintro ⟨_, _, h, hc⟩
      cases h
      exact hc

/-- The loop goes on in a line that has words already. -/
theorem loop_in : ∀ (l : List (Option Text)) (w : Text) (more : List Text) (s : State), s.newline = false →
    s.column = (line w more).length + 1 → (line w more).length < 80 → (∀ v, some v ∈ l → v.length ≤ 72) →
    ∃ more' groups, line w more ++ (loop s l ++ ['\n']) = lines ((w, more ++ more') :: groups) ∧
      more' ++ allWords groups = l.filterMap (fun o => o.filter matches_) ∧
      ∀ g ∈ (w, more ++ more') :: groups, (line g.1 g.2).length < 80
  | [], w, more, s, _, _, hl, _ => by
    refine ⟨[], [], ?_, rfl, ?_⟩
    · simp [loop, lines]
    · intro g hg
      rw [List.mem_singleton] at hg
      subst hg
      simpa using hl
  | none :: l, w, more, s, hn, hc, hl, hw => by
    obtain ⟨m, gs, h1, h2, h3⟩ := loop_in l w more s hn hc hl fun v hv => hw v (List.mem_cons_of_mem _ hv)
    exact ⟨m, gs, by rw [loop]; exact h1, by rw [h2]; rfl, h3⟩
  | some v :: l, w, more, s, hn, hc, hl, hw => by
    have hw' : ∀ u, some u ∈ l → u.length ≤ 72 := fun u hu => hw u (List.mem_cons_of_mem _ hu)
    have hv := hw v List.mem_cons_self
    rw [loop]
    by_cases hm : matches_ v = true
    · rw [if_pos hm]
      have hfil : (some v :: l).filterMap (fun o => o.filter matches_) = v :: l.filterMap (fun o => o.filter matches_) := by
        simp [Option.filter, hm]
      rw [hfil]
      by_cases hwrap : s.column + v.length + 4 > wrapAt
      · have hword : word s v = ('\n' :: line v [], ⟨false, (line v []).length + 1⟩) := by
          unfold word
          simp [hwrap, line, quoted, indent]
          omega
        rw [hword]
        have hlen : (line v []).length = v.length + 7 := by simp [line, quoted]
        obtain ⟨m, gs, h1, h2, h3⟩ := loop_in l v [] ⟨false, (line v []).length + 1⟩ rfl rfl (by omega) hw'
        rw [List.nil_append] at h1 h3
        refine ⟨[], (v, m) :: gs, ?_, ?_, ?_⟩
        · show line w more ++ (('\n' :: line v []) ++ loop _ l ++ ['\n']) = _
          have : lines ((w, more ++ []) :: (v, m) :: gs) = line w more ++ ('\n' :: lines ((v, m) :: gs)) := by
            simp [lines]
          rw [this, ← h1]
          simp
        · show [] ++ allWords ((v, m) :: gs) = _
          rw [← h2]
          simp [allWords]
        · intro g hg
          rcases List.mem_cons.mp hg with rfl | hg
          · simpa using hl
          · exact h3 g hg
      · have hword : word s v = (' ' :: quoted v, ⟨false, s.column + (v.length + 4)⟩) := by
          unfold word
          simp [hwrap, hn, quoted]
        rw [hword]
        have hline : line w (more ++ [v]) = line w more ++ (' ' :: quoted v) := by simp [line]
        have hq : (quoted v).length = v.length + 3 := by simp [quoted]
        have hlen : (line w (more ++ [v])).length = (line w more).length + v.length + 4 := by
          rw [hline, List.length_append, List.length_cons, hq]; omega
        have h80 : wrapAt = 80 := rfl
        obtain ⟨m, gs, h1, h2, h3⟩ := loop_in l w (more ++ [v]) ⟨false, s.column + (v.length + 4)⟩ rfl
          (by show s.column + _ = _; omega) (by omega) hw'
        refine ⟨v :: m, gs, ?_, ?_, ?_⟩
        · rw [show more ++ v :: m = (more ++ [v]) ++ m by simp, ← h1, hline]
          simp
        · rw [← h2]; rfl
        · rw [show more ++ v :: m = (more ++ [v]) ++ m by simp]
          exact h3
    · rw [if_neg hm]
      obtain ⟨m, gs, h1, h2, h3⟩ := loop_in l w more s hn hc hl hw'
      refine ⟨m, gs, h1, ?_, h3⟩
      rw [h2]
      simp [Option.filter, hm]

/-- The loop before any word. -/
theorem loop_first : ∀ (l : List (Option Text)), (∀ v, some v ∈ l → v.length ≤ 72) → (∃ v, some v ∈ l ∧ matches_ v = true) →
    ∃ groups, table l = lines groups ∧ allWords groups = l.filterMap (fun o => o.filter matches_) ∧ ∀ g ∈ groups, (line g.1 g.2).length < 80
  | [], _, h => by obtain ⟨_, h, _⟩ := h; cases h
  | none :: l, hw, h => by
    obtain ⟨v, hv, hm⟩ := h
    have hv' : some v ∈ l := by
      rcases List.mem_cons.mp hv with h | h
      · cases h
      · exact h
    obtain ⟨gs, h1, h2, h3⟩ := loop_first l (fun v hv => hw v (List.mem_cons_of_mem _ hv)) ⟨v, hv', hm⟩
    exact ⟨gs, h1, by rw [h2]; rfl, h3⟩
  | some w :: l, hw, h => by
    have hw' : ∀ u, some u ∈ l → u.length ≤ 72 := fun u hu => hw u (List.mem_cons_of_mem _ hu)
    have hv := hw w List.mem_cons_self
    by_cases hm : matches_ w = true
    · have hword : word ⟨true, 0⟩ w = (line w [], ⟨false, (line w []).length + 1⟩) := by
        have : ¬ (0 + w.length + 4 > wrapAt) := by
          show ¬ (0 + w.length + 4 > 80)
          omega
        unfold word
        simp only [this, if_false, if_true]
        simp [line, quoted, indent]
        omega
      have hlen : (line w []).length = w.length + 7 := by simp [line, quoted]
      obtain ⟨m, gs, h1, h2, h3⟩ := loop_in l w [] ⟨false, (line w []).length + 1⟩ rfl rfl (by omega) hw'
      refine ⟨(w, m) :: gs, ?_, ?_, h3⟩
      · unfold table
        rw [loop, if_pos hm, hword]
        rw [List.nil_append] at h1
        rw [← h1]
        simp
      · have : allWords ((w, m) :: gs) = w :: (m ++ allWords gs) := by simp [allWords]
        rw [this, h2]
        simp [Option.filter, hm]
    · obtain ⟨v, hv, hmv⟩ := h
      have hv' : some v ∈ l := by
        rcases List.mem_cons.mp hv with h | h
        · cases h; exact absurd hmv hm
        · exact h
      obtain ⟨gs, h1, h2, h3⟩ := loop_first l hw' ⟨v, hv', hmv⟩
      refine ⟨gs, ?_, ?_, h3⟩
      · unfold table at h1 ⊢
        rw [loop, if_neg hm]
        exact h1
      · rw [h2]; simp [Option.filter, hm]

/-- C143: whatever Clang's file says, the table has exactly the words that are keywords in our environment and could be identifiers, each
as often as the file has it and in that order, in lines of less than 80 characters, none of them without a word. -/
theorem table_right (entries : List (Text × Nat)) (hlen : ∀ e ∈ entries, e.1.length ≤ 72)
    (hsome : ∃ e ∈ entries, e.2 ≠ 0 ∧ CouldCollide e.1) :
    ∃ groups, table (entries.map fun e => entry e.1 e.2) = lines groups ∧
      (∀ g ∈ groups, (line g.1 g.2).length < 80) ∧
      (∀ (p : Text → Nat → Bool), (∀ w c, p w c = true ↔ c ≠ 0 ∧ CouldCollide w) →
        allWords groups = (entries.filter fun e => p e.1 e.2).map (·.1)) := by
  have hw : ∀ v, some v ∈ entries.map (fun e => entry e.1 e.2) → v.length ≤ 72 := by
    intro v hv
    obtain ⟨e, he, hev⟩ := List.mem_map.mp hv
    unfold entry at hev
    split at hev
    · cases hev; exact hlen e he
    · cases hev
  obtain ⟨e, he, he1, he2⟩ := hsome
  obtain ⟨gs, h1, h2, h3⟩ := loop_first (entries.map fun e => entry e.1 e.2) hw
    ⟨e.1, List.mem_map.mpr ⟨e, he, by unfold entry; rw [if_pos he1]⟩, (matches_iff e.1).mpr he2⟩
  refine ⟨gs, h1, h3, ?_⟩
  intro p hp
  rw [h2]
  clear h1 h2 h3 hw hlen he he1 he2 e
  induction entries with
  | nil => rfl
  | cons e rest ih =>
    rw [List.map_cons, List.filterMap_cons, ih, List.filter_cons]
    by_cases hc : e.2 = 0
    · have : p e.1 e.2 = false := by
        rw [Bool.eq_false_iff]; intro h; exact ((hp _ _).mp h).1 hc
      simp [entry, hc] at this ⊢
      simp [this]
    · by_cases hm : matches_ e.1 = true
      · have : p e.1 e.2 = true := (hp _ _).mpr ⟨hc, (matches_iff _).mp hm⟩
        simp [entry, hc, Option.filter, hm, this]
      · have : p e.1 e.2 = false := by
          rw [Bool.eq_false_iff]; intro h; exact hm ((matches_iff _).mpr ((hp _ _).mp h).2)
        simp [entry, hc, Option.filter, hm, this]

/-- C143: a word of another environment, or one that begins with another character, leaves no trace. -/
theorem others_ignored (pre post : List (Text × Nat)) (e : Text × Nat) (h : e.2 = 0 ∨ ¬ CouldCollide e.1) :
    table ((pre ++ e :: post).map fun e => entry e.1 e.2) = table ((pre ++ post).map fun e => entry e.1 e.2) := by
  have hskip : ∀ s l, loop s (entry e.1 e.2 :: l) = loop s l := by
    intro s l
    by_cases hc : e.2 = 0
    · rw [show entry e.1 e.2 = none by simp [entry, hc], loop]
    · rcases h with h | h
      · exact absurd h hc
      · rw [show entry e.1 e.2 = some e.1 by simp [entry, hc], loop, if_neg]
        rw [matches_iff]
        exact h
  have : ∀ (l : List (Text × Nat)) s, loop s ((l ++ e :: post).map fun e => entry e.1 e.2) = loop s ((l ++ post).map fun e => entry e.1 e.2) := by
    intro l
    induction l with
    | nil => intro s; exact hskip s _
    | cons x l ih =>
      intro s
      rw [List.cons_append, List.map_cons, List.cons_append, List.map_cons]
      cases entry x.1 x.2 with
      | none => rw [loop, loop]; exact ih s
      | some v =>
        rw [loop, loop, ih, ih]
  unfold table
  rw [this]

/-! ### A concrete case -/

theorem demo_table : table [entry "auto".toList 1, entry "class".toList 0, entry "@end".toList 1, entry "_Bool".toList 1] =
    "    'auto', '_Bool',\n".toList := by decide +kernel

theorem demo_wrap : (table ((List.replicate 20 "return".toList).map some)).count '\n' = 3 := by decide +kernel

theorem demo_hypotheses : ∃ e ∈ [("class".toList, 0), ("_Bool".toList, 1)], e.2 ≠ 0 ∧ CouldCollide e.1 :=
  ⟨("_Bool".toList, 1), by simp, by decide, '_', "Bool".toList, rfl, .inr (.inr rfl)⟩

end Verif.KeyTable
