import Mathlib.Algebra.BigOperators.Group.Finset.Basic
import Mathlib.Algebra.Order.BigOperators.Group.Finset
import Mathlib.Tactic.Tauto
import Mathlib.Tactic.ByContra
import Verif.Startup.Spec

namespace Verif.Startup

/-- The number of threads. -/
def size (c : Config) : Nat := c.ifaces.length + 2

/-- How often an instruction is still to come, over all threads. -/
def total (c : Config) (r : Nat → List Instr) (x : Instr) : Nat := ∑ k ∈ Finset.range (size c), (r k).count x

theorem total_step (c : Config) (r : Nat → List Instr) (k : Nat) (hk : k < size c) (y : Instr) (l : List Instr) (h : r k = y :: l) (x : Instr) :
    total c r x = total c (fun j => if j = k then l else r j) x + if y = x then 1 else 0 := by
  unfold total
  rw [← Finset.sum_erase_add _ _ (Finset.mem_range.mpr hk), ← Finset.sum_erase_add (a := k) _ (fun j => ((if j = k then l else r j).count x)) (Finset.mem_range.mpr hk)]
  have : ∑ j ∈ (Finset.range (size c)).erase k, (r j).count x = ∑ j ∈ (Finset.range (size c)).erase k, ((if j = k then l else r j).count x) := by
    refine Finset.sum_congr rfl fun j hj => ?_
    rw [if_neg (Finset.ne_of_mem_erase hj)]
  rw [this, h, if_pos rfl, List.count_cons]
  simp only [beq_iff_eq]
  omega

theorem program_big (c : Config) (k : Nat) (hk : size c ≤ k) : program c k = [] := by
  unfold size at hk
  obtain ⟨j, rfl⟩ : ∃ j, k = j + 1 := ⟨k - 1, by omega⟩
  rw [program, List.getElem?_eq_none (by omega)]
  simp only
  rw [if_neg (by omega)]

theorem program_iface (c : Config) (i : Nat) (hi : i < c.ifaces.length) : program c (i + 1) = ifaceProgram c i c.ifaces[i] := by
  rw [program, List.getElem?_eq_getElem hi]

theorem program_fault (c : Config) : program c (c.ifaces.length + 1) = faultProgram c := by
  rw [program, List.getElem?_eq_none (by omega)]
  simp

/-- What a step does, instruction by instruction. -/
theorem step_some {c : Config} {s s' : State} {k : Nat} (h : step c s k = some s') :
    ∃ x r, s.rest k = x :: r ∧ canRun c s k = true ∧ s'.rest = (fun j => if j = k then r else s.rest j) ∧
      exec { s with rest := fun j => if j = k then r else s.rest j } x = some s' := by
  unfold step at h
  by_cases hc : canRun c s k = true
  · rw [if_pos hc] at h
    cases hr : s.rest k with
    | nil => rw [hr] at h; cases h
    | cons x r =>
      rw [hr] at h
      refine ⟨x, r, rfl, hc, ?_, h⟩
      cases x <;> simp only [exec] at h
      · split at h
        · cases h
        · cases h; rfl
      · cases h; rfl
      · cases h; rfl
      · split at h
        · cases h; rfl
        · cases h
      · split at h
        · cases h; rfl
        · cases h
      · cases h; rfl
      · cases h; rfl
  · rw [if_neg hc] at h; cases h

theorem exec_sem {s s' : State} {x : Instr} (h : exec s x = some s') (m : Sem) :
    s'.sem m + (if x = .wait m then 1 else 0) = s.sem m + (if x = .post m then 1 else 0) := by
  cases x <;> simp only [exec] at h
  · rename_i w
    split at h
    · cases h
    · rename_i hz
      cases h
      by_cases hm : m = w
      · subst hm; simp; omega
      · simp only [if_neg hm]
        rw [if_neg (by simp; tauto), if_neg (by simp)]
  · rename_i w
    cases h
    by_cases hm : m = w
    · subst hm; simp
    · simp only [if_neg hm]
      rw [if_neg (by simp), if_neg (by simp; tauto)]
  · cases h; simp
  · split at h
    · cases h; simp
    · cases h
  · split at h
    · cases h; simp
    · cases h
  · cases h; simp
  · cases h; simp

theorem exec_trace {s s' : State} {x : Instr} (h : exec s x = some s') :
    (∃ a, x = .act a ∧ s'.trace = a :: s.trace) ∨ ((∀ a, x ≠ .act a) ∧ s'.trace = s.trace) := by
  cases x <;> simp only [exec] at h
  · split at h <;> cases h; exact .inr ⟨by simp, rfl⟩
  · cases h; exact .inr ⟨by simp, rfl⟩
  · cases h; exact .inr ⟨by simp, rfl⟩
  · split at h <;> cases h; exact .inr ⟨by simp, rfl⟩
  · split at h <;> cases h; exact .inr ⟨by simp, rfl⟩
  · cases h; exact .inr ⟨by simp, rfl⟩
  · cases h; exact .inl ⟨_, rfl, rfl⟩

/-- The states that a schedule can lead to. -/
inductive Reach (c : Config) : State → Prop where
  | start : Reach c (start c)
  | step {s s' : State} (k : Nat) : Reach c s → step c s k = some s' → Reach c s'

theorem run_reach (c : Config) : ∀ (ks : List Nat) (s : State), Reach c s → Reach c (run c s ks) := by
  intro ks
  induction ks with
  | nil => intro s h; exact h
  | cons k ks ih =>
    intro s h
    rw [run]
    apply ih
    cases hs : step c s k with
    | none => exact h
    | some s' => exact .step k h hs

theorem run_append (c : Config) : ∀ (ks ls : List Nat) (s : State), run c s (ks ++ ls) = run c (run c s ks) ls := by
  intro ks
  induction ks with
  | nil => intro ls s; rfl
  | cons k ks ih => intro ls s; exact ih ls _

theorem reach_run (c : Config) {s : State} (h : Reach c s) : ∃ ks, run c (start c) ks = s := by
  induction h with
  | start => exact ⟨[], rfl⟩
  | step k _ hs ih =>
    obtain ⟨ks, hks⟩ := ih
    refine ⟨ks ++ [k], ?_⟩
    rw [run_append, hks]
    simp [run, hs]

/-- What remains of a program is an end of it. -/
theorem reach_suffix {c : Config} {s : State} (h : Reach c s) : ∀ k, s.rest k <:+ program c k := by
  induction h with
  | start => intro k; exact List.suffix_refl _
  | step k _ hs ih =>
    intro j
    obtain ⟨x, r, h1, _, h2, _⟩ := step_some hs
    rw [h2]
    beta_reduce
    by_cases hj : j = k
    · subst hj
      rw [if_pos rfl]
      exact (List.suffix_cons x r).trans (h1 ▸ ih j)
    · rw [if_neg hj]; exact ih j

theorem step_lt {c : Config} {s s' : State} {k : Nat} (h : Reach c s) (hs : step c s k = some s') : k < size c := by
  by_contra hk
  obtain ⟨x, r, h1, _⟩ := step_some hs
  have := reach_suffix h k
  rw [program_big c k (by omega), h1] at this
  have := List.suffix_nil.mp this
  cases this

/-- Semaphores are conserved. -/
theorem reach_sem {c : Config} {s : State} (h : Reach c s) (m : Sem) :
    s.sem m + total c s.rest (.post m) + total c (program c) (.wait m) = total c s.rest (.wait m) + total c (program c) (.post m) := by
  induction h with
  | start => simp only [start]; omega
  | step k hr hs ih =>
    obtain ⟨x, r, h1, _, h2, h3⟩ := step_some hs
    have hk := step_lt hr hs
    have e1 := total_step c _ k hk x r h1 (.post m)
    have e2 := total_step c _ k hk x r h1 (.wait m)
    have e3 := exec_sem h3 m
    rw [h2]
    simp only at e3
    omega

/-- What has not happened is still to come. -/
theorem reach_acts {c : Config} {s : State} (h : Reach c s) : ∀ k a, .act a ∈ program c k → .act a ∈ s.rest k ∨ a ∈ s.trace := by
  induction h with
  | start => intro k a ha; exact .inl ha
  | step k hr hs ih =>
    intro j a ha
    obtain ⟨x, r, h1, _, h2, h3⟩ := step_some hs
    have ht := exec_trace h3
    rw [h2]
    beta_reduce
    rcases ih j a ha with h | h
    · by_cases hj : j = k
      · subst hj
        rw [if_pos rfl]
        rw [h1, List.mem_cons] at h
        rcases h with h | h
        · rcases ht with ⟨b, hb, ht⟩ | ⟨hb, _⟩
          · right; rw [ht]; rw [hb] at h; cases h; exact List.mem_cons_self
          · exact absurd h.symm (hb a)
        · exact .inl h
      · rw [if_neg hj]; exact .inl h
    · right
      rcases ht with ⟨b, _, ht⟩ | ⟨_, ht⟩
      · rw [ht]; exact List.mem_cons_of_mem _ h
      · rw [ht]; exact h

theorem sfx_append {α : Type} {l a b : List α} (h : l <:+ a ++ b) : l <:+ b ∨ ∃ p x, x :: p <:+ a ∧ l = (x :: p) ++ b := by
  induction a with
  | nil => exact .inl h
  | cons y a ih =>
    rw [List.cons_append, List.suffix_cons_iff] at h
    rcases h with h | h
    · exact .inr ⟨a, y, List.suffix_refl _, h⟩
    · rcases ih h with h | ⟨p, x, h1, h2⟩
      · exact .inl h
      · exact .inr ⟨p, x, h1.trans (List.suffix_cons _ _), h2⟩

/-! ## The programs -/

/-- The ways an interface thread can be under way. -/
theorem iface_cases (c : Config) (i : Nat) (t : Iface) {l : List Instr} (h : l <:+ ifaceProgram c i t) :
    l = [.wait .pre, .act (.init i), .post .ini, .wait .post] ++ (servePart c i t ++ [.wait .pre, .act (.escape i)]) ∨
    l = [.act (.init i), .post .ini, .wait .post] ++ (servePart c i t ++ [.wait .pre, .act (.escape i)]) ∨
    l = [.post .ini, .wait .post] ++ (servePart c i t ++ [.wait .pre, .act (.escape i)]) ∨
    l = [.wait .post] ++ (servePart c i t ++ [.wait .pre, .act (.escape i)]) ∨
    (∃ p x, x :: p <:+ servePart c i t ∧ l = (x :: p) ++ [.wait .pre, .act (.escape i)]) ∨
    l = [.wait .pre, .act (.escape i)] ∨ l = [.act (.escape i)] ∨ l = [] := by
  unfold ifaceProgram at h
  simp only [List.cons_append, List.nil_append, List.suffix_cons_iff] at h
  rcases h with h | h | h | h | h
  · exact .inl h
  · exact .inr (.inl h)
  · exact .inr (.inr (.inl h))
  · exact .inr (.inr (.inr (.inl h)))
  · rcases sfx_append h with h | h
    · simp only [List.suffix_cons_iff, List.suffix_nil] at h
      rcases h with h | h | h
      · exact .inr (.inr (.inr (.inr (.inr (.inl h)))))
      · exact .inr (.inr (.inr (.inr (.inr (.inr (.inl h))))))
      · exact .inr (.inr (.inr (.inr (.inr (.inr (.inr h))))))
    · exact .inr (.inr (.inr (.inr (.inl h))))

theorem serve_cases (c : Config) (i : Nat) (t : Iface) {p : List Instr} {x : Instr} (h : x :: p <:+ servePart c i t) :
    (takesPassive c t = true ∧ (x :: p = [.act (.run i), .signal, .act (.serve i)] ∨ x :: p = [.signal, .act (.serve i)] ∨ x :: p = [.act (.serve i)])) ∨
    (takesPassive c t = false ∧ x :: p = [.act (.run i)]) := by
  unfold servePart at h
  cases ht : takesPassive c t with
  | true =>
    rw [ht, if_pos rfl] at h
    simp only [List.suffix_cons_iff, List.suffix_nil] at h
    left
    refine ⟨rfl, ?_⟩
    rcases h with h | h | h | h
    · exact .inl h
    · exact .inr (.inl h)
    · exact .inr (.inr h)
    · cases h
  | false =>
    rw [ht, if_neg (by simp)] at h
    simp only [List.suffix_cons_iff, List.suffix_nil] at h
    right
    refine ⟨rfl, ?_⟩
    rcases h with h | h
    · exact h
    · cases h

theorem serve_count (c : Config) (i : Nat) (t : Iface) (x : Instr) (h1 : x ≠ .signal) (h2 : x ≠ .act (.serve i)) (h3 : x ≠ .act (.run i)) :
    (servePart c i t).count x = 0 := by
  rw [List.count_eq_zero]
  unfold servePart
  split <;> simp [h1, h2, h3]

end Verif.Startup
