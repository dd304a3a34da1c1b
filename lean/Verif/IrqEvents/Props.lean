import Verif.IrqEvents.Spec

/-!
# Theorems: events of an IOAPIC interrupt (C81)
-/

namespace Verif.IrqEvents

/-! ## Where a registration is -/

/-- Where a registration is. -/
inductive Loc
  | unborn
  | thread (t : Nat)
  | slot (i : Nat)
  | run
  | done
  | failed
  deriving DecidableEq

/-- The registration that a thread has not put into a slot yet. -/
def tId : TPc → Option Nat
  | .slot _ id => some id
  | _ => none

/-- The registration that the interrupt's thread is about to call. -/
def rId : RPc → Option Nat
  | .call _ id => some id
  | _ => none

theorem upd_same {α : Type} (f : Nat → α) (i : Nat) (a : α) : upd f i a i = a := by simp [upd]
theorem upd_other {α : Type} (f : Nat → α) (i j : Nat) (a : α) (h : j ≠ i) : upd f i a j = f j := by simp [upd, h]

theorem count_append (p : Event → Bool) (a b : List Event) : count p (a ++ b) = count p a + count p b := by
  simp [count]

/-- The invariant. -/
structure Inv (s : State) (log : List Event) (loc : Nat → Loc) : Prop where
  thr : ∀ t id, tId (s.threads t) = some id ↔ loc id = .thread t
  slo : ∀ i id, s.slots i = some id ↔ loc id = .slot i
  rn : ∀ id, rId s.run = some id ↔ loc id = .run
  called : ∀ id, count (isCall id) log = if loc id = .done then 1 else 0
  born : ∀ id, s.next ≤ id → loc id = .unborn
  small : ∀ i id, s.slots i = some id → i < maxCallbacks
  reg : ∀ id, .registered id ∈ log ↔ (loc id = .run ∨ loc id = .done ∨ ∃ i, loc id = .slot i)

theorem inv_initial : Inv initial [] (fun _ => .unborn) := by
  refine ⟨?_, ?_, ?_, ?_, ?_, ?_, ?_⟩ <;> simp [initial, tId, rId, count]

/-- Steps that move no registration. -/
theorem inv_same {s s' : State} {log es : List Event} {loc : Nat → Loc} (h : Inv s log loc)
    (ht : ∀ t, tId (s'.threads t) = tId (s.threads t)) (hs : s'.slots = s.slots) (hr : rId s'.run = rId s.run)
    (hn : s'.next = s.next) (hc : ∀ id, count (isCall id) es = 0) (hreg : ∀ id, .registered id ∉ es) :
    Inv s' (log ++ es) loc := by
  refine ⟨?_, ?_, ?_, ?_, ?_, ?_, ?_⟩
  · intro t id; rw [ht]; exact h.thr t id
  · intro i id; rw [hs]; exact h.slo i id
  · intro id; rw [hr]; exact h.rn id
  · intro id; rw [count_append, hc, h.called]; rfl
  · intro id hid; rw [hn] at hid; exact h.born id hid
  · intro i id hi; rw [hs] at hi; exact h.small i id hi
  · intro id
    rw [← h.reg id]
    simp [hreg id]

theorem tId_upd (f : Nat → TPc) (t u : Nat) (p : TPc) (h : tId p = tId (f t)) : tId (upd f t p u) = tId (f u) := by
  unfold upd
  split
  · rename_i hu; rw [h, hu]
  · rfl

theorem fire_threads (s : State) : (fire s).threads = s.threads := by unfold fire; split <;> rfl
theorem fire_slots (s : State) : (fire s).slots = s.slots := by unfold fire; split <;> rfl
theorem fire_run (s : State) : (fire s).run = s.run := by unfold fire; split <;> rfl
theorem fire_next (s : State) : (fire s).next = s.next := by unfold fire; split <;> rfl
theorem fire_args (s : State) : (fire s).args = s.args := by unfold fire; split <;> rfl
theorem fire_event (s : State) : (fire s).event = s.event := by unfold fire; split <;> rfl

theorem count_nil (p : Event → Bool) : count p [] = 0 := rfl

theorem inv_step (s : State) (log : List Event) (loc : Nat → Loc) (x : Step) (h : Inv s log loc) :
    ∃ loc', Inv (step s x).1 (log ++ (step s x).2) loc' ∧
      (∀ id, loc id = .done → loc' id = .done) := by
  cases x with
  | raise =>
    refine ⟨loc, inv_same h ?_ ?_ ?_ ?_ (by simp [step, count, isCall]) (by simp [step]), fun _ h => h⟩ <;>
      simp [step, fire_threads, fire_slots, fire_run, fire_next]
  | run =>
    simp only [step]
    unfold runStep
    split
    · rename_i hr
      split
      · exact ⟨loc, inv_same h (by simp) rfl (by simp [hr, rId]) rfl (by simp [count, isCall]) (by simp), fun _ h => h⟩
      · exact ⟨loc, inv_same h (by simp) rfl (by simp) rfl (by simp [count]) (by simp), fun _ h => h⟩
    · rename_i i hd hr
      split
      · split
        · rename_i id hid
          have hl := (h.slo i id).1 hid
          refine ⟨upd loc id .run, ?_, ?_⟩
          · refine ⟨?_, ?_, ?_, ?_, ?_, ?_, ?_⟩
            all_goals (try dsimp only)
            · intro t k
              by_cases hk : k = id
              · subst hk; rw [upd_same]; simp only [reduceCtorEq, iff_false]
                intro hx; rw [h.thr t k, hl] at hx; cases hx
              · rw [upd_other _ _ _ _ hk]; exact h.thr t k
            · intro j k
              by_cases hk : k = id
              · subst hk; rw [upd_same]; simp only [reduceCtorEq, iff_false]
                intro hx
                by_cases hj : j = i
                · subst hj; rw [upd_same] at hx; cases hx
                · rw [upd_other _ _ _ _ hj, h.slo j k, hl] at hx
                  cases hx; exact hj rfl
              · rw [upd_other loc _ _ _ hk, ← h.slo j k]
                by_cases hj : j = i
                · subst hj; rw [upd_same, hid]; simp; exact fun hx => hk hx.symm
                · rw [upd_other _ _ _ _ hj]
            · intro k
              simp only [rId, Option.some.injEq]
              by_cases hk : k = id
              · subst hk; simp [upd_same]
              · rw [upd_other loc _ _ _ hk, ← h.rn k, hr]
                simp [rId]; exact fun hx => hk hx.symm
            · intro k
              rw [count_append, count_nil, h.called k]
              by_cases hk : k = id
              · subst hk; simp [upd_same, hl]
              · rw [upd_other loc _ _ _ hk]; rfl
            · intro k hk
              have := h.born k hk
              by_cases hkk : k = id
              · subst hkk; rw [hl] at this; cases this
              · rw [upd_other loc _ _ _ hkk]; exact this
            · intro j k hj
              by_cases hji : j = i
              · subst hji; rw [upd_same] at hj; cases hj
              · rw [upd_other _ _ _ _ hji] at hj; exact h.small j k hj
            · intro k
              rw [List.append_nil, h.reg k]
              by_cases hk : k = id
              · subst hk; simp [upd_same, hl]
              · rw [upd_other loc _ _ _ hk]
          · intro k hk
            by_cases hkk : k = id
            · subst hkk; rw [hl] at hk; cases hk
            · rw [upd_other loc _ _ _ hkk]; exact hk
        · exact ⟨loc, inv_same h (by simp) rfl (by simp [hr, rId]) rfl (by simp [count]) (by simp), fun _ h => h⟩
      · exact ⟨loc, inv_same h (by simp) rfl (by simp [hr, rId]) rfl (by simp [count, isCall]) (by simp), fun _ h => h⟩
    · rename_i i id hr
      have hl := (h.rn id).1 (by rw [hr]; rfl)
      refine ⟨upd loc id .done, ?_, ?_⟩
      · refine ⟨?_, ?_, ?_, ?_, ?_, ?_, ?_⟩
        all_goals (try dsimp only)
        · intro t k
          by_cases hk : k = id
          · subst hk; rw [upd_same]; simp only [reduceCtorEq, iff_false]
            intro hx; rw [h.thr t k, hl] at hx; cases hx
          · rw [upd_other _ _ _ _ hk]; exact h.thr t k
        · intro j k
          by_cases hk : k = id
          · subst hk; rw [upd_same]; simp only [reduceCtorEq, iff_false]
            intro hx; rw [h.slo j k, hl] at hx; cases hx
          · rw [upd_other _ _ _ _ hk]; exact h.slo j k
        · intro k
          simp only [rId, reduceCtorEq, false_iff]
          by_cases hk : k = id
          · subst hk; simp [upd_same]
          · rw [upd_other loc _ _ _ hk, ← h.rn k, hr]
            simp [rId]; exact fun hx => hk hx.symm
        · intro k
          rw [count_append, h.called k]
          by_cases hk : k = id
          · subst hk; simp [upd_same, hl, count, isCall]
          · rw [upd_other loc _ _ _ hk]
            have : count (isCall k) [.called id (s.args i)] = 0 := by
              simp [count, isCall]; exact fun hx => hk hx.symm
            rw [this]; rfl
        · intro k hk
          have := h.born k hk
          by_cases hkk : k = id
          · subst hkk; rw [hl] at this; cases this
          · rw [upd_other loc _ _ _ hkk]; exact this
        · exact h.small
        · intro k
          rw [List.mem_append, h.reg k]
          by_cases hk : k = id
          · subst hk; simp [upd_same, hl]
          · rw [upd_other loc _ _ _ hk]; simp
      · intro k hk
        by_cases hkk : k = id
        · subst hkk; rw [upd_same]
        · rw [upd_other loc _ _ _ hkk]; exact hk
    · rename_i hd hr
      exact ⟨loc, inv_same h (by simp) rfl (by simp [hr, rId]) rfl (by simp [count]) (by simp), fun _ h => h⟩
    · rename_i hd hr
      split <;> exact ⟨loc, inv_same h (by simp) rfl (by simp [hr, rId]) rfl (by simp [count]) (by simp), fun _ h => h⟩
  | poll t =>
    simp only [step]
    split
    · split <;> exact ⟨loc, inv_same h (by simp) rfl rfl rfl (by simp [count, isCall]) (by simp), fun _ h => h⟩
    · exact ⟨loc, inv_same h (by simp) rfl rfl rfl (by simp [count]) (by simp), fun _ h => h⟩
  | wait t =>
    simp only [step]
    split
    · rename_i hi
      refine ⟨loc, inv_same h ?_ rfl rfl rfl (by simp [count]) (by simp), fun _ h => h⟩
      intro u; exact tId_upd _ _ _ _ (by rw [hi]; rfl)
    · exact ⟨loc, inv_same h (by simp) rfl rfl rfl (by simp [count]) (by simp), fun _ h => h⟩
  | register t =>
    simp only [step]
    split
    · rename_i hi
      have hl := h.born s.next (by omega)
      refine ⟨upd loc s.next (.thread t), ?_, ?_⟩
      · refine ⟨?_, ?_, ?_, ?_, ?_, ?_, ?_⟩
        all_goals (try dsimp only)
        · intro u k
          by_cases hk : k = s.next
          · subst hk
            rw [upd_same]
            by_cases hu : u = t
            · subst hu; simp [upd_same, tId]
            · rw [upd_other _ _ _ _ hu, h.thr u s.next, hl]
              simp; exact fun hx => hu hx.symm
          · rw [upd_other loc _ _ _ hk, ← h.thr u k]
            by_cases hu : u = t
            · subst hu; rw [upd_same, hi]; simp [tId]; exact fun hx => hk hx.symm
            · rw [upd_other _ _ _ _ hu]
        · intro j k
          by_cases hk : k = s.next
          · subst hk; rw [upd_same, h.slo j s.next, hl]; simp
          · rw [upd_other _ _ _ _ hk]; exact h.slo j k
        · intro k
          by_cases hk : k = s.next
          · subst hk; rw [upd_same, h.rn s.next, hl]; simp
          · rw [upd_other _ _ _ _ hk]; exact h.rn k
        · intro k
          rw [List.append_nil, h.called k]
          by_cases hk : k = s.next
          · subst hk; simp [upd_same, hl]
          · rw [upd_other _ _ _ _ hk]
        · intro k hk
          rw [upd_other _ _ _ _ (by omega)]
          exact h.born k (by omega)
        · exact h.small
        · intro k
          rw [List.append_nil, h.reg k]
          by_cases hk : k = s.next
          · subst hk; simp [upd_same, hl]
          · rw [upd_other _ _ _ _ hk]
      · intro k hk
        rw [upd_other _ _ _ _ (by rintro rfl; rw [hl] at hk; cases hk)]
        exact hk
    · exact ⟨loc, inv_same h (by simp) rfl rfl rfl (by simp [count]) (by simp), fun _ h => h⟩
  | go t =>
    simp only [step]
    unfold goStep
    split
    · exact ⟨loc, inv_same h (by simp) rfl rfl rfl (by simp [count]) (by simp), fun _ h => h⟩
    · rename_i hi
      split
      · refine ⟨loc, inv_same h ?_ rfl rfl rfl (by simp [count, isCall]) (by simp), fun _ h => h⟩
        intro u; exact tId_upd _ _ _ _ (by rw [hi]; rfl)
      · refine ⟨loc, inv_same h ?_ rfl rfl rfl (by simp [count]) (by simp), fun _ h => h⟩
        intro u; exact tId_upd _ _ _ _ (by rw [hi]; rfl)
    · rename_i hi
      refine ⟨loc, inv_same h ?_ rfl rfl rfl (by simp [count]) (by simp), fun _ h => h⟩
      intro u; exact tId_upd _ _ _ _ (by rw [hi]; rfl)
    · rename_i hi
      split
      · refine ⟨loc, inv_same h ?_ rfl rfl rfl (by simp [count]) (by simp), fun _ h => h⟩
        intro u; exact tId_upd _ _ _ _ (by rw [hi]; rfl)
      · exact ⟨loc, inv_same h (by simp) rfl rfl rfl (by simp [count]) (by simp), fun _ h => h⟩
    · rename_i hi
      refine ⟨loc, inv_same h ?_ rfl rfl rfl (by simp [count]) (by simp), fun _ h => h⟩
      intro u; exact tId_upd _ _ _ _ (by rw [hi]; rfl)
    · rename_i i id hi
      have hl := (h.thr t id).1 (by rw [hi]; rfl)
      split
      · rename_i hlt
        split
        · rename_i hs
          refine ⟨upd loc id (.slot i), ?_, ?_⟩
          · refine ⟨?_, ?_, ?_, ?_, ?_, ?_, ?_⟩
            all_goals (try dsimp only)
            · intro u k
              by_cases hk : k = id
              · subst hk; rw [upd_same]; simp only [reduceCtorEq, iff_false]
                intro hx
                by_cases hu : u = t
                · subst hu; rw [upd_same] at hx; cases hx
                · rw [upd_other _ _ _ _ hu, h.thr u k, hl] at hx; cases hx; exact hu rfl
              · rw [upd_other loc _ _ _ hk, ← h.thr u k]
                by_cases hu : u = t
                · subst hu; rw [upd_same, hi]; simp [tId]; exact fun hx => hk hx.symm
                · rw [upd_other _ _ _ _ hu]
            · intro j k
              by_cases hk : k = id
              · subst hk
                rw [upd_same]
                by_cases hj : j = i
                · subst hj; simp [upd_same]
                · rw [upd_other _ _ _ _ hj, h.slo j k, hl]; simp; exact fun hx => hj hx.symm
              · rw [upd_other loc _ _ _ hk, ← h.slo j k]
                by_cases hj : j = i
                · subst hj; rw [upd_same, hs]; simp; exact fun hx => hk hx.symm
                · rw [upd_other _ _ _ _ hj]
            · intro k
              by_cases hk : k = id
              · subst hk; rw [upd_same, h.rn k, hl]; simp
              · rw [upd_other loc _ _ _ hk]; exact h.rn k
            · intro k
              rw [count_append, h.called k]
              by_cases hk : k = id
              · subst hk; simp [upd_same, hl, count, isCall]
              · rw [upd_other loc _ _ _ hk]; simp [count, isCall]
            · intro k hk
              have := h.born k hk
              by_cases hkk : k = id
              · subst hkk; rw [hl] at this; cases this
              · rw [upd_other loc _ _ _ hkk]; exact this
            · intro j k hj
              by_cases hji : j = i
              · subst hji; exact hlt
              · rw [upd_other _ _ _ _ hji] at hj; exact h.small j k hj
            · intro k
              rw [List.mem_append, h.reg k]
              by_cases hk : k = id
              · subst hk; simp [upd_same]
              · rw [upd_other loc _ _ _ hk]; simp [hk]
          · intro k hk
            by_cases hkk : k = id
            · subst hkk; rw [hl] at hk; cases hk
            · rw [upd_other loc _ _ _ hkk]; exact hk
        · refine ⟨loc, inv_same h ?_ rfl rfl rfl (by simp [count]) (by simp), fun _ h => h⟩
          intro u; exact tId_upd _ _ _ _ (by rw [hi]; rfl)
      · refine ⟨upd loc id .failed, ?_, ?_⟩
        · refine ⟨?_, ?_, ?_, ?_, ?_, ?_, ?_⟩
          all_goals (try dsimp only)
          · intro u k
            by_cases hk : k = id
            · subst hk; rw [upd_same]; simp only [reduceCtorEq, iff_false]
              intro hx
              by_cases hu : u = t
              · subst hu; rw [upd_same] at hx; cases hx
              · rw [upd_other _ _ _ _ hu, h.thr u k, hl] at hx; cases hx; exact hu rfl
            · rw [upd_other loc _ _ _ hk, ← h.thr u k]
              by_cases hu : u = t
              · subst hu; rw [upd_same, hi]; simp [tId]; exact fun hx => hk hx.symm
              · rw [upd_other _ _ _ _ hu]
          · intro j k
            by_cases hk : k = id
            · subst hk; rw [upd_same, h.slo j k, hl]; simp
            · rw [upd_other _ _ _ _ hk]; exact h.slo j k
          · intro k
            by_cases hk : k = id
            · subst hk; rw [upd_same, h.rn k, hl]; simp
            · rw [upd_other loc _ _ _ hk]; exact h.rn k
          · intro k
            rw [count_append, h.called k]
            by_cases hk : k = id
            · subst hk; simp [upd_same, hl, count, isCall]
            · rw [upd_other loc _ _ _ hk]; simp [count, isCall]
          · intro k hk
            have := h.born k hk
            by_cases hkk : k = id
            · subst hkk; rw [hl] at this; cases this
            · rw [upd_other loc _ _ _ hkk]; exact this
          · exact h.small
          · intro k
            rw [List.mem_append, h.reg k]
            by_cases hk : k = id
            · subst hk; simp [upd_same, hl]
            · rw [upd_other loc _ _ _ hk]; simp
        · intro k hk
          by_cases hkk : k = id
          · subst hkk; rw [hl] at hk; cases hk
          · rw [upd_other loc _ _ _ hkk]; exact hk
    · rename_i i id hi
      refine ⟨loc, inv_same h ?_ rfl rfl rfl (by simp [count]) (by simp), fun _ h => h⟩
      intro u; exact tId_upd _ _ _ _ (by rw [hi]; rfl)
    · rename_i id hi
      refine ⟨loc, inv_same h ?_ (by simp [fire_slots]) (by simp [fire_run]) (by simp [fire_next]) (by simp [count, isCall])
        (by simp), fun _ h => h⟩
      intro u; rw [fire_threads]; exact tId_upd _ _ _ _ (by rw [hi]; rfl)

theorem run_append (s : State) (xs ys : List Step) :
    run s (xs ++ ys) = ((run (run s xs).1 ys).1, (run s xs).2 ++ (run (run s xs).1 ys).2) := by
  induction xs generalizing s with
  | nil => simp [run]
  | cons x xs ih => simp [run, ih]

/-- A claim about the state and what happened so far holds after every schedule if every step keeps it. -/
theorem run_induct (P : State → List Event → Prop) (hs : ∀ s log x, P s log → P (step s x).1 (log ++ (step s x).2))
    (xs : List Step) (s : State) (log : List Event) (h : P s log) : P (run s xs).1 (log ++ (run s xs).2) := by
  induction xs generalizing s log with
  | nil => simpa [run] using h
  | cons x xs ih =>
    have := ih _ _ (hs s log x h)
    simpa [run, List.append_assoc] using this

theorem inv_run (xs : List Step) : ∃ loc, Inv (run initial xs).1 (run initial xs).2 loc := by
  have := run_induct (fun s log => ∃ loc, Inv s log loc)
    (by
      rintro s log x ⟨loc, h⟩
      obtain ⟨loc', h', _⟩ := inv_step s log loc x h
      exact ⟨loc', h'⟩)
    xs initial [] ⟨_, inv_initial⟩
  simpa using this

/-- **C81.** A callback is called at most once for each time it is registered. -/
theorem called_once (xs : List Step) (id : Nat) : count (isCall id) (run initial xs).2 ≤ 1 := by
  obtain ⟨loc, h⟩ := inv_run xs
  rw [h.called id]
  split <;> omega

/-- **C81.** A callback that is called was registered. -/
theorem called_registered (xs : List Step) (id : Nat) (arg : Option Nat) (hc : .called id arg ∈ (run initial xs).2) :
    .registered id ∈ (run initial xs).2 := by
  obtain ⟨loc, h⟩ := inv_run xs
  rw [h.reg id]
  have hp : 0 < count (isCall id) (run initial xs).2 := by
    unfold count
    exact List.length_pos_of_mem (List.mem_filter.2 ⟨hc, by simp [isCall]⟩)
  rw [h.called id] at hp
  split at hp
  · rename_i hd; exact Or.inr (Or.inl hd)
  · omega

/-! ## Every callback is called -/

/-- Not yet looked at by the interrupt's thread. -/
def Ahead (loc : Nat → Loc) (r : RPc) (id : Nat) : Prop :=
  match r with
  | .scan i _ => loc id = .done ∨ ∃ j, i ≤ j ∧ loc id = .slot j
  | .call i _ => loc id = .done ∨ loc id = .run ∨ ∃ j, i < j ∧ loc id = .slot j
  | _ => True

def scanning : RPc → Prop
  | .scan _ _ => True
  | .call _ _ => True
  | _ => False

theorem called_mem {s : State} {log : List Event} {loc : Nat → Loc} (h : Inv s log loc) {id : Nat} (hd : loc id = .done) :
    ∃ arg, .called id arg ∈ log := by
  have hc := h.called id
  rw [if_pos hd] at hc
  unfold count at hc
  have hne : (log.filter (isCall id)) ≠ [] := by
    intro h0; rw [h0] at hc; cases hc
  obtain ⟨e, he⟩ := List.exists_mem_of_ne_nil _ hne
  rw [List.mem_filter] at he
  obtain ⟨hm, hi⟩ := he
  cases e <;> simp [isCall] at hi
  subst hi
  exact ⟨_, hm⟩

/-- What `all_called` says of what happened so far. -/
def Claim (log : List Event) : Prop :=
  ∀ a b c id, log = a ++ .ran :: (b ++ .looked :: c) → .ran ∉ b → .registered id ∈ a → ∃ arg, .called id arg ∈ a ++ b

structure Cover (s : State) (log : List Event) (loc : Nat → Loc) : Prop where
  inv : Inv s log loc
  ahead : scanning s.run → ∃ a b, log = a ++ .ran :: b ∧ .ran ∉ b ∧ ∀ id, .registered id ∈ a → Ahead loc s.run id
  claim : Claim log

theorem last_ran {a b a' b' : List Event} (h : a ++ .ran :: b = a' ++ .ran :: b') (hb : .ran ∉ b) (hb' : .ran ∉ b') :
    a = a' ∧ b = b' := by
  rw [List.append_eq_append_iff] at h
  rcases h with ⟨x, hx, hy⟩ | ⟨x, hx, hy⟩
  · cases x with
    | nil => simp at hx hy; exact ⟨hx.symm, hy⟩
    | cons e x =>
      simp only [List.cons_append, List.cons.injEq] at hy
      exact absurd (by rw [hy.2]; simp) hb
  · cases x with
    | nil => simp at hx hy; exact ⟨hx, hy.symm⟩
    | cons e x =>
      simp only [List.cons_append, List.cons.injEq] at hy
      exact absurd (by rw [hy.2]; simp) hb'

/-- Nothing that is not `looked` can break the claim. -/
theorem claim_keep {log es : List Event} (h : Claim log) (he : .looked ∉ es) : Claim (log ++ es) := by
  intro a b c id heq hb hreg
  have heq' : log ++ es = (a ++ .ran :: b) ++ .looked :: c := by rw [heq]; simp
  rw [List.append_eq_append_iff] at heq'
  rcases heq' with ⟨x, _, hy⟩ | ⟨x, hx, hy⟩
  · exact absurd (by rw [hy]; simp) he
  · cases x with
    | nil => simp at hy; exact absurd (by rw [← hy]; simp) he
    | cons e x =>
      simp only [List.cons_append, List.cons.injEq] at hy
      obtain ⟨he', _⟩ := hy
      subst he'
      exact h a b x id (by rw [hx]; simp) hb hreg

theorem claim_looked {log : List Event} (h : Claim log)
    (hn : ∀ a b id, log = a ++ .ran :: b → .ran ∉ b → .registered id ∈ a → ∃ arg, .called id arg ∈ a ++ b) :
    Claim (log ++ [.looked]) := by
  intro a b c id heq hb hreg
  have heq' : log ++ [.looked] = (a ++ .ran :: b) ++ .looked :: c := by rw [heq]; simp
  rw [List.append_eq_append_iff] at heq'
  rcases heq' with ⟨x, hx, hy⟩ | ⟨x, hx, hy⟩
  · cases x with
    | nil =>
      exact hn a b id (by simpa using hx.symm) hb hreg
    | cons e x => simp at hy
  · cases x with
    | nil =>
      exact hn a b id (by simpa using hx) hb hreg
    | cons e x =>
      simp only [List.cons_append, List.cons.injEq] at hy
      obtain ⟨he', _⟩ := hy
      subst he'
      exact h a b x id (by rw [hx]; simp) hb hreg

/-- Steps of other threads leave the interrupt's thread where it is and clear no slot. -/
theorem other_step (s : State) (x : Step) (hx : x ≠ .run) :
    (step s x).1.run = s.run ∧ (∀ j id, s.slots j = some id → (step s x).1.slots j = some id) ∧
      .ran ∉ (step s x).2 ∧ .looked ∉ (step s x).2 := by
  cases x with
  | raise => simp [step, fire_run, fire_slots]
  | run => exact absurd rfl hx
  | poll t => simp only [step]; split <;> [split; skip] <;> simp
  | wait t => simp only [step]; split <;> simp
  | register t => simp only [step]; split <;> simp
  | go t =>
    simp only [step]
    unfold goStep
    split
    · simp
    · split <;> simp
    · simp
    · split <;> simp
    · simp
    · rename_i i id hi
      split
      · split
        · rename_i hs
          refine ⟨rfl, ?_, by simp, by simp⟩
          intro j k hj
          dsimp only
          rw [upd_other]
          · exact hj
          · rintro rfl; rw [hs] at hj; cases hj
        · simp
      · simp
    · simp
    · simp [fire_run, fire_slots]

theorem cover_step (s : State) (log : List Event) (loc : Nat → Loc) (x : Step) (h : Cover s log loc) :
    ∃ loc', Cover (step s x).1 (log ++ (step s x).2) loc' := by
  obtain ⟨loc', h', hd⟩ := inv_step s log loc x h.inv
  refine ⟨loc', h', ?_, ?_⟩
  · by_cases hx : x = .run
    · subst hx
      intro hsc
      have hb := h.ahead
      simp only [step] at hsc h' hd ⊢
      revert hsc h' hd
      unfold runStep
      split
      · rename_i hr
        split
        · intro hd h' _
          refine ⟨log, [], by simp, by simp, ?_⟩
          intro id hreg
          rcases (h.inv.reg id).1 hreg with hl | hl | ⟨j, hl⟩
          · have := (h.inv.rn id).2 hl; rw [hr] at this; cases this
          · exact Or.inl (hd id hl)
          · exact Or.inr ⟨j, Nat.zero_le _, (h'.slo j id).1 ((h.inv.slo j id).2 hl)⟩
        · intro _ _ hsc; rw [hr] at hsc; cases hsc
      · rename_i i hh hr
        obtain ⟨a, b, hl, hnb, ha⟩ := hb (by rw [hr]; trivial)
        split
        · split
          · rename_i id0 hid0
            intro hd h' _
            refine ⟨a, b, by simpa using hl, hnb, ?_⟩
            intro id hreg
            have := ha id hreg
            rw [hr] at this
            rcases this with hl | ⟨j, hj, hl⟩
            · exact Or.inl (hd id hl)
            · have hsj := (h.inv.slo j id).2 hl
              by_cases hji : j = i
              · subst hji
                rw [hid0] at hsj; cases hsj
                exact Or.inr (Or.inl ((h'.rn id0).1 rfl))
              · refine Or.inr (Or.inr ⟨j, by omega, (h'.slo j id).1 ?_⟩)
                dsimp only; rw [upd_other _ _ _ _ hji]; exact hsj
          · rename_i hn
            intro hd h' _
            refine ⟨a, b, by simpa using hl, hnb, ?_⟩
            intro id hreg
            have := ha id hreg
            rw [hr] at this
            rcases this with hl | ⟨j, hj, hl⟩
            · exact Or.inl (hd id hl)
            · have hsj := (h.inv.slo j id).2 hl
              by_cases hji : j = i
              · subst hji; rw [hn] at hsj; cases hsj
              · exact Or.inr ⟨j, by omega, (h'.slo j id).1 hsj⟩
        · intro _ _ hsc; cases hsc
      · rename_i i id0 hr
        obtain ⟨a, b, hl, hnb, ha⟩ := hb (by rw [hr]; trivial)
        intro hd h' _
        refine ⟨a, b ++ [.called id0 (s.args i)], by rw [hl]; simp, by simp [hnb], ?_⟩
        intro id hreg
        have := ha id hreg
        rw [hr] at this
        rcases this with hl | hl | ⟨j, hj, hl⟩
        · exact Or.inl (hd id hl)
        · have hid := (h.inv.rn id).2 hl
          rw [hr] at hid; cases hid
          left
          have hc := h'.called id0
          rw [count_append] at hc
          have h1 : count (isCall id0) [.called id0 (s.args i)] = 1 := by simp [count, isCall]
          rw [h1] at hc
          by_contra hne
          rw [if_neg hne] at hc; omega
        · exact Or.inr ⟨j, by omega, (h'.slo j id).1 ((h.inv.slo j id).2 hl)⟩
      · intro _ _ hsc; cases hsc
      · split <;> (intro _ _ hsc; cases hsc)
    · obtain ⟨hrun, hslots, hran, _⟩ := other_step s x hx
      rw [hrun]
      intro hsc
      obtain ⟨a, b, hl, hnb, ha⟩ := h.ahead hsc
      refine ⟨a, b ++ (step s x).2, by rw [hl]; simp, by simp [hnb, hran], ?_⟩
      intro id hreg
      have := ha id hreg
      unfold Ahead at this ⊢
      split at this
      · rcases this with hl | ⟨j, hj, hl⟩
        · exact Or.inl (hd id hl)
        · exact Or.inr ⟨j, hj, (h'.slo j id).1 (hslots j id ((h.inv.slo j id).2 hl))⟩
      · rcases this with hl | hl | ⟨j, hj, hl⟩
        · exact Or.inl (hd id hl)
        · refine Or.inr (Or.inl ((h'.rn id).1 ?_))
          rw [hrun]; exact (h.inv.rn id).2 hl
        · exact Or.inr (Or.inr ⟨j, hj, (h'.slo j id).1 (hslots j id ((h.inv.slo j id).2 hl))⟩)
      · trivial
  · by_cases hx : x = .run
    · subst hx
      simp only [step]
      unfold runStep
      split
      · split
        · exact claim_keep h.claim (by simp)
        · exact claim_keep h.claim (by simp)
      · rename_i i hh hr
        split
        · split <;> exact claim_keep h.claim (by simp)
        · rename_i hge
          refine claim_looked h.claim ?_
          intro a b id hl hnb hreg
          obtain ⟨a', b', hl', hnb', ha⟩ := h.ahead (by rw [hr]; trivial)
          obtain ⟨rfl, rfl⟩ := last_ran (hl ▸ hl') hnb hnb'
          have := ha id hreg
          rw [hr] at this
          rcases this with hd' | ⟨j, hj, hd'⟩
          · obtain ⟨arg, hm⟩ := called_mem h.inv hd'
            refine ⟨arg, ?_⟩
            rw [hl] at hm
            simpa using hm
          · have := h.inv.small j id ((h.inv.slo j id).2 hd')
            omega
      · exact claim_keep h.claim (by simp)
      · exact claim_keep h.claim (by simp)
      · split <;> exact claim_keep h.claim (by simp)
    · exact claim_keep h.claim (other_step s x hx).2.2.2

/-- **C81.** A callback that is registered when the interrupt's thread wakes up has been called when the thread has looked at all
callbacks, whatever the other threads do. -/
theorem all_called (xs : List Step) (a b c : List Event) (id : Nat)
    (h : (run initial xs).2 = a ++ .ran :: (b ++ .looked :: c)) (hb : .ran ∉ b) (hr : .registered id ∈ a) :
    ∃ arg, .called id arg ∈ a ++ b := by
  have := run_induct (fun s log => ∃ loc, Cover s log loc)
    (by rintro s log x ⟨loc, h⟩; exact cover_step s log loc x h)
    xs initial []
    ⟨_, inv_initial, by simp [initial, scanning], by intro a b c id h; simp at h⟩
  obtain ⟨loc, hc⟩ := this
  exact hc.claim a b c id (by simpa using h) hb hr

/-! ## Events that threads take -/

/-- The interrupt's thread has not set `event_pending` yet. -/
def unmarked : RPc → Nat
  | .scan _ _ => 1
  | .call _ _ => 1
  | .mark _ => 1
  | _ => 0

theorem taken_step (s : State) (log : List Event) (x : Step)
    (h : count isTaken log + s.event.toNat + unmarked s.run ≤ count isRan log) :
    count isTaken (log ++ (step s x).2) + (step s x).1.event.toNat + unmarked (step s x).1.run ≤
      count isRan (log ++ (step s x).2) := by
  rw [count_append, count_append]
  cases x with
  | raise => simpa [step, fire_event, fire_run, count, isTaken, isRan] using h
  | run =>
    simp only [step]
    unfold runStep
    split
    · rename_i hr
      split
      · simp only [hr, unmarked] at h; simp [unmarked, show count isTaken [.ran] = 0 from rfl, show count isRan [.ran] = 1 from rfl] at h ⊢; omega
      · simpa [count] using h
    · rename_i hr
      simp only [hr, unmarked] at h
      split
      · split <;> simpa [count, unmarked] using h
      · simpa [count, unmarked, isTaken, isRan] using h
    · rename_i hr
      simp only [hr, unmarked] at h
      simpa [count, unmarked, isTaken, isRan] using h
    · rename_i hr
      simp only [hr, unmarked] at h
      simp [count, unmarked] at h ⊢
      cases he : s.event <;> simp [he] at h <;> omega
    · rename_i hr
      simp only [hr, unmarked] at h
      split <;> simpa [count, unmarked] using h
  | poll t =>
    simp only [step]
    split
    · split
      · rename_i he; simp [he] at h; simp [show count isTaken [.taken t] = 1 from rfl, show count isRan [.taken t] = 0 from rfl] at h ⊢; omega
      · simpa [count, isTaken, isRan] using h
    · simpa [count] using h
  | wait t => simp only [step]; split <;> simpa [count] using h
  | register t => simp only [step]; split <;> simpa [count] using h
  | go t =>
    simp only [step]
    unfold goStep
    split
    · simpa [count] using h
    · split
      · rename_i he; simp [he] at h; simp [show count isTaken [.taken t] = 1 from rfl, show count isRan [.taken t] = 0 from rfl] at h ⊢; omega
      · simpa [count] using h
    · simpa [count] using h
    · split <;> simpa [count] using h
    · simpa [count] using h
    · split
      · split <;> simpa [count, isTaken, isRan] using h
      · simpa [count, isTaken, isRan] using h
    · simpa [count] using h
    · simpa [count, isTaken, isRan, fire_event, fire_run] using h

/-- **C81.** `poll` and `wait` together succeed at most once for each time the interrupt's thread wakes up. -/
theorem taken_bounded (xs : List Step) : count isTaken (run initial xs).2 ≤ count isRan (run initial xs).2 := by
  have := run_induct (fun s log => count isTaken log + s.event.toNat + unmarked s.run ≤ count isRan log)
    (fun s log x h => taken_step s log x h) xs initial [] (by simp [initial, count, unmarked])
  simp at this
  omega

/-- The number of callbacks called since the interrupt's thread woke up is at most the number of slots it has looked at. -/
def Round (s : State) (log : List Event) : Prop :=
  ∀ a b, log = a ++ .ran :: b → .ran ∉ b → count isCalled b ≤ maxCallbacks ∧
    (match s.run with
     | .scan i _ => i ≤ maxCallbacks ∧ count isCalled b ≤ i
     | .call i _ => i < maxCallbacks ∧ count isCalled b ≤ i
     | _ => True)

theorem round_keep {s s' : State} {log es : List Event} (h : Round s log) (hr : s'.run = s.run) (he : .ran ∉ es)
    (hc : count isCalled es = 0) : Round s' (log ++ es) := by
  intro a b hl hb
  rw [hr]
  have : ∃ b', b = b' ++ es ∧ log = a ++ .ran :: b' := by
    have hl' := hl.symm
    rw [List.append_eq_append_iff] at hl'
    rcases hl' with ⟨x, hx, hy⟩ | ⟨x, hx, hy⟩
    · cases x with
      | nil => simp at hy; rw [← hy] at he; simp at he
      | cons e x =>
        simp only [List.cons_append, List.cons.injEq] at hy
        obtain ⟨rfl, hy⟩ := hy
        exact ⟨x, hy, hx⟩
    · rw [hy] at he; simp at he
  obtain ⟨b', rfl, hl'⟩ := this
  rw [count_append, hc, Nat.add_zero]
  exact h a b' hl' (fun hm => hb (by simp [hm]))

theorem no_calls (s : State) (x : Step) (hx : x ≠ .run) : count isCalled (step s x).2 = 0 := by
  cases x with
  | raise => rfl
  | run => exact absurd rfl hx
  | poll t => simp only [step]; split <;> [split; skip] <;> rfl
  | wait t => simp only [step]; split <;> rfl
  | register t => simp only [step]; split <;> rfl
  | go t =>
    simp only [step]
    unfold goStep
    split
    · rfl
    · split <;> rfl
    · rfl
    · split <;> rfl
    · rfl
    · split <;> [split; skip] <;> rfl
    · rfl
    · rfl

theorem round_step (s : State) (log : List Event) (x : Step) (h : Round s log) :
    Round (step s x).1 (log ++ (step s x).2) := by
  by_cases hx : x = .run
  · subst hx
    simp only [step]
    unfold runStep
    split
    · rename_i hr
      split
      · intro a b hl hb
        have : b = [] ∧ a = log := by
          have := last_ran (a := log) (b := []) (by simpa using hl) (by simp) hb
          exact ⟨this.2.symm, this.1.symm⟩
        obtain ⟨rfl, rfl⟩ := this
        simp [count]
      · exact round_keep h rfl (by simp) rfl
    · rename_i i hh hr
      split
      · rename_i hlt
        split
        · intro a b hl hb
          have := h a b (by simpa using hl) hb
          rw [hr] at this
          exact ⟨this.1, hlt, this.2.2⟩
        · intro a b hl hb
          have := h a b (by simpa using hl) hb
          rw [hr] at this
          exact ⟨this.1, hlt, by have := this.2.2; omega⟩
      · intro a b hl hb
        have h' : Round { s with run := .mark hh } log := by
          intro a b hl hb
          exact ⟨(h a b hl hb).1, trivial⟩
        exact round_keep (s' := { s with run := .mark hh }) (es := [.looked]) h' rfl (by simp) rfl a b hl hb
    · rename_i i id hr
      intro a b hl hb
      have : ∃ b', b = b' ++ [.called id (s.args i)] ∧ log = a ++ .ran :: b' := by
        have hl' := hl.symm
        rw [List.append_eq_append_iff] at hl'
        rcases hl' with ⟨x, hx, hy⟩ | ⟨x, hx, hy⟩
        · cases x with
          | nil => simp at hy
          | cons e x =>
            simp only [List.cons_append, List.cons.injEq] at hy
            obtain ⟨rfl, hy⟩ := hy
            exact ⟨x, hy, hx⟩
        · cases x with
          | nil => simp at hy
          | cons e x => simp at hy
      obtain ⟨b', rfl, hl'⟩ := this
      have := h a b' hl' (fun hm => hb (by simp [hm]))
      rw [hr] at this
      obtain ⟨_, h2, h3⟩ := this
      rw [count_append, show count isCalled [.called id (s.args i)] = 1 from rfl]
      refine ⟨by omega, ?_, ?_⟩ <;> omega
    · rename_i hh hr
      intro a b hl hb
      exact ⟨(h a b (by simpa using hl) hb).1, trivial⟩
    · split <;>
      · intro a b hl hb
        exact ⟨(h a b (by simpa using hl) hb).1, trivial⟩
  · obtain ⟨h1, _, h2, _⟩ := other_step s x hx
    exact round_keep h h1 h2 (no_calls s x hx)

/-- **C81.** For one wake-up of the interrupt's thread at most ten callbacks are called, even if callbacks are registered all the
time. -/
theorem ten_calls (xs : List Step) (a b : List Event) (h : (run initial xs).2 = a ++ .ran :: b) (hb : .ran ∉ b) :
    count isCalled b ≤ 10 := by
  have := run_induct Round round_step xs initial [] (by intro a b h; simp at h)
  exact (this a b (by simpa using h) hb).1

/-! ## Arguments -/

structure ArgInv (s : State) : Prop where
  slot : ∀ i id, s.slots i = some id → s.args i = some id ∨ ∃ t, s.threads t = .arg i id
  held : ∀ t i id, s.threads t = .arg i id → s.slots i = some id
  call : ∀ i id, s.run = .call i id → s.args i = some id ∧ s.slots i = none
  one : ∀ t u i id, s.threads t = .arg i id → s.threads u = .arg i id → t = u

theorem argInv_same {s s' : State} (h : ArgInv s) (hs : s'.slots = s.slots) (ha : s'.args = s.args)
    (ht : ∀ t i id, s'.threads t = .arg i id ↔ s.threads t = .arg i id)
    (hr : ∀ i id, s'.run = .call i id → s.run = .call i id) : ArgInv s' := by
  refine ⟨?_, ?_, ?_, ?_⟩
  · intro i id hi
    rw [hs] at hi; rw [ha]
    rcases h.slot i id hi with hx | ⟨t, hx⟩
    · exact Or.inl hx
    · exact Or.inr ⟨t, (ht t i id).2 hx⟩
  · intro t i id hx; rw [hs]; exact h.held t i id ((ht t i id).1 hx)
  · intro i id hx; rw [hs, ha]; exact h.call i id (hr i id hx)
  · intro t u i id hx hy; exact h.one t u i id ((ht t i id).1 hx) ((ht u i id).1 hy)

theorem arg_upd (f : Nat → TPc) (t : Nat) (p : TPc) (h1 : ∀ i id, p ≠ .arg i id) (h2 : ∀ i id, f t ≠ .arg i id) (u i id : Nat) :
    upd f t p u = .arg i id ↔ f u = .arg i id := by
  unfold upd
  split
  · rename_i hu; subst hu
    exact ⟨fun hx => absurd hx (h1 i id), fun hx => absurd hx (h2 i id)⟩
  · rfl

theorem argInv_step (s : State) (x : Step) (h : ArgInv s) (hc : CalmStep s x) :
    ArgInv (step s x).1 ∧ ∀ id arg, .called id arg ∈ (step s x).2 → arg = some id := by
  cases x with
  | raise =>
    refine ⟨argInv_same h ?_ ?_ ?_ ?_, by simp [step]⟩ <;> simp [step, fire_slots, fire_args, fire_threads, fire_run]
  | run =>
    simp only [step, CalmStep] at hc ⊢
    unfold runStep
    split
    · split
      · exact ⟨argInv_same h rfl rfl (by simp) (by simp), by simp⟩
      · exact ⟨h, by simp⟩
    · rename_i i hh hr
      split
      · split
        · rename_i id0 hid0
          have hno := hc i hh id0 hr hid0
          refine ⟨⟨?_, ?_, ?_, h.one⟩, by simp⟩
          · intro j k hj
            dsimp only at hj ⊢
            by_cases hji : j = i
            · subst hji; rw [upd_same] at hj; cases hj
            · rw [upd_other _ _ _ _ hji] at hj; exact h.slot j k hj
          · intro t j k hj
            have := h.held t j k hj
            dsimp only at hj ⊢
            by_cases hji : j = i
            · subst hji
              rw [hid0] at this; cases this
              exact absurd hj (hno t)
            · rw [upd_other _ _ _ _ hji]; exact this
          · intro j k hj
            simp only [RPc.call.injEq] at hj
            obtain ⟨rfl, rfl⟩ := hj
            dsimp only
            rw [upd_same]
            rcases h.slot i id0 hid0 with hx | ⟨t, hx⟩
            · exact ⟨hx, rfl⟩
            · exact absurd hx (hno t)
        · exact ⟨argInv_same h rfl rfl (by simp) (by simp), by simp⟩
      · exact ⟨argInv_same h rfl rfl (by simp) (by simp), by simp⟩
    · rename_i i id0 hr
      refine ⟨argInv_same h rfl rfl (by simp) (by simp), ?_⟩
      intro id arg hm
      simp at hm
      obtain ⟨rfl, rfl⟩ := hm
      exact (h.call i id hr).1
    · exact ⟨argInv_same h rfl rfl (by simp) (by simp), by simp⟩
    · split <;> exact ⟨argInv_same h rfl rfl (by simp) (by simp), by simp⟩
  | poll t => simp only [step]; split <;> [split; skip] <;> exact ⟨argInv_same h rfl rfl (by simp) (by simp), by simp⟩
  | wait t =>
    simp only [step]
    split
    · rename_i hi
      exact ⟨argInv_same h rfl rfl (arg_upd _ _ _ (by simp) (by simp [hi])) (by simp), by simp⟩
    · exact ⟨h, by simp⟩
  | register t =>
    simp only [step]
    split
    · rename_i hi
      exact ⟨argInv_same h rfl rfl (arg_upd _ _ _ (by simp) (by simp [hi])) (by simp), by simp⟩
    · exact ⟨h, by simp⟩
  | go t =>
    simp only [step, CalmStep] at hc ⊢
    unfold goStep
    split
    · exact ⟨h, by simp⟩
    · rename_i hi
      split <;> exact ⟨argInv_same h rfl rfl (arg_upd _ _ _ (by simp) (by simp [hi])) (by simp), by simp⟩
    · rename_i hi
      exact ⟨argInv_same h rfl rfl (arg_upd _ _ _ (by simp) (by simp [hi])) (by simp), by simp⟩
    · rename_i hi
      split
      · exact ⟨argInv_same h rfl rfl (arg_upd _ _ _ (by simp) (by simp [hi])) (by simp), by simp⟩
      · exact ⟨h, by simp⟩
    · rename_i hi
      exact ⟨argInv_same h rfl rfl (arg_upd _ _ _ (by simp) (by simp [hi])) (by simp), by simp⟩
    · rename_i i id0 hi
      split
      · split
        · rename_i hs
          have hno := hc i id0 hi hs
          refine ⟨⟨?_, ?_, ?_, ?_⟩, by simp⟩
          · intro j k hj
            dsimp only at hj ⊢
            by_cases hji : j = i
            · subst hji; rw [upd_same] at hj; cases hj
              exact Or.inr ⟨t, upd_same _ _ _⟩
            · rw [upd_other _ _ _ _ hji] at hj
              rcases h.slot j k hj with hx | ⟨u, hx⟩
              · exact Or.inl hx
              · refine Or.inr ⟨u, ?_⟩
                rw [upd_other]; · exact hx
                · rintro rfl; rw [hi] at hx; cases hx
          · intro u j k hj
            dsimp only at hj ⊢
            by_cases hu : u = t
            · subst hu; rw [upd_same] at hj; cases hj; rw [upd_same]
            · rw [upd_other _ _ _ _ hu] at hj
              have := h.held u j k hj
              rw [upd_other]; · exact this
              · rintro rfl; rw [hs] at this; cases this
          · intro j k hj
            dsimp only at hj ⊢
            have hne : j ≠ i := by rintro rfl; exact hno k hj
            rw [upd_other _ _ _ _ hne]
            exact h.call j k hj
          · intro u v j k hu hv
            dsimp only at hu hv
            by_cases h1 : u = t
            · by_cases h2 : v = t
              · rw [h1, h2]
              · subst h1; rw [upd_same] at hu; cases hu
                rw [upd_other _ _ _ _ h2] at hv
                have := h.held v i id0 hv
                rw [hs] at this; cases this
            · rw [upd_other _ _ _ _ h1] at hu
              by_cases h2 : v = t
              · subst h2; rw [upd_same] at hv; cases hv
                have := h.held u i id0 hu
                rw [hs] at this; cases this
              · rw [upd_other _ _ _ _ h2] at hv
                exact h.one u v j k hu hv
        · exact ⟨argInv_same h rfl rfl (arg_upd _ _ _ (by simp) (by simp [hi])) (by simp), by simp⟩
      · exact ⟨argInv_same h rfl rfl (arg_upd _ _ _ (by simp) (by simp [hi])) (by simp), by simp⟩
    · rename_i i id0 hi
      have hs := h.held t i id0 hi
      refine ⟨⟨?_, ?_, ?_, ?_⟩, by simp⟩
      · intro j k hj
        dsimp only at hj ⊢
        by_cases hji : j = i
        · subst hji; rw [hs] at hj; cases hj; left; rw [upd_same]
        · rw [upd_other _ _ _ _ hji]
          rcases h.slot j k hj with hx | ⟨u, hx⟩
          · exact Or.inl hx
          · refine Or.inr ⟨u, ?_⟩
            rw [upd_other]; · exact hx
            · rintro rfl; rw [hi] at hx; cases hx; exact hji rfl
      · intro u j k hj
        dsimp only at hj ⊢
        by_cases hu : u = t
        · subst hu; rw [upd_same] at hj; cases hj
        · rw [upd_other _ _ _ _ hu] at hj; exact h.held u j k hj
      · intro j k hj
        have := h.call j k hj
        dsimp only at hj ⊢
        have hne : j ≠ i := by rintro rfl; rw [hs] at this; cases this.2
        rw [upd_other _ _ _ _ hne]
        exact this
      · intro u v j k hu hv
        dsimp only at hu hv
        by_cases h1 : u = t
        · subst h1; rw [upd_same] at hu; cases hu
        · by_cases h2 : v = t
          · subst h2; rw [upd_same] at hv; cases hv
          · rw [upd_other _ _ _ _ h1] at hu
            rw [upd_other _ _ _ _ h2] at hv
            exact h.one u v j k hu hv
    · rename_i id0 hi
      refine ⟨argInv_same h ?_ ?_ ?_ ?_, by simp⟩
      · simp [fire_slots]
      · simp [fire_args]
      · intro u i id; rw [fire_threads]; exact arg_upd _ _ _ (by simp) (by simp [hi]) u i id
      · simp [fire_run]

/-- **C81, in part.** A callback gets the argument it was registered with, if no registration is disturbed. See
`stale_argument` and `argument_overwritten`. -/
theorem argument_right_partial (xs : List Step) (hc : Calm initial xs) (id : Nat) (arg : Option Nat)
    (h : .called id arg ∈ (run initial xs).2) : arg = some id := by
  have : ∀ (xs : List Step) (s : State), ArgInv s → Calm s xs → ∀ e ∈ (run s xs).2, ∀ id arg, e = .called id arg → arg = some id := by
    intro xs
    induction xs with
    | nil => intro s _ _ e he; simp [run] at he
    | cons x xs ih =>
      intro s hs hc e he id arg heq
      obtain ⟨h1, h2⟩ := argInv_step s x hs hc.1
      simp only [run, List.mem_append] at he
      rcases he with he | he
      · subst heq; exact h2 id arg he
      · exact ih _ h1 hc.2 e he id arg heq
  exact this xs initial ⟨by simp [initial], by simp [initial], by simp [initial], by simp [initial]⟩ hc _ h id arg rfl

/-! ## Calls that nothing disturbs -/

/-- **C81.** `reg_callback` that is not disturbed uses the first free slot. -/
theorem register_free (s : State) (t i : Nat) (ht : s.threads t = .idle) (hi : i < 10) (hf : s.slots i = none)
    (hb : ∀ j < i, s.slots j ≠ none) :
    (run s (.register t :: List.replicate (i + 3) (.go t))).2 = [.registered s.next, .ok s.next] ∧
      (run s (.register t :: List.replicate (i + 3) (.go t))).1.slots i = some s.next ∧
      (run s (.register t :: List.replicate (i + 3) (.go t))).1.args i = some s.next := by
  have key : ∀ n k (s : State), k + n = i → s.slots i = none → (∀ j < i, s.slots j ≠ none) → ∀ id, s.threads t = .slot k id →
      (run s (List.replicate (n + 3) (.go t))).2 = [.registered id, .ok id] ∧
      (run s (List.replicate (n + 3) (.go t))).1.slots i = some id ∧
      (run s (List.replicate (n + 3) (.go t))).1.args i = some id := by
    intro n
    induction n with
    | zero =>
      intro k s hk hf hb id ht
      have hki : k = i := by omega
      subst hki
      have hlt : k < maxCallbacks := hi
      simp [List.replicate, run, step, goStep, ht, hf, hlt, upd_same, fire_slots, fire_args]
    | succ n ih =>
      intro k s hk hf hb id ht
      have hlt : k < maxCallbacks := by unfold maxCallbacks; omega
      obtain ⟨x, hx⟩ := Option.ne_none_iff_exists'.1 (hb k (by omega))
      have hstep : step s (.go t) = ({ s with threads := upd s.threads t (.slot (k + 1) id) }, []) := by
        simp [step, goStep, ht, hlt, hx]
      have := ih (k + 1) { s with threads := upd s.threads t (.slot (k + 1) id) } (by omega) hf hb id (by simp [upd_same])
      rw [show n + 1 + 3 = (n + 3) + 1 from by omega, List.replicate_succ]
      simp only [run, hstep, List.nil_append]
      exact this
  have := key i 0 { s with threads := upd s.threads t (.slot 0 s.next), next := s.next + 1 } (by omega) hf hb s.next
    (by simp [upd_same])
  simp only [run, step, ht, if_true, List.nil_append]
  exact this

/-- **C81.** `reg_callback` that finds all ten slots in use returns -1 and changes no slot. -/
theorem register_full (s : State) (t : Nat) (ht : s.threads t = .idle) (hb : ∀ j < 10, s.slots j ≠ none) :
    (run s (.register t :: List.replicate 11 (.go t))).2 = [.full s.next] ∧
      (run s (.register t :: List.replicate 11 (.go t))).1.slots = s.slots := by
  have key : ∀ n k (s : State), k + n = 10 → (∀ j < 10, s.slots j ≠ none) → ∀ id, s.threads t = .slot k id →
      (run s (List.replicate (n + 1) (.go t))).2 = [.full id] ∧
      (run s (List.replicate (n + 1) (.go t))).1.slots = s.slots := by
    intro n
    induction n with
    | zero =>
      intro k s hk hb id ht
      have hlt : ¬ k < maxCallbacks := by unfold maxCallbacks; omega
      simp [List.replicate, run, step, goStep, ht, hlt]
    | succ n ih =>
      intro k s hk hb id ht
      have hlt : k < maxCallbacks := by unfold maxCallbacks; omega
      obtain ⟨x, hx⟩ := Option.ne_none_iff_exists'.1 (hb k (by omega))
      have hstep : step s (.go t) = ({ s with threads := upd s.threads t (.slot (k + 1) id) }, []) := by
        simp [step, goStep, ht, hlt, hx]
      have := ih (k + 1) { s with threads := upd s.threads t (.slot (k + 1) id) } (by omega) hb id (by simp [upd_same])
      rw [List.replicate_succ]
      simp only [run, hstep, List.nil_append]
      exact this
  have := key 10 0 { s with threads := upd s.threads t (.slot 0 s.next), next := s.next + 1 } (by omega) hb s.next
    (by simp [upd_same])
  simp only [run, step, ht, if_true, List.nil_append]
  exact this

/-- **C81.** `poll` succeeds exactly if there is an event, and takes it. -/
theorem poll_takes (s : State) (t : Nat) (ht : s.threads t = .idle) :
    run s [.poll t, .poll t] =
      ({ s with event := false }, [if s.event then .taken t else .nothing t, .nothing t]) := by
  have : (if s.event then (({ s with event := false } : State), [Event.taken t]) else (s, [Event.nothing t])) =
      ({ s with event := false }, [if s.event then .taken t else .nothing t]) := by
    cases s with | mk a b c d e f ev g h i j => cases ev <;> rfl
  simp only [run, step, ht, if_true, this, List.append_nil]
  simp

/-- **C81, in part.** A thread that is already asleep in `wait` when an interrupt comes returns from it, if no callback is
registered and the other threads do nothing. See `lost_wakeup`. -/
theorem woken_partial (s : State) (t : Nat) (ht : s.threads t = .sleep) (hs : s.sleepers > 0) (hr : s.run = .wait)
    (hn : ∀ i, s.slots i = none) (he : s.enabled = true) :
    (run s (.raise :: (List.replicate 14 .run ++ List.replicate 3 (.go t)))).2 = [.raised, .ran, .looked, .taken t] := by
  simp [List.replicate, run, step, fire, runStep, goStep, he, hr, hn, hs, ht, maxCallbacks, upd_same]

/-! ## What goes wrong -/

/-- The steps of the interrupt's thread from one wait to the next when no callback is registered. -/
def round : List Step := List.replicate 14 .run

/-- **Disagreement with C81.** One interrupt is delivered twice: to a callback, and to a thread that polls. The loop sets
`event_pending` even if a callback was called (template:79). -/
theorem twice : ∃ xs, (run initial xs).2 =
    [.registered 0, .ok 0, .raised, .ran, .called 0 (some 0), .looked, .taken 1] :=
  ⟨[.register 0, .go 0, .go 0, .go 0, .raise] ++ List.replicate 15 .run ++ [.poll 1], by decide⟩

/-- **Disagreement with C81.** An interrupt between the two statements of a registration: the callback is called with the
argument that was in the slot before. -/
theorem stale_argument : ∃ xs, (run initial xs).2 = [.raised, .registered 0, .ran, .called 0 none] :=
  ⟨[.raise, .register 0, .go 0] ++ [.run, .run, .run], by decide⟩

/-- **Disagreement with C81.** A callback that is registered while another one is about to be called: that one is called with the
argument of the new one. -/
theorem argument_overwritten : ∃ xs, (run initial xs).2 =
    [.registered 0, .ok 0, .raised, .ran, .registered 1, .called 0 (some 1)] :=
  ⟨[.register 0, .go 0, .go 0, .go 0, .raise, .run, .run, .register 1, .go 1, .go 1, .run], by decide⟩

/-- An interrupt comes after `wait` has seen that there is no event and before the thread is counted as a sleeper. -/
def race (t : Nat) : List Step := [.wait t, .go t, .raise] ++ round ++ [.go t]

theorem asleep (t : Nat) (xs : List Step) (s : State) (hs : s.threads t = .sleep) (hl : s.lock = false) (hr : s.run = .wait)
    (hn : s.ntfn = false) (he : s.enabled = false) (hx : ∀ x ∈ xs, Alone t x) :
    (run s xs).1.threads t = .sleep ∧ ∀ e ∈ (run s xs).2, e = .raised := by
  induction xs generalizing s with
  | nil => exact ⟨hs, by simp [run]⟩
  | cons x xs ih =>
    have hx' : ∀ x ∈ xs, Alone t x := fun y hy => hx y (by simp [hy])
    have hx0 := hx x (by simp)
    cases x with
    | raise =>
      have hst : step s .raise = ({ s with pending := true }, [.raised]) := by simp [step, fire, he]
      simp only [run, hst]
      have := ih { s with pending := true } hs hl hr hn he hx'
      refine ⟨this.1, ?_⟩
      intro e hm
      rw [List.mem_append] at hm
      rcases hm with hm | hm
      · simpa using hm
      · exact this.2 e hm
    | run =>
      have hst : step s .run = (s, []) := by simp [step, runStep, hr, hn]
      simp only [run, hst, List.nil_append]
      exact ih s hs hl hr hn he hx'
    | go u =>
      have hu : u = t := hx0
      subst hu
      have hst : step s (.go u) = (s, []) := by simp [step, goStep, hs, hl]
      simp only [run, hst, List.nil_append]
      exact ih s hs hl hr hn he hx'
    | poll u => exact hx0.elim
    | wait u => exact hx0.elim
    | register u => exact hx0.elim

/-- **Disagreement with C81.** `wait` may sleep forever although the interrupt came while it was running: the event is set, the
thread sleeps, and no further interrupt is delivered, however often the device raises it. -/
theorem lost_wakeup (t : Nat) (xs : List Step) (hx : ∀ x ∈ xs, Alone t x) :
    (run initial (race t)).2 = [.raised, .ran, .looked] ∧ (run initial (race t)).1.event = true ∧
      (run initial (race t ++ xs)).1.threads t = .sleep ∧ (.taken t) ∉ (run initial (race t ++ xs)).2 := by
  have h1 : (run initial (race t)).2 = [.raised, .ran, .looked] ∧ (run initial (race t)).1.event = true ∧
      (run initial (race t)).1.threads t = .sleep ∧ (run initial (race t)).1.lock = false ∧
      (run initial (race t)).1.run = .wait ∧ (run initial (race t)).1.ntfn = false ∧
      (run initial (race t)).1.enabled = false := by
    simp [race, round, List.replicate, run, step, fire, runStep, goStep, initial, maxCallbacks, upd_same]
  obtain ⟨a, b, c, d, e, f, g⟩ := h1
  have h2 := asleep t xs _ c d e f g hx
  rw [run_append]
  refine ⟨a, b, h2.1, ?_⟩
  rw [List.mem_append, not_or, a]
  refine ⟨by simp, fun hm => ?_⟩
  have := h2.2 _ hm
  cases this

/-- Nobody is registering a callback. -/
def quiet : TPc → Prop
  | .slot _ _ => False
  | .arg _ _ => False
  | .ack _ => False
  | _ => True

theorem quiet_upd {f : Nat → TPc} {p : TPc} (h : ∀ t, quiet (f t)) (hp : quiet p) (t u : Nat) : quiet (upd f t p u) := by
  unfold upd; split
  · exact hp
  · exact h u

/-- **Disagreement with C81.** A component that only polls and waits gets one interrupt: neither `poll` nor `wait` acknowledges it,
so the kernel does not deliver another one. -/
theorem never_again (xs : List Step) (hx : ∀ x ∈ xs, NoRegistration x) :
    count isRan (run initial xs).2 ≤ 1 ∧ count isTaken (run initial xs).2 ≤ 1 := by
  have key : ∀ (xs : List Step) (s : State), (∀ x ∈ xs, NoRegistration x) → (∀ t, quiet (s.threads t)) →
      (s.enabled = true → s.ntfn = false) →
      count isRan (run s xs).2 ≤ s.enabled.toNat + s.ntfn.toNat := by
    intro xs
    induction xs with
    | nil => intro s _ _ _; simp [run, count]
    | cons x xs ih =>
      intro s hx hq he
      have hx' : ∀ x ∈ xs, NoRegistration x := fun y hy => hx y (by simp [hy])
      have hx0 := hx x (by simp)
      simp only [run]
      rw [count_append]
      cases x with
      | raise =>
        have c0 : count isRan (step s .raise).2 = 0 := by simp [step, count, isRan]
        rw [c0, Nat.zero_add]
        cases hen : s.enabled with
        | false =>
          have hst : (step s .raise).1 = { s with pending := true } := by simp [step, fire, hen]
          rw [hst]
          have := ih { s with pending := true } hx' hq (by simpa using he)
          simpa [hen] using this
        | true =>
          have hst : (step s .raise).1 = { s with pending := false, enabled := false, ntfn := true } := by
            simp [step, fire, hen]
          rw [hst]
          have := ih { s with pending := false, enabled := false, ntfn := true } hx' hq (by simp)
          simpa [he hen] using this
      | run =>
        simp only [step]
        unfold runStep
        split
        · split
          · rename_i hn
            have hen : s.enabled = false := by
              cases hen : s.enabled with
              | false => rfl
              | true => rw [he hen] at hn; cases hn
            have := ih { s with ntfn := false, run := .scan 0 false } hx' hq (by simp)
            simp only [hen] at this
            simp only [show count isRan [.ran] = 1 from rfl, hn, hen]
            simp at this ⊢
            omega
          · have := ih s hx' hq he
            simpa [count] using this
        · split
          · split
            · exact Nat.le_trans (Nat.le_of_eq (Nat.zero_add _)) (ih _ hx' hq he)
            · exact Nat.le_trans (Nat.le_of_eq (Nat.zero_add _)) (ih _ hx' hq he)
          · exact Nat.le_trans (Nat.le_of_eq (Nat.zero_add _)) (ih _ hx' hq he)
        · exact Nat.le_trans (Nat.le_of_eq (Nat.zero_add _)) (ih _ hx' hq he)
        · exact Nat.le_trans (Nat.le_of_eq (Nat.zero_add _)) (ih _ hx' hq he)
        · split
          · exact Nat.le_trans (Nat.le_of_eq (Nat.zero_add _)) (ih _ hx' hq he)
          · exact Nat.le_trans (Nat.le_of_eq (Nat.zero_add _)) (ih _ hx' hq he)
      | poll t =>
        simp only [step]
        split
        · split
          · exact Nat.le_trans (Nat.le_of_eq (Nat.zero_add _)) (ih _ hx' hq he)
          · exact Nat.le_trans (Nat.le_of_eq (Nat.zero_add _)) (ih _ hx' hq he)
        · exact Nat.le_trans (Nat.le_of_eq (Nat.zero_add _)) (ih _ hx' hq he)
      | wait t =>
        simp only [step]
        split
        · exact Nat.le_trans (Nat.le_of_eq (Nat.zero_add _)) (ih _ hx' (quiet_upd hq (by trivial) t) he)
        · exact Nat.le_trans (Nat.le_of_eq (Nat.zero_add _)) (ih _ hx' hq he)
      | register t => exact hx0.elim
      | go t =>
        simp only [step]
        have hqt := hq t
        unfold goStep
        split
        · exact Nat.le_trans (Nat.le_of_eq (Nat.zero_add _)) (ih _ hx' hq he)
        · split
          · exact Nat.le_trans (Nat.le_of_eq (Nat.zero_add _)) (ih _ hx' (quiet_upd hq (by trivial) t) he)
          · exact Nat.le_trans (Nat.le_of_eq (Nat.zero_add _)) (ih _ hx' (quiet_upd hq (by trivial) t) he)
        · exact Nat.le_trans (Nat.le_of_eq (Nat.zero_add _)) (ih _ hx' (quiet_upd hq (by trivial) t) he)
        · split
          · exact Nat.le_trans (Nat.le_of_eq (Nat.zero_add _)) (ih _ hx' (quiet_upd hq (by trivial) t) he)
          · exact Nat.le_trans (Nat.le_of_eq (Nat.zero_add _)) (ih _ hx' hq he)
        · exact Nat.le_trans (Nat.le_of_eq (Nat.zero_add _)) (ih _ hx' (quiet_upd hq (by trivial) t) he)
        all_goals (rename_i hi; rw [hi] at hqt; exact hqt.elim)
  have h1 := key xs initial hx (fun _ => trivial) (fun _ => rfl)
  have h2 := taken_bounded xs
  have h3 : initial.enabled.toNat + initial.ntfn.toNat = 1 := rfl
  omega

/-! ## The theorems are not vacuous -/

/-- A callback and two interrupts; the second one is delivered only because a callback is registered again. -/
example : (run initial ([.register 0, .go 0, .go 0, .go 0, .raise] ++ List.replicate 15 .run ++ [.raise, .run, .run] ++
    [.register 0, .go 0, .go 0, .go 0] ++ List.replicate 3 .run)).2 =
    [.registered 0, .ok 0, .raised, .ran, .called 0 (some 0), .looked, .raised, .registered 1, .ok 1, .ran,
      .called 1 (some 1)] := by decide

/-- A calm schedule in which a callback is called. -/
example : Calm initial [.register 0, .go 0, .go 0, .go 0, .raise, .run, .run, .run] := by
  simp [Calm, CalmStep, step, goStep, runStep, fire, initial, maxCallbacks, upd]
  intro t
  by_cases ht : t = 0 <;> simp [ht]

/-- A thread asleep before the interrupt. -/
example : (run initial ([.wait 3, .go 3, .go 3, .raise] ++ List.replicate 14 .run ++ [.go 3, .go 3, .go 3])).2 =
    [.raised, .ran, .looked, .taken 3] := by decide

end Verif.IrqEvents
