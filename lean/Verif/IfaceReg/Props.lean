import Verif.IfaceReg.Spec

namespace Verif.IfaceReg

theorem lookup_cons (t : Nat) (l : List Nat) (r : Registry) (type : Nat) :
    lookup ((t, l) :: r) type = if t = type then some l else lookup r type := by
  by_cases h : t = type <;> simp [lookup, h]

theorem lookup_update (type : Nat) (f : List Nat → List Nat) (r : Registry) (t : Nat) :
    lookup (update type f r) t = if t = type then (lookup r t).map f else lookup r t := by
  induction r with
  | nil => simp [update, lookup]
  | cons p r ih =>
    obtain ⟨u, l⟩ := p
    by_cases h : u = type
    · rw [update, if_pos h, lookup_cons, lookup_cons]
      by_cases ht : t = type
      · simp [h, ht]
      · have : u ≠ t := fun e => ht (e.symm.trans h)
        simp [ht, this]
    · rw [update, if_neg h, lookup_cons, lookup_cons, ih]
      by_cases ht : t = type
      · have : u ≠ t := fun e => h (e.trans ht)
        simp [ht, h]
      · by_cases hu : u = t <;> simp [ht, hu]

/-- The registry contains what the history says. -/
def Agrees (r : Registry) (es : List (Call × Ret)) : Prop :=
  ∀ type, (lookup r type).getD [] = registered type es ∧ ((lookup r type).isSome ↔ Known type es)

theorem known_cons (type : Nat) (c : Call × Ret) (es : List (Call × Ret)) :
    Known type (c :: es) ↔ (∃ i m1 m2, c = (Call.register type i m1 m2, Ret.ok)) ∨ Known type es := by
  unfold Known
  constructor
  · rintro ⟨i, m1, m2, h⟩
    rcases List.mem_cons.mp h with h | h
    · exact .inl ⟨i, m1, m2, h.symm⟩
    · exact .inr ⟨i, m1, m2, h⟩
  · rintro (⟨i, m1, m2, rfl⟩ | ⟨i, m1, m2, h⟩)
    · exact ⟨i, m1, m2, by simp⟩
    · exact ⟨i, m1, m2, by simp [h]⟩

theorem agrees_same {r : Registry} {es : List (Call × Ret)} {c : Call} {ret : Ret} (h : Agrees r es) (hne : ret ≠ .ok) :
    Agrees r ((c, ret) :: es) := by
  intro type
  have h1 : registered type ((c, ret) :: es) = registered type es := by
    cases c <;> cases ret <;> first | exact absurd rfl hne | rfl
  have h2 : Known type ((c, ret) :: es) ↔ Known type es := by
    rw [known_cons]
    constructor
    · rintro (⟨i, m1, m2, he⟩ | hk)
      · simp only [Prod.mk.injEq] at he
        exact absurd he.2 hne
      · exact hk
    · exact .inr
  rw [h1, h2]
  exact h type

theorem step_agrees (null : Nat) {r : Registry} {es : List (Call × Ret)} (c : Call) (h : Agrees r es) :
    Agrees (step null r c).1 ((c, (step null r c).2) :: es) := by
  cases c with
  | register type inst m1 m2 =>
    simp only [step, register]
    split
    · exact agrees_same h (by simp)
    · cases hl : lookup r type with
      | some l =>
        simp only
        split
        · exact agrees_same h (by simp)
        · split
          · exact agrees_same h (by simp)
          · intro t
            simp only [lookup_update, registered]
            obtain ⟨a1, a2⟩ := h t
            rw [known_cons]
            by_cases ht : t = type
            · subst ht
              rw [hl] at a1 a2
              simp only [Option.getD_some, Option.isSome_some, true_iff] at a1 a2
              simp [hl, a1, a2]
            · have ht' : type ≠ t := Ne.symm ht
              simp only [if_neg ht, if_neg ht', a1, a2]
              refine ⟨trivial, ?_⟩
              constructor
              · exact .inr
              · rintro (⟨i, n1, n2, he⟩ | hk)
                · simp only [Prod.mk.injEq, Call.register.injEq] at he
                  exact absurd he.1.1 ht'
                · exact hk
      | none =>
        simp only
        split
        · exact agrees_same h (by simp)
        · split
          · exact agrees_same h (by simp)
          · intro t
            simp only [lookup_cons, registered]
            obtain ⟨a1, a2⟩ := h t
            rw [known_cons]
            by_cases ht : type = t
            · subst ht
              rw [hl] at a1
              simp only [Option.getD_none] at a1
              simp [← a1]
            · simp only [if_neg ht, a1, a2]
              refine ⟨trivial, ?_⟩
              constructor
              · exact .inr
              · rintro (⟨i, n1, n2, he⟩ | hk)
                · simp only [Prod.mk.injEq, Call.register.injEq] at he
                  exact absurd he.1.1 ht
                · exact hk
  | unregister type inst =>
    have hk : ∀ t ret, Known t ((Call.unregister type inst, ret) :: es) ↔ Known t es := by
      intro t ret
      rw [known_cons]
      constructor
      · rintro (⟨i, n1, n2, he⟩ | hk)
        · simp at he
        · exact hk
      · exact .inr
    simp only [step, unregister]
    split
    · exact agrees_same h (by simp)
    · cases hl : lookup r type with
      | none =>
        intro t
        simp only [registered, hk]
        obtain ⟨a1, a2⟩ := h t
        by_cases ht : type = t
        · subst ht
          rw [hl] at a1 a2
          simp only [Option.getD_none] at a1
          simp only [hl, if_true, ← a1, a2]
          simp
        · simp only [if_neg ht, a1, a2, and_self]
      | some l =>
        intro t
        simp only [lookup_update, registered, hk]
        obtain ⟨a1, a2⟩ := h t
        by_cases ht : t = type
        · subst ht
          rw [hl] at a1 a2
          simp only [Option.getD_some, Option.isSome_some, true_iff] at a1 a2
          simp [hl, a1, a2]
        · simp only [if_neg ht, if_neg (Ne.symm ht), a1, a2, and_self]

theorem run_agrees (null : Nat) : ∀ (cs : List Call) (r : Registry) (es : List (Call × Ret)), Agrees r es →
    Agrees (run null r es cs).1 (run null r es cs).2 := by
  intro cs
  induction cs with
  | nil => intro r es h; exact h
  | cons c cs ih => intro r es h; exact ih _ _ (step_agrees null c h)

theorem agrees_nil : Agrees [] [] := by
  intro type
  simp [lookup, registered, Known]

/-- C51: the search visits exactly the registered instances of the type, the last one first, up to the
first one for which the handler reports a match or an error, and returns accordingly. -/
theorem find_visits (null : Nat) (found : Int) (cs : List Call) (type : Nat) (handler : Nat → Int) :
    let regs := registered type (run null [] [] cs).2
    let res := find found (run null [] [] cs).1 type handler
    ((∀ i ∈ regs, 0 ≤ handler i ∧ handler i ≠ found) → res = (regs, .notFound)) ∧
    (∀ a i b, regs = a ++ i :: b → (∀ j ∈ a, 0 ≤ handler j ∧ handler j ≠ found) → (handler i < 0 ∨ handler i = found) →
      res = (a ++ [i], if handler i < 0 then .handler (handler i) else .ok)) := by
  have hag := (run_agrees null cs [] [] agrees_nil type).1
  have hfind : find found (run null [] [] cs).1 type handler = visit found handler (registered type (run null [] [] cs).2) := by
    rw [← hag, find]
    cases lookup (run null [] [] cs).1 type <;> rfl
  simp only
  rw [hfind]
  generalize registered type (run null [] [] cs).2 = regs
  clear hfind hag
  constructor
  · intro h
    induction regs with
    | nil => rfl
    | cons i is ih =>
      obtain ⟨h1, h2⟩ := h i (by simp)
      rw [visit, if_neg (by omega), if_neg h2, ih (fun j hj => h j (by simp [hj]))]
  · intro a
    induction a generalizing regs with
    | nil =>
      intro i b hr _ hi
      subst hr
      rw [List.nil_append, visit]
      by_cases h : handler i < 0
      · simp [h]
      · rcases hi with hi | hi
        · exact absurd hi h
        · rw [if_neg h, if_pos hi, if_neg h]; rfl
    | cons j a ih =>
      intro i b hr ha hi
      subst hr
      obtain ⟨h1, h2⟩ := ha j (by simp)
      rw [List.cons_append, visit, if_neg (by omega), if_neg h2, ih _ i b rfl (fun k hk => ha k (by simp [hk])) hi]
      rfl

/-- What registering does with the code as it is: with memory, it succeeds exactly if the type has never
been registered, or the instance is registered already. -/
theorem register_exact (null : Nat) (cs : List Call) (type inst : Nat) (hi : inst ≠ 0) :
    (register null (run null [] [] cs).1 type inst true true).2 = .ok ↔
      ¬ Known type (run null [] [] cs).2 ∨ inst ∈ registered type (run null [] [] cs).2 := by
  obtain ⟨a1, a2⟩ := run_agrees null cs [] [] agrees_nil type
  rw [← a1, ← a2, register, if_neg (fun h => hi h.1)]
  cases lookup (run null [] [] cs).1 type with
  | none => simp
  | some l =>
    simp only [Option.getD_some, Option.isSome_some, not_true_eq_false, false_or, Bool.true_eq_false, if_false]
    by_cases h : inst ∈ l
    · have : l.find? (· == inst) ≠ none := by simp [h]
      simp [this, h]
    · have : l.find? (· == inst) = none := by
        rw [List.find?_eq_none]
        intro x hx e
        exact h (by rw [← eq_of_beq e]; exact hx)
      simp [this, h]

/-- C51 for the first instance of each type: it is registered, and the search finds it. -/
theorem first_instance_partial (null : Nat) (found : Int) (cs : List Call) (type inst : Nat) (hi : inst ≠ 0)
    (hk : ¬ Known type (run null [] [] cs).2) (handler : Nat → Int) (hh : handler inst = found) (hf : 0 ≤ found) :
    (register null (run null [] [] cs).1 type inst true true).2 = .ok ∧
    find found (register null (run null [] [] cs).1 type inst true true).1 type handler = ([inst], .ok) := by
  refine ⟨(register_exact null cs type inst hi).mpr (.inl hk), ?_⟩
  obtain ⟨a1, a2⟩ := run_agrees null cs [] [] agrees_nil type
  rw [← a2] at hk
  have hl : lookup (run null [] [] cs).1 type = none := by
    cases h : lookup (run null [] [] cs).1 type with
    | none => rfl
    | some l => rw [h] at hk; simp at hk
  rw [register, if_neg (fun h => hi h.1), hl]
  simp only [Bool.true_eq_false, if_false, find, lookup_cons, if_true, visit]
  rw [if_neg (by omega), if_pos hh]

/-- C51 fails: the second instance of a type is refused. -/
theorem second_instance_refused (null : Nat) :
    (register null (run null [] [] [.register 1 10 true true]).1 1 11 true true).2 = .invalid := by
  simp [run, step, register, lookup]

/-- C51 fails: the same instance is registered again, and then visited twice. -/
theorem duplicate_accepted (null : Nat) :
    (register null (run null [] [] [.register 1 10 true true]).1 1 10 true true).2 = .ok ∧
    (find 1 (register null (run null [] [] [.register 1 10 true true]).1 1 10 true true).1 1 (fun _ => 0)).1 = [10, 10] := by
  simp [run, step, register, lookup, find, visit, update]

/-- C51 fails: when all instances of a type have been unregistered, it can never be used again. -/
theorem unregistered_type_refused (null : Nat) (inst : Nat) (h : inst ≠ 0) :
    (register null (run null [] [] [.register 1 10 true true, .unregister 1 10]).1 1 inst true true).2 = .invalid := by
  simp [run, step, register, unregister, lookup, update, h]

theorem not_registersDistinct (null : Nat) : ¬ RegistersDistinct null := by
  intro h
  have := (h [.register 1 10 true true] 1 11 (by decide)).mpr (by simp [run, step, register, registered, lookup])
  rw [second_instance_refused] at this
  cases this

/-- Two types with an instance each. -/
example : find 1 (run 0 [] [] [.register 1 10 true true, .register 2 20 true true, .register 2 21 true true]).1 2
    (fun i => if i = 20 then 1 else 0) = ([20], .ok) ∧
    registered 2 (run 0 [] [] [.register 1 10 true true, .register 2 20 true true, .register 2 21 true true]).2 = [20] := by decide

end Verif.IfaceReg
