import Verif.Errors.Spec

/-!
# C71: an error is handled by the handler that is registered for it

`handled_right_partial` for every history. `null_common_faults`: unlike a handler of an interface, the handler of the component cannot be
taken back by registering `NULL`.
-/

namespace Verif.Errors

theorem own_last (handler : Nat → Nat → Action) (mode : Mode) (debug : Bool) (cs : List Call) (i : Nat) :
    (run handler mode debug cs).1.own i = (lastFor i cs).getD 0 := by
  induction cs with
  | nil => rfl
  | cons c cs ih =>
    cases c with
    | register h => exact ih
    | registerFor j h =>
      simp only [run, step, lastFor]
      by_cases hj : j = i
      · simp [hj]
      · rw [if_neg (fun h => hj h.symm), if_neg hj]; exact ih
    | raised j err => exact ih

theorem common_last (handler : Nat → Nat → Action) (mode : Mode) (debug : Bool) (cs : List Call) :
    (run handler mode debug cs).1.common = (lastCommon cs).getD 1 := by
  induction cs with
  | nil => rfl
  | cons c cs ih => cases c <;> first | rfl | exact ih

theorem responsible_iff (handler : Nat → Nat → Action) (mode : Mode) (debug : Bool) (cs : List Call) (i h : Nat) :
    Responsible cs i h ↔ chosen (run handler mode debug cs).1 i = h := by
  unfold Responsible chosen
  rw [own_last, common_last]
  cases h1 : lastFor i cs with
  | none =>
    cases h2 : lastCommon cs <;> simp [eq_comm]
  | some a =>
    by_cases ha : a = 0
    · subst ha
      cases h2 : lastCommon cs <;> simp [eq_comm] <;> tauto
    · simp only [Option.getD_some, ha, if_false, Option.some.injEq, reduceCtorEq, false_or, false_and, or_false]
      constructor
      · exact fun h => h.1
      · rintro rfl
        exact ⟨rfl, ha⟩

/-- There is always exactly one responsible handler. -/
theorem responsible_unique (cs : List Call) (i : Nat) : ∃ h, Responsible cs i h ∧ ∀ h', Responsible cs i h' → h' = h := by
  refine ⟨chosen (run (fun _ _ => .halt) .configurable false cs).1 i, (responsible_iff _ _ _ _ _ _).mpr rfl, fun h' hh => ?_⟩
  exact ((responsible_iff (fun _ _ => .halt) .configurable false cs i h').mp hh).symm

/-- **C71.** After every history, an error in an interface is given, once, to the handler that is responsible for it, and what it
returns is done: leave the function, go on, or stop the thread. With the other two configurations no handler is told. -/
theorem handled_right_partial (handler : Nat → Nat → Action) (mode : Mode) (debug : Bool) (cs : List Call) (i err h : Nat) (hr : Responsible cs i h) (h0 : h ≠ 0) :
    let a := if h = 1 then .halt else handler h err
    (mode = .configurable → ∃ o, (run handler mode debug (.raised i err :: cs)).2 = .handled i err h o :: (run handler mode debug cs).2 ∧
      (o = .left ↔ a = .discard) ∧ (o = .goesOn ↔ a = .ignore) ∧ ((∃ b, o = .stopped b) ↔ a = .abort ∨ a = .halt) ∧ (o = .stopped true ↔ a = .halt ∧ debug = true)) ∧
    (mode = .abort → (run handler mode debug (.raised i err :: cs)).2 = .silent i err (.stopped false) :: (run handler mode debug cs).2) ∧
    (mode = .discard → (run handler mode debug (.raised i err :: cs)).2 = .silent i err .left :: (run handler mode debug cs).2) := by
  intro a
  have hch := (responsible_iff handler mode debug cs i h).mp hr
  refine ⟨?_, ?_, ?_⟩
  · rintro rfl
    refine ⟨act debug a, ?_, ?_, ?_, ?_, ?_⟩
    · simp only [run, step, hch, h0, if_false, returns]
      rfl
    all_goals (clear_value a; cases a <;> cases debug <;> simp [act])
  · rintro rfl; rfl
  · rintro rfl; rfl

/-- **C71, registration.** A registration returns the handler that it replaces (`NULL` and the default one at the beginning), and
an error does not change the handlers. -/
theorem old_returned (handler : Nat → Nat → Action) (mode : Mode) (debug : Bool) (cs : List Call) (i h : Nat) :
    (run handler mode debug (.registerFor i h :: cs)).2 = .registeredFor i h ((lastFor i cs).getD 0) :: (run handler mode debug cs).2 ∧
    (run handler mode debug (.register h :: cs)).2 = .registered h ((lastCommon cs).getD 1) :: (run handler mode debug cs).2 := by
  rw [← own_last handler mode debug, ← common_last handler mode debug]
  exact ⟨rfl, rfl⟩

/-! ## What is missing -/

/-- **Disagreement with C71.** After `NULL` was registered for the component, an error in an interface without its own handler
calls a null pointer. -/
theorem null_common_faults (handler : Nat → Nat → Action) (debug : Bool) (cs : List Call) (i err : Nat) (hc : lastCommon cs = some 0) (hi : lastFor i cs = none ∨ lastFor i cs = some 0) :
    (run handler .configurable debug (.raised i err :: cs)).2.head? = some (.handled i err 0 .fault) := by
  have := (responsible_iff handler .configurable debug cs i 0).mp (.inr ⟨hi, .inl hc⟩)
  simp [run, step, this]

/-! ## The hypotheses can be met -/

/-- The component registers 5, interface 3 registers 6 and takes it back, interface 4 registers 7. -/
def history : List Call := [.registerFor 4 7, .registerFor 3 0, .registerFor 3 6, .register 5]

example : Responsible history 3 5 ∧ Responsible history 4 7 ∧ Responsible [] 4 1 := by simp [Responsible, history, lastFor, lastCommon]
example : (run (fun h _ => if h = 5 then .ignore else .discard) .configurable true (.raised 4 9 :: .raised 3 8 :: history)).2.take 2 =
    [.handled 4 9 7 .left, .handled 3 8 5 .goesOn] := by decide

end Verif.Errors
