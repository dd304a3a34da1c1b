import Verif.CapAlloc.Spec
import Mathlib.Tactic.Tauto

namespace Verif.CapAlloc

/-- The list of resources is what the events say. -/
def Agrees (pool : List Node) (es : List Event) : Prop :=
  pool.map (·.ptr) = providedPtrs es ∧
  (∀ n ∈ pool, .provided n.type n.ptr n.size n.attributes ∈ es) ∧
  (∀ n ∈ pool, n.used = true ↔ HandedOut es n.ptr) ∧
  (∀ p, HandedOut es p → p ∈ providedPtrs es)

theorem mem_providedPtrs (es : List Event) (p : Nat) : p ∈ providedPtrs es ↔ ∃ t s a, Event.provided t p s a ∈ es := by
  induction es with
  | nil => simp [providedPtrs]
  | cons e es ih =>
    cases e with
    | provided t q s a =>
      simp only [providedPtrs, List.mem_cons, ih, Event.provided.injEq]
      constructor
      · rintro (rfl | ⟨t, s, a, h⟩)
        · exact ⟨t, s, a, .inl ⟨rfl, rfl, rfl, rfl⟩⟩
        · exact ⟨t, s, a, .inr h⟩
      · rintro ⟨t, s, a, h | h⟩
        · exact .inl h.2.1
        · exact .inr ⟨t, s, a, h⟩
    | _ => simp [providedPtrs, ih]

theorem alloc_spec (pool : List Node) (type size flags : Nat) :
    ((∀ n ∈ pool, ¬ suits n type size flags) ∧ alloc pool type size flags = (pool, 0)) ∨
    (∃ a n b, pool = a ++ n :: b ∧ suits n type size flags ∧ (∀ m ∈ a, ¬ suits m type size flags) ∧
      alloc pool type size flags = (a ++ { n with used := true } :: b, n.ptr)) := by
  induction pool with
  | nil => left; exact ⟨by simp, rfl⟩
  | cons n pool ih =>
    by_cases h : suits n type size flags
    · right
      exact ⟨[], n, pool, rfl, h, by simp, by simp [alloc, h]⟩
    · rcases ih with ⟨h1, h2⟩ | ⟨a, m, b, h1, h2, h3, h4⟩
      · left
        refine ⟨?_, by simp [alloc, h, h2]⟩
        intro m hm
        rcases List.mem_cons.mp hm with rfl | hm
        · exact h
        · exact h1 m hm
      · right
        refine ⟨n :: a, m, b, by simp [h1], h2, ?_, by simp [alloc, h, h4]⟩
        intro m hm
        rcases List.mem_cons.mp hm with rfl | hm
        · exact h
        · exact h3 m hm

theorem free_spec (pool : List Node) (ptr : Nat) :
    ((∀ n ∈ pool, n.ptr ≠ ptr) ∧ free pool ptr = none) ∨
    (∃ a n b, pool = a ++ n :: b ∧ n.ptr = ptr ∧ (∀ m ∈ a, m.ptr ≠ ptr) ∧
      free pool ptr = if n.used then some (a ++ { n with used := false } :: b) else none) := by
  induction pool with
  | nil => left; exact ⟨by simp, rfl⟩
  | cons n pool ih =>
    by_cases h : n.ptr = ptr
    · right
      exact ⟨[], n, pool, rfl, h, by simp, by simp [free, h]⟩
    · rcases ih with ⟨h1, h2⟩ | ⟨a, m, b, h1, h2, h3, h4⟩
      · left
        refine ⟨?_, by simp [free, h, h2]⟩
        intro m hm
        rcases List.mem_cons.mp hm with rfl | hm
        · exact h
        · exact h1 m hm
      · right
        refine ⟨n :: a, m, b, by simp [h1], h2, ?_, ?_⟩
        · intro m hm
          rcases List.mem_cons.mp hm with rfl | hm
          · exact h
          · exact h3 m hm
        · rw [free, if_neg h, h4]
          split <;> simp

theorem handedOut_zero (es : List Event) : ¬ HandedOut es 0 := by
  induction es with
  | nil => simp [HandedOut]
  | cons e es ih => cases e <;> simp [HandedOut, ih]

/-- Changing the mark of one node. -/
theorem agrees_set {a b : List Node} {n : Node} {es es' : List Event} (u : Bool) (hone : ProvidedOnce es)
    (h : Agrees (a ++ n :: b) es) (hptr : providedPtrs es' = providedPtrs es)
    (hin : ∀ t q s at', Event.provided t q s at' ∈ es → Event.provided t q s at' ∈ es')
    (hthis : (u = true ↔ HandedOut es' n.ptr))
    (hother : ∀ p, p ≠ n.ptr → (HandedOut es' p ↔ HandedOut es p)) :
    Agrees (a ++ { n with used := u } :: b) es' := by
  obtain ⟨h1, h2, h3, h4⟩ := h
  have hnd : ((a ++ n :: b).map (·.ptr)).Nodup := by rw [h1]; exact hone.1
  have hold : ∀ m ∈ a ++ b, m ∈ a ++ n :: b ∧ m.ptr ≠ n.ptr := by
    intro m hm
    refine ⟨by simp only [List.mem_append, List.mem_cons] at hm ⊢; tauto, ?_⟩
    intro he
    rw [List.map_append, List.map_cons, List.nodup_append] at hnd
    obtain ⟨_, n2, n3⟩ := hnd
    rcases List.mem_append.mp hm with hm | hm
    · exact n3 _ (List.mem_map_of_mem hm) n.ptr (by simp) he
    · exact (List.nodup_cons.mp n2).1 (List.mem_map.mpr ⟨m, hm, he⟩)
  have hmem : ∀ m, m ∈ a ++ { n with used := u } :: b → m = { n with used := u } ∨ m ∈ a ++ b := by
    intro m hm
    simp only [List.mem_append, List.mem_cons] at hm ⊢
    tauto
  refine ⟨?_, ?_, ?_, ?_⟩
  · rw [hptr, ← h1]; simp
  · intro m hm
    rcases hmem m hm with rfl | hm
    · exact hin _ _ _ _ (h2 n (by simp))
    · exact hin _ _ _ _ (h2 m (hold m hm).1)
  · intro m hm
    rcases hmem m hm with rfl | hm
    · exact hthis
    · rw [h3 m (hold m hm).1, hother _ (hold m hm).2]
  · intro p hp
    rw [hptr]
    by_cases he : p = n.ptr
    · rw [he, ← h1]; simp
    · exact h4 p ((hother p he).mp hp)

theorem step_agrees {pool pool' : List Node} {es : List Event} {c : Call} {e : Event} (h : Agrees pool es)
    (hs : step pool c = some (pool', e)) (hone : ProvidedOnce (e :: es)) : Agrees pool' (e :: es) := by
  obtain ⟨h1, h2, h3, h4⟩ := h
  cases c with
  | provide memory type ptr size attributes =>
    cases memory with
    | false =>
      simp only [step, provide, Bool.false_eq_true, if_false, Option.some.injEq, Prod.mk.injEq] at hs
      obtain ⟨rfl, rfl⟩ := hs
      exact ⟨h1, fun n hn => List.mem_cons_of_mem _ (h2 n hn), h3, h4⟩
    | true =>
      simp only [step, provide, if_true, Option.some.injEq, Prod.mk.injEq] at hs
      obtain ⟨rfl, rfl⟩ := hs
      refine ⟨?_, ?_, ?_, ?_⟩
      · simp [providedPtrs, h1]
      · intro n hn
        rcases List.mem_cons.mp hn with rfl | hn
        · simp
        · exact List.mem_cons_of_mem _ (h2 n hn)
      · intro n hn
        rcases List.mem_cons.mp hn with rfl | hn
        · simp only [HandedOut, Bool.false_eq_true, false_iff]
          intro hh
          have := h4 _ hh
          simp only [ProvidedOnce, providedPtrs, List.nodup_cons] at hone
          exact hone.1.1 this
        · exact h3 n hn
      · intro p hp
        exact List.mem_cons_of_mem _ (h4 p hp)
  | alloc type size flags =>
    simp only [step, Option.some.injEq, Prod.mk.injEq] at hs
    obtain ⟨hs1, rfl⟩ := hs
    have hone' : ProvidedOnce es := hone
    rcases alloc_spec pool type size flags with ⟨_, heq⟩ | ⟨a, n, b, rfl, hsuit, _, heq⟩
    · rw [heq] at hs1 ⊢
      simp only at hs1 ⊢
      subst hs1
      have hz : ∀ p, HandedOut (.allocated type size flags 0 :: es) p ↔ HandedOut es p := by
        intro p
        simp only [HandedOut]
        constructor
        · rintro (⟨h, h'⟩ | h)
          · exact absurd h.symm h'
          · exact h
        · exact .inr
      exact ⟨h1, fun n hn => List.mem_cons_of_mem _ (h2 n hn), fun n hn => by rw [hz]; exact h3 n hn,
        fun p hp => h4 p ((hz p).mp hp)⟩
    · rw [heq] at hs1 ⊢
      simp only at hs1 ⊢
      subst hs1
      have hn0 : n.ptr ≠ 0 := by
        intro h0
        apply hone'.2
        rw [← h1, ← h0]
        simp
      refine agrees_set true hone' ⟨h1, h2, h3, h4⟩ rfl (fun _ _ _ _ h => List.mem_cons_of_mem _ h) ?_ ?_
      · simp [HandedOut, hn0]
      · intro p hp
        simp only [HandedOut]
        constructor
        · rintro (⟨h, _⟩ | h)
          · exact absurd h.symm hp
          · exact h
        · exact .inr
  | free ptr =>
    have hone' : ProvidedOnce es := by
      simp only [step, Option.map_eq_some_iff] at hs
      obtain ⟨_, _, hs⟩ := hs
      simp only [Prod.mk.injEq] at hs
      obtain ⟨rfl, rfl⟩ := hs
      exact hone
    simp only [step, Option.map_eq_some_iff] at hs
    obtain ⟨p1, hf, hs⟩ := hs
    simp only [Prod.mk.injEq] at hs
    obtain ⟨rfl, rfl⟩ := hs
    rcases free_spec pool ptr with ⟨_, heq⟩ | ⟨a, n, b, rfl, rfl, _, heq⟩
    · rw [heq] at hf; cases hf
    · rw [heq] at hf
      split at hf
      · cases hf
        refine agrees_set false hone' ⟨h1, h2, h3, h4⟩ rfl (fun _ _ _ _ h => List.mem_cons_of_mem _ h) ?_ ?_
        · simp [HandedOut]
        · intro p hp
          simp [HandedOut, Ne.symm hp]
      · cases hf

theorem once_tail {e : Event} {es : List Event} (h : ProvidedOnce (e :: es)) : ProvidedOnce es := by
  cases e <;> simp_all [ProvidedOnce, providedPtrs]

theorem run_suffix : ∀ (cs : List Call) (pool pool' : List Node) (es es' : List Event), run pool es cs = some (pool', es') →
    ∃ new, es' = new ++ es := by
  intro cs
  induction cs with
  | nil => intro pool pool' es es' h; simp only [run, Option.some.injEq, Prod.mk.injEq] at h; exact ⟨[], by simp [h.2]⟩
  | cons c cs ih =>
    intro pool pool' es es' h
    cases hs : step pool c with
    | none => simp [run, hs] at h
    | some t =>
      obtain ⟨p1, e⟩ := t
      simp only [run, hs] at h
      obtain ⟨new, rfl⟩ := ih _ _ _ _ h
      exact ⟨new ++ [e], by simp⟩

theorem once_suffix (new : List Event) {es : List Event} (h : ProvidedOnce (new ++ es)) : ProvidedOnce es := by
  induction new with
  | nil => exact h
  | cons e new ih => exact ih (once_tail h)

theorem run_agrees : ∀ (cs : List Call) (pool pool' : List Node) (es es' : List Event), Agrees pool es →
    run pool es cs = some (pool', es') → ProvidedOnce es' → Agrees pool' es' := by
  intro cs
  induction cs with
  | nil =>
    intro pool pool' es es' h hr _
    simp only [run, Option.some.injEq, Prod.mk.injEq] at hr
    obtain ⟨rfl, rfl⟩ := hr
    exact h
  | cons c cs ih =>
    intro pool pool' es es' h hr hone
    cases hs : step pool c with
    | none => simp [run, hs] at hr
    | some t =>
      obtain ⟨p1, e⟩ := t
      simp only [run, hs] at hr
      obtain ⟨new, hnew⟩ := run_suffix _ _ _ _ _ hr
      exact ih _ _ _ _ (step_agrees h hs (once_suffix new (hnew ▸ hone))) hr hone

theorem agrees_nil : Agrees [] [] := by
  simp [Agrees, providedPtrs, HandedOut]

/-- C49: after every history in which no capability is provided twice, an allocation returns a capability
that was provided, fits and is not handed out; and it returns null only if there is no such
capability. -/
theorem alloc_correct (cs : List Call) (pool : List Node) (es : List Event) (hr : run [] [] cs = some (pool, es))
    (hone : ProvidedOnce es) (type size flags : Nat) :
    ((alloc pool type size flags).2 ≠ 0 →
      Fits es (alloc pool type size flags).2 type size flags ∧ ¬ HandedOut es (alloc pool type size flags).2) ∧
    ((alloc pool type size flags).2 = 0 → ∀ p, Fits es p type size flags → HandedOut es p) := by
  obtain ⟨h1, h2, h3, h4⟩ := run_agrees cs [] pool [] es agrees_nil hr hone
  have hnd : (pool.map (·.ptr)).Nodup := by rw [h1]; exact hone.1
  rcases alloc_spec pool type size flags with ⟨hno, heq⟩ | ⟨a, n, b, hpool, hsuit, _, heq⟩
  · rw [heq]
    refine ⟨fun h => absurd rfl h, fun _ p hp => ?_⟩
    obtain ⟨s, at', hin, hsz, hfl⟩ := hp
    have hp : p ∈ pool.map (·.ptr) := by
      rw [h1, mem_providedPtrs]
      exact ⟨_, _, _, hin⟩
    obtain ⟨n, hn, rfl⟩ := List.mem_map.mp hp
    have hsame : ∀ (es : List Event) (p t1 s1 a1 t2 s2 a2 : Nat), (providedPtrs es).Nodup → Event.provided t1 p s1 a1 ∈ es →
        Event.provided t2 p s2 a2 ∈ es → t1 = t2 ∧ s1 = s2 ∧ a1 = a2 := by
      intro es p t1 s1 a1 t2 s2 a2
      induction es with
      | nil => intro _ h; cases h
      | cons e es ih =>
        intro hnd i1 i2
        by_cases he : ∃ t q s a, e = .provided t q s a
        · obtain ⟨t, q, s, a, rfl⟩ := he
          rw [providedPtrs, List.nodup_cons] at hnd
          rcases List.mem_cons.mp i1 with j1 | j1
          · rcases List.mem_cons.mp i2 with j2 | j2
            · cases j1; cases j2; exact ⟨rfl, rfl, rfl⟩
            · cases j1
              exact absurd ((mem_providedPtrs es p).mpr ⟨_, _, _, j2⟩) hnd.1
          · rcases List.mem_cons.mp i2 with j2 | j2
            · cases j2
              exact absurd ((mem_providedPtrs es p).mpr ⟨_, _, _, j1⟩) hnd.1
            · exact ih hnd.2 j1 j2
        · have hp : providedPtrs (e :: es) = providedPtrs es := by
            cases e with
            | provided t q s a => exact absurd ⟨t, q, s, a, rfl⟩ he
            | _ => rfl
          rw [hp] at hnd
          rcases List.mem_cons.mp i1 with i1 | i1
          · exact absurd ⟨_, _, _, _, i1.symm⟩ he
          · rcases List.mem_cons.mp i2 with i2 | i2
            · exact absurd ⟨_, _, _, _, i2.symm⟩ he
            · exact ih hnd i1 i2
    obtain ⟨e1, e2, e3⟩ := hsame es n.ptr _ _ _ _ _ _ hone.1 hin (h2 n hn)
    rw [← h3 n hn]
    by_contra hu
    apply hno n hn
    refine ⟨e1.symm, by simpa using hu, ?_, ?_⟩
    · rw [← e3]; exact hfl
    · rw [← e2]; exact hsz
  · rw [heq]
    have hn : n ∈ pool := by rw [hpool]; simp
    obtain ⟨s1, s2, s3, s4⟩ := hsuit
    refine ⟨fun _ => ⟨⟨n.size, n.attributes, ?_, s4, s3⟩, ?_⟩, fun h0 => ?_⟩
    · rw [← s1]; exact h2 n hn
    · rw [← h3 n hn, s2]; simp
    · exfalso
      apply hone.2
      rw [← h1]
      exact List.mem_map.mpr ⟨n, hn, h0⟩

/-- C49: a capability can be freed exactly if it is handed out. (That it is then available again is
`alloc_correct` with the definition of `HandedOut`.) -/
theorem free_correct (cs : List Call) (pool : List Node) (es : List Event) (hr : run [] [] cs = some (pool, es))
    (hone : ProvidedOnce es) (ptr : Nat) : (free pool ptr).isSome ↔ HandedOut es ptr := by
  obtain ⟨h1, h2, h3, h4⟩ := run_agrees cs [] pool [] es agrees_nil hr hone
  rcases free_spec pool ptr with ⟨hno, heq⟩ | ⟨a, n, b, hpool, rfl, _, heq⟩
  · rw [heq]
    constructor
    · intro h; cases h
    · intro h
      have := h4 _ h
      rw [← h1] at this
      obtain ⟨n, hn, he⟩ := List.mem_map.mp this
      exact absurd he (hno n hn)
  · rw [heq, ← h3 n (by rw [hpool]; simp)]
    split <;> simp_all

/-- C49: freeing makes a capability available: directly after it, an allocation that it fits does not
fail. -/
theorem freed_available (cs : List Call) (pool : List Node) (es : List Event) (ptr : Nat)
    (hr : run [] [] (cs ++ [.free ptr]) = some (pool, es)) (hone : ProvidedOnce es) (type size flags : Nat)
    (hfit : Fits es ptr type size flags) : (alloc pool type size flags).2 ≠ 0 := by
  intro h0
  have := (alloc_correct _ pool es hr hone type size flags).2 h0 ptr hfit
  have hlast : ∀ (cs : List Call) (p0 : List Node) (e0 : List Event), run p0 e0 (cs ++ [.free ptr]) = some (pool, es) →
      ∃ es', es = .freed ptr :: es' := by
    intro cs
    induction cs with
    | nil =>
      intro p0 e0 h
      cases hf : free p0 ptr with
      | none => simp [run, step, hf] at h
      | some p1 =>
        simp only [List.nil_append, run, step, hf, Option.map_some, Option.some.injEq, Prod.mk.injEq] at h
        exact ⟨e0, h.2.symm⟩
    | cons c cs ih =>
      intro p0 e0 h
      cases hs : step p0 c with
      | none => simp [run, hs] at h
      | some t =>
        obtain ⟨p1, e⟩ := t
        simp only [List.cons_append, run, hs] at h
        exact ih _ _ h
  obtain ⟨es', rfl⟩ := hlast cs [] [] hr
  simp [HandedOut] at this

/-- The hypothesis that no capability is provided twice is needed: otherwise it can be handed out
twice. -/
theorem provided_twice : ∃ pool es, run [] [] [.provide true 1 5 12 0, .provide true 1 5 12 0, .alloc 1 0 0] = some (pool, es) ∧
    HandedOut es 5 ∧ (alloc pool 1 0 0).2 = 5 := by
  refine ⟨_, _, rfl, ?_, rfl⟩
  simp [HandedOut, alloc, suits, provide]

/-- Two notifications and a thread: the allocation by size and attributes, exhaustion, and freeing. -/
def demo : List Call :=
  [.provide true 1 5 12 1, .provide true 1 6 12 3, .provide true 2 7 10 0, .alloc 1 12 2, .alloc 1 0 0, .alloc 1 0 0, .free 6,
    .alloc 1 0 1, .alloc 2 11 0]

example : (run [] [] demo).map (·.2) = some [.allocated 2 11 0 0, .allocated 1 0 1 6, .freed 6, .allocated 1 0 0 0, .allocated 1 0 0 5,
    .allocated 1 12 2 6, .provided 2 7 10 0, .provided 1 6 12 3, .provided 1 5 12 1] := by decide

example : ∃ pool es, run [] [] demo = some (pool, es) ∧ ProvidedOnce es := ⟨_, _, rfl, by unfold ProvidedOnce; decide⟩

end Verif.CapAlloc
