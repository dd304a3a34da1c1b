import Verif.Irq.Spec
import Mathlib.Tactic.Tauto

namespace Verif.Irq

/-- Descriptions of the same interrupt always match. -/
theorem check_complete (a b : Irq) (h : Same a b) : check a b = true := by
  obtain ⟨h1, h2⟩ := h
  cases a <;> cases b <;> simp_all [norm, check, checkNormal] <;> omega

/-- If what is asked for is a complete description, only descriptions of the same interrupt match. -/
def Complete : Irq → Prop
  | .interrupt _ => False
  | .trigger _ _ => False
  | _ => True

theorem check_sound_partial (a b : Irq) (hb : Complete b) (h : check a b = true) : Same a b := by
  unfold Same
  cases a <;> cases b <;> simp_all [norm, check, checkNormal, Complete] <;> omega

/-- C52: an entry matches what is asked for exactly if it has everything that is said of it. -/
theorem check_iff (a b : Irq) : check a b = true ↔ Described a b := by
  constructor
  · intro h
    cases a <;> cases b <;> simp only [check, checkNormal, Bool.and_eq_true, beq_iff_eq, Bool.false_eq_true] at h
    case interrupt.interrupt => subst h; exact .interrupt _ _ 0 0 rfl
    case interrupt.trigger => obtain ⟨rfl, rfl⟩ := h; exact .trigger _ _ _ 0 rfl
    case interrupt.perCpu => obtain ⟨⟨rfl, rfl⟩, rfl⟩ := h; exact .perCpu _ _ _ _ rfl
    case trigger.interrupt => subst h; exact .interrupt _ _ _ 0 rfl
    case trigger.trigger => obtain ⟨rfl, rfl⟩ := h; exact .trigger _ _ _ 0 rfl
    case trigger.perCpu => obtain ⟨⟨rfl, rfl⟩, rfl⟩ := h; exact .perCpu _ _ _ _ rfl
    case perCpu.interrupt => subst h; exact .interrupt _ _ _ _ rfl
    case perCpu.trigger => obtain ⟨rfl, rfl⟩ := h; exact .trigger _ _ _ _ rfl
    case perCpu.perCpu => obtain ⟨⟨rfl, rfl⟩, rfl⟩ := h; exact .perCpu _ _ _ _ rfl
    case ioapic.ioapic => obtain ⟨⟨⟨⟨rfl, rfl⟩, rfl⟩, rfl⟩, rfl⟩ := h; exact .ioapic _ _ _ _ _
    case msi.msi => obtain ⟨⟨⟨⟨rfl, rfl⟩, rfl⟩, rfl⟩, rfl⟩ := h; exact .msi _ _ _ _ _
  · intro h
    cases h with
    | ioapic => simp [check]
    | msi => simp [check]
    | interrupt n t c h => cases a <;> simp_all [norm, check, checkNormal]
    | trigger n t c h => cases a <;> simp_all [norm, check, checkNormal]
    | perCpu n t c h => cases a <;> simp_all [norm, check, checkNormal] <;> omega

/-- Between complete descriptions, matching is symmetric. -/
theorem check_symm_partial (a b : Irq) (ha : Complete a) (hb : Complete b) : check a b = check b a := by
  have key : ∀ a b, Complete a → Complete b → check a b = true → check b a = true := by
    intro a b ha hb h
    have hs := check_sound_partial a b hb h
    refine check_complete b a ⟨hs.1.symm, ?_⟩
    intro hn
    subst hn
    cases a <;> simp_all [check, checkNormal]
  cases h1 : check a b with
  | true => rw [key a b ha hb h1]
  | false =>
    cases h2 : check b a with
    | false => rfl
    | true => rw [key b a hb ha h2] at h1; cases h1

/-- C52 fails: matching is not symmetric. -/
theorem check_not_symmetric : check (.perCpu 5 1 2) (.interrupt 5) = true ∧ check (.interrupt 5) (.perCpu 5 1 2) = false ∧
    ¬ Same (.perCpu 5 1 2) (.interrupt 5) := by
  refine ⟨by decide, by decide, ?_⟩
  intro h
  exact absurd h.1 (by decide)

/-! ### Registering -/

theorem register_spec (ack : Nat → Bool) (irq : Irq) (cb : Nat) (xs : List Entry) :
    ((∀ x ∈ xs, ¬ (x.allocated = false ∧ check x.irq irq = true)) ∧ register ack irq cb xs = (xs, .notFound)) ∨
    (∃ a x b, xs = a ++ x :: b ∧ x.allocated = false ∧ check x.irq irq = true ∧ ack x.handler = false ∧
      register ack irq cb xs = (xs, .fault)) ∨
    (∃ a x b, xs = a ++ x :: b ∧ x.allocated = false ∧ check x.irq irq = true ∧ ack x.handler = true ∧
      register ack irq cb xs = (a ++ { x with allocated := true, callback := some cb } :: b, .id x.handler)) := by
  induction xs with
  | nil => exact .inl ⟨by simp, rfl⟩
  | cons x xs ih =>
    by_cases h : x.allocated = false ∧ check x.irq irq = true
    · by_cases hk : ack x.handler = true
      · refine .inr (.inr ⟨[], x, xs, rfl, h.1, h.2, hk, ?_⟩)
        rw [register, if_pos h, if_pos hk]; rfl
      · refine .inr (.inl ⟨[], x, xs, rfl, h.1, h.2, by simpa using hk, ?_⟩)
        rw [register, if_pos h, if_neg hk]
    · rcases ih with ⟨h1, h2⟩ | ⟨a, y, b, h1, h2, h3, h4, h5⟩ | ⟨a, y, b, h1, h2, h3, h4, h5⟩
      · refine .inl ⟨?_, by rw [register, if_neg h, h2]⟩
        intro y hy
        rcases List.mem_cons.mp hy with rfl | hy
        · exact h
        · exact h1 y hy
      · exact .inr (.inl ⟨x :: a, y, b, by simp [h1], h2, h3, h4, by rw [register, if_neg h, h5]⟩)
      · exact .inr (.inr ⟨x :: a, y, b, by simp [h1], h2, h3, h4, by rw [register, if_neg h, h5]; rfl⟩)

theorem unregister_spec (ack : Nat → Bool) (id : Nat) (xs : List Entry) :
    ((∀ x ∈ xs, ¬ (x.allocated = true ∧ x.handler = id)) ∧ unregister ack id xs = (xs, .notFound)) ∨
    (∃ a x b, xs = a ++ x :: b ∧ x.allocated = true ∧ x.handler = id ∧ ack x.handler = false ∧
      unregister ack id xs = (xs, .fault)) ∨
    (∃ a x b, xs = a ++ x :: b ∧ x.allocated = true ∧ x.handler = id ∧ ack x.handler = true ∧
      unregister ack id xs = (a ++ { x with allocated := false, callback := none } :: b, .id 0)) := by
  induction xs with
  | nil => exact .inl ⟨by simp, rfl⟩
  | cons x xs ih =>
    by_cases h : x.allocated = true ∧ x.handler = id
    · by_cases hk : ack x.handler = true
      · refine .inr (.inr ⟨[], x, xs, rfl, h.1, h.2, hk, ?_⟩)
        rw [unregister, if_pos h, if_pos hk]; rfl
      · refine .inr (.inl ⟨[], x, xs, rfl, h.1, h.2, by simpa using hk, ?_⟩)
        rw [unregister, if_pos h, if_neg hk]
    · rcases ih with ⟨h1, h2⟩ | ⟨a, y, b, h1, h2, h3, h4, h5⟩ | ⟨a, y, b, h1, h2, h3, h4, h5⟩
      · refine .inl ⟨?_, by rw [unregister, if_neg h, h2]⟩
        intro y hy
        rcases List.mem_cons.mp hy with rfl | hy
        · exact h
        · exact h1 y hy
      · exact .inr (.inl ⟨x :: a, y, b, by simp [h1], h2, h3, h4, by rw [unregister, if_neg h, h5]⟩)
      · exact .inr (.inr ⟨x :: a, y, b, by simp [h1], h2, h3, h4, by rw [unregister, if_neg h, h5]; rfl⟩)

/-- The table agrees with what the caller knows, and its fixed parts have not changed. -/
def Agrees (xs0 xs : List Entry) (es : List (Call × Ret)) : Prop :=
  xs.map (fun x => (x.irq, x.handler)) = xs0.map (fun x => (x.irq, x.handler)) ∧
  ∀ x ∈ xs, x.callback = active x.handler es ∧ (x.allocated = true ↔ (active x.handler es).isSome)

theorem handlers_nodup {xs0 xs : List Entry} {es : List (Call × Ret)} (hf : Fresh xs0) (h : Agrees xs0 xs es) : (xs.map (·.handler)).Nodup := by
  have : xs.map (·.handler) = xs0.map (·.handler) := by
    have := congrArg (List.map Prod.snd) h.1
    simpa [List.map_map, Function.comp_def] using this
  rw [this]; exact hf.2

theorem agrees_set {xs0 a b : List Entry} {x x' : Entry} {es es' : List (Call × Ret)} (hf : Fresh xs0)
    (h : Agrees xs0 (a ++ x :: b) es) (hsame : x'.irq = x.irq ∧ x'.handler = x.handler)
    (hthis : x'.callback = active x.handler es' ∧ (x'.allocated = true ↔ (active x.handler es').isSome))
    (hother : ∀ n, n ≠ x.handler → active n es' = active n es) : Agrees xs0 (a ++ x' :: b) es' := by
  have hnd := handlers_nodup hf h
  refine ⟨?_, ?_⟩
  · rw [← h.1]; simp [hsame.1, hsame.2]
  · intro y hy
    have hne : y ∈ a ++ b → y.handler ≠ x.handler ∧ y ∈ a ++ x :: b := by
      intro hm
      refine ⟨?_, by simp only [List.mem_append, List.mem_cons] at hm ⊢; tauto⟩
      intro he
      rw [List.map_append, List.map_cons, List.nodup_append] at hnd
      obtain ⟨_, n2, n3⟩ := hnd
      rcases List.mem_append.mp hm with hm | hm
      · exact n3 _ (List.mem_map_of_mem hm) x.handler (by simp) he
      · exact (List.nodup_cons.mp n2).1 (List.mem_map.mpr ⟨y, hm, he⟩)
    have hcase : y = x' ∨ y ∈ a ++ b := by
      simp only [List.mem_append, List.mem_cons] at hy ⊢; tauto
    rcases hcase with rfl | hm
    · rw [hsame.2]; exact hthis
    · obtain ⟨h1, h2⟩ := hne hm
      rw [hother _ h1]
      exact h.2 y h2

theorem agrees_same {xs0 xs : List Entry} {es : List (Call × Ret)} {c : Call} {ret : Ret} (h : Agrees xs0 xs es)
    (hr : ∀ n, ret ≠ .id n) : Agrees xs0 xs ((c, ret) :: es) := by
  have : ∀ n, active n ((c, ret) :: es) = active n es := by
    intro n
    cases ret with
    | id k => exact absurd rfl (hr k)
    | _ => cases c <;> rfl
  refine ⟨h.1, fun x hx => ?_⟩
  rw [this]
  exact h.2 x hx

theorem step_agrees {xs0 xs : List Entry} {es : List (Call × Ret)} (hf : Fresh xs0) (h : Agrees xs0 xs es) (ack : Nat → Bool) (c : Call) :
    Agrees xs0 (step ack xs c).1 ((c, (step ack xs c).2) :: es) := by
  cases c with
  | register irq cb =>
    simp only [step]
    rcases register_spec ack irq cb xs with ⟨_, he⟩ | ⟨a, x, b, _, _, _, _, he⟩ | ⟨a, x, b, rfl, _, _, _, he⟩
    · rw [he]; exact agrees_same h (by simp)
    · rw [he]; exact agrees_same h (by simp)
    · rw [he]
      refine agrees_set hf h ⟨rfl, rfl⟩ ?_ ?_
      · simp [active]
      · intro n hn
        simp [active, Ne.symm hn]
  | unregister id =>
    simp only [step]
    rcases unregister_spec ack id xs with ⟨_, he⟩ | ⟨a, x, b, _, _, _, _, he⟩ | ⟨a, x, b, rfl, _, rfl, _, he⟩
    · rw [he]; exact agrees_same h (by simp)
    · rw [he]; exact agrees_same h (by simp)
    · rw [he]
      refine agrees_set hf h ⟨rfl, rfl⟩ ?_ ?_
      · simp [active]
      · intro n hn
        simp [active, Ne.symm hn]

theorem run_agrees {xs0 : List Entry} (hf : Fresh xs0) : ∀ (cs : List (Call × (Nat → Bool))) (xs : List Entry) (es : List (Call × Ret)),
    Agrees xs0 xs es → Agrees xs0 (run xs es cs).1 (run xs es cs).2 := by
  intro cs
  induction cs with
  | nil => intro xs es h; exact h
  | cons c cs ih =>
    obtain ⟨c, ack⟩ := c
    intro xs es h
    exact ih _ _ (step_agrees hf h ack c)

theorem fresh_agrees {xs0 : List Entry} (hf : Fresh xs0) : Agrees xs0 xs0 [] := by
  refine ⟨rfl, fun x hx => ?_⟩
  obtain ⟨h1, h2⟩ := hf.1 x hx
  simp [active, h1, h2]

/-- C52: after every history, registering an interrupt returns the id of an entry of the table that is not
in use and that matches; if it does not find one, all entries that match are in use. -/
theorem register_correct (xs0 : List Entry) (hf : Fresh xs0) (cs : List (Call × (Nat → Bool))) (ack : Nat → Bool) (irq : Irq) (cb : Nat) :
    let es := (run xs0 [] cs).2
    (∀ n, (register ack irq cb (run xs0 [] cs).1).2 = .id n →
      active n es = none ∧ ∃ x ∈ xs0, x.handler = n ∧ Described x.irq irq ∧ (Complete irq → Same x.irq irq)) ∧
    ((register ack irq cb (run xs0 [] cs).1).2 = .notFound → ∀ x ∈ xs0, Described x.irq irq → (active x.handler es).isSome) := by
  intro es
  obtain ⟨h1, h2⟩ := run_agrees hf cs xs0 [] (fresh_agrees hf)
  have hin : ∀ x ∈ (run xs0 [] cs).1, ∃ y ∈ xs0, y.irq = x.irq ∧ y.handler = x.handler := by
    intro x hx
    have : (x.irq, x.handler) ∈ xs0.map (fun x => (x.irq, x.handler)) := by
      rw [← h1]; exact List.mem_map.mpr ⟨x, hx, rfl⟩
    obtain ⟨y, hy, he⟩ := List.mem_map.mp this
    simp only [Prod.mk.injEq] at he
    exact ⟨y, hy, he⟩
  rcases register_spec ack irq cb (run xs0 [] cs).1 with ⟨hno, he⟩ | ⟨a, x, b, _, _, _, _, he⟩ | ⟨a, x, b, hx, ha, hc, _, he⟩
  · rw [he]
    refine ⟨fun n h => (by cases h), fun _ x hx hs => ?_⟩
    have : (x.irq, x.handler) ∈ (run xs0 [] cs).1.map (fun x => (x.irq, x.handler)) := by
      rw [h1]; exact List.mem_map.mpr ⟨x, hx, rfl⟩
    obtain ⟨y, hy, he⟩ := List.mem_map.mp this
    simp only [Prod.mk.injEq] at he
    have hn := hno y hy
    rw [he.1] at hn
    have hal : y.allocated = true := by
      by_contra hne
      exact hn ⟨by simpa using hne, (check_iff _ _).mpr hs⟩
    have := ((h2 y hy).2).mp hal
    rwa [he.2] at this
  · rw [he]
    exact ⟨fun n h => (by cases h), fun h => (by cases h)⟩
  · rw [he]
    refine ⟨?_, fun h => (by cases h)⟩
    intro n hn
    simp only [Ret.id.injEq] at hn
    subst hn
    have hm : x ∈ (run xs0 [] cs).1 := by rw [hx]; simp
    refine ⟨?_, ?_⟩
    · have := (h2 x hm).2
      rw [ha] at this
      simp only [Bool.false_eq_true, false_iff] at this
      simpa using this
    · obtain ⟨y, hy, e1, e2⟩ := hin x hm
      refine ⟨y, hy, e2, by rw [e1]; exact (check_iff _ _).mp hc, ?_⟩
      intro hcomp
      rw [e1]
      exact check_sound_partial _ _ hcomp hc

/-- C52: unregistering succeeds only for ids in use, and when an id in use is unregistered, the only
failure is that it cannot be acknowledged. -/
theorem unregister_correct (xs0 : List Entry) (hf : Fresh xs0) (cs : List (Call × (Nat → Bool))) (ack : Nat → Bool) (id : Nat) :
    let es := (run xs0 [] cs).2
    ((unregister ack id (run xs0 [] cs).1).2 = .notFound ↔ id ∉ (xs0.map (·.handler)) ∨ active id es = none) ∧
    ((unregister ack id (run xs0 [] cs).1).2 = .id 0 ∨ (unregister ack id (run xs0 [] cs).1).2 = .notFound ∨
      ((unregister ack id (run xs0 [] cs).1).2 = .fault ∧ ack id = false)) := by
  intro es
  obtain ⟨h1, h2⟩ := run_agrees hf cs xs0 [] (fresh_agrees hf)
  have hh : (run xs0 [] cs).1.map (·.handler) = xs0.map (·.handler) := by
    have := congrArg (List.map Prod.snd) h1
    simpa [List.map_map, Function.comp_def] using this
  have hused : ∀ x ∈ (run xs0 [] cs).1, x.allocated = true → x.handler = id → ¬ (id ∉ xs0.map (·.handler) ∨ active id es = none) := by
    rintro x hx ha rfl (hn | hn)
    · exact hn (hh ▸ List.mem_map_of_mem hx)
    · have := ((h2 x hx).2).mp ha
      rw [show active x.handler (run xs0 [] cs).2 = none from hn] at this
      cases this
  rcases unregister_spec ack id (run xs0 [] cs).1 with ⟨hno, he⟩ | ⟨a, x, b, hx, ha, hid, hk, he⟩ | ⟨a, x, b, hx, ha, hid, hk, he⟩
  · rw [he]
    refine ⟨⟨fun _ => ?_, fun _ => rfl⟩, .inr (.inl rfl)⟩
    by_contra hcon
    have hc1 : id ∈ xs0.map (·.handler) := by_contra fun h => hcon (.inl h)
    have hc2 : active id es ≠ none := fun h => hcon (.inr h)
    rw [← hh] at hc1
    obtain ⟨x, hx, rfl⟩ := List.mem_map.mp hc1
    apply hno x hx
    refine ⟨((h2 x hx).2).mpr ?_, rfl⟩
    exact Option.isSome_iff_ne_none.mpr hc2
  · rw [he]
    have := hused x (by rw [hx]; simp) ha hid
    exact ⟨⟨fun h => (by cases h), fun h => absurd h this⟩, .inr (.inr ⟨rfl, by rw [← hid]; exact hk⟩)⟩
  · rw [he]
    have := hused x (by rw [hx]; simp) ha hid
    exact ⟨⟨fun h => (by cases h), fun h => absurd h this⟩, .inl rfl⟩

theorem and_eq_iff_bits (b r : Nat) : b &&& r = r ↔ BitsSet b r := by
  unfold BitsSet
  constructor
  · intro h k hk
    rw [← h, Nat.testBit_and, Bool.and_eq_true] at hk
    exact hk.1
  · intro h
    apply Nat.eq_of_testBit_eq
    intro k
    rw [Nat.testBit_and]
    cases hr : r.testBit k with
    | false => simp
    | true => rw [h k hr]; rfl

open Classical in
/-- C52: after every history, a wake-up of the global endpoint calls exactly the callbacks registered for
entries whose badge bits are all set, each once and in the order of the table. -/
theorem global_correct (xs0 : List Entry) (hf : Fresh xs0) (cs : List (Call × (Nat → Bool))) (badge : Nat) (gs : List Global) :
    handleGlobal (run xs0 [] cs).1 badge gs =
      (gs.filter (fun g => BitsSet badge g.badge)).filterMap
        (fun g => xs0[g.ref]?.bind (fun x : Entry => active x.handler (run xs0 [] cs).2)) := by
  obtain ⟨h1, h2⟩ := run_agrees hf cs xs0 [] (fresh_agrees hf)
  have key : ∀ i : Nat, ((run xs0 [] cs).1[i]?.bind Entry.callback) = xs0[i]?.bind (fun x : Entry => active x.handler (run xs0 [] cs).2) := by
    intro i
    have hi := congrArg (fun l => l[i]?) h1
    simp only [List.getElem?_map] at hi
    cases hx : (run xs0 [] cs).1[i]? with
    | none =>
      rw [hx] at hi
      cases hy : xs0[i]? with
      | none => rfl
      | some y => rw [hy] at hi; cases hi
    | some x =>
      rw [hx] at hi
      cases hy : xs0[i]? with
      | none => rw [hy] at hi; cases hi
      | some y =>
        rw [hy] at hi
        simp only [Option.map_some, Option.some.injEq, Prod.mk.injEq] at hi
        simp only [Option.bind_some]
        rw [(h2 x (List.mem_of_getElem? hx)).1, hi.2]
  induction gs with
  | nil => rfl
  | cons g gs ih =>
    rw [handleGlobal, ih]
    by_cases hb : BitsSet badge g.badge
    · rw [if_pos ((and_eq_iff_bits _ _).mpr hb), List.filter_cons_of_pos (by simpa using hb), List.filterMap_cons, ← key]
      cases (run xs0 [] cs).1[g.ref]?.bind Entry.callback <;> rfl
    · rw [if_neg (fun h => hb ((and_eq_iff_bits _ _).mp h)), List.filter_cons_of_neg (by simpa using hb)]

/-- Two timers and a network device: registered, unregistered, and a wake-up with two bits set. -/
def demoTable : List Entry := [⟨.interrupt 5, 10, false, none⟩, ⟨.perCpu 5 1 0, 11, false, none⟩, ⟨.ioapic 0 4 1 1 9, 12, false, none⟩]

theorem demo_fresh : Fresh demoTable := ⟨by decide, by decide⟩

example : (run demoTable [] [(.register (.interrupt 5) 100, fun _ => true), (.register (.ioapic 0 4 1 1 9) 101, fun _ => true),
      (.register (.interrupt 5) 102, fun _ => true), (.unregister 10, fun _ => true)]).2.map (·.2) = [.id 0, .id 11, .id 12, .id 10] ∧
    handleGlobal (run demoTable [] [(.register (.interrupt 5) 100, fun _ => true), (.register (.ioapic 0 4 1 1 9) 101, fun _ => true),
      (.register (.interrupt 5) 102, fun _ => true), (.unregister 10, fun _ => true)]).1 6 [⟨1, 0⟩, ⟨2, 1⟩, ⟨4, 2⟩, ⟨8, 1⟩] = [102, 101] := by
  decide

end Verif.Irq
