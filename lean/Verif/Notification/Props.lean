import Verif.Notification.Spec
import Mathlib.Tactic.ByContra

namespace Verif.Notification

variable {minv maxv : Int}

/-! ### The lock -/

/-- As many threads are inside as the lock says. -/
def Excl (s : State) : Prop := s.inside = if s.shared.lock then 1 else 0

theorem excl_step {s s' : State} {e : Event} (h : Step minv maxv s e s') (hx : Excl s) : Excl s' := by
  cases h with
  | run s s' r r' e apps h =>
    obtain ⟨lk, sl, ar, va⟩ := s
    cases lk <;> cases h <;> simp_all [Excl, State.inside, RunPc.inside, -List.countP_eq_zero]
  | app s s' r a a' e l1 l2 h =>
    obtain ⟨lk, sl, ar, va⟩ := s
    cases hr : r.inside <;> cases lk <;> cases h <;>
      simp_all [Excl, State.inside, AppPc.inside, List.countP_cons, -List.countP_eq_zero] <;> omega
  | handOver s l1 l2 => simp_all [Excl, State.inside, RunPc.inside, AppPc.inside]

theorem excl_start (n : Nat) : Excl (start n) := by
  simp [Excl, start, State.inside, RunPc.inside, AppPc.inside, List.countP_replicate]

theorem exec_excl {n : Nat} {tr : List Event} {s : State} (h : Exec minv maxv n tr s) : Excl s := by
  induction h with
  | start => exact excl_start n
  | step tr s e s' _ hs ih => exact excl_step hs ih

/-- If the event thread is inside, no application thread is. -/
theorem excl_run {s : Shared} {r : RunPc} {apps : List AppPc} (hx : Excl ⟨s, r, apps⟩) (h : r.inside = true) :
    ∀ a ∈ apps, a.inside = false := by
  have h0 : apps.countP AppPc.inside = 0 := by
    simp only [Excl, State.inside, h, if_true] at hx
    split at hx <;> omega
  intro a ha
  have := List.countP_eq_zero.mp h0 a ha
  simpa using this

/-- If an application thread is inside, no other thread is. -/
theorem excl_app {s : Shared} {r : RunPc} {a : AppPc} {l1 l2 : List AppPc} (hx : Excl ⟨s, r, l1 ++ a :: l2⟩)
    (h : a.inside = true) : r.inside = false ∧ ∀ b ∈ l1 ++ l2, b.inside = false := by
  have hle : (if s.lock = true then 1 else 0) ≤ 1 := by split <;> omega
  simp only [Excl, State.inside, List.countP_append, List.countP_cons, h, if_true] at hx
  have h1 : r.inside = false := by
    cases hr : r.inside with
    | false => rfl
    | true => rw [hr] at hx; simp only [if_true] at hx; omega
  refine ⟨h1, ?_⟩
  intro b hb
  have h0 : (l1 ++ l2).countP AppPc.inside = 0 := by
    rw [List.countP_append]
    omega
  have := List.countP_eq_zero.mp h0 b hb
  simpa using this

/-! ### The slot and the counter -/

/-- A thread that relies on the absence of pending events: it has just looked, inside the lock. -/
def AppPc.checked : AppPc → Bool
  | .regCheck _ _ | .regStore _ _ => true
  | _ => false

def AppPc.isStore : AppPc → Bool
  | .regStore _ _ => true
  | _ => false

/-- What is known about slot and counter. -/
structure SlotInv (s : State) : Prop where
  pending : s.shared.slot ≠ none → s.shared.value ≤ 0
  checked : ∀ a ∈ s.apps, a.checked = true → s.shared.value ≤ 0
  vacant : ∀ a ∈ s.apps, a.isStore = true → s.shared.slot = none
  run : (∀ cb, s.run = .clearing cb → s.shared.slot = cb) ∧
    ((match s.run with
      | .readingArg _ | .deciding _ _ | .posting | .sending | .unlocking _ _ => true
      | _ => false) = true → s.shared.slot = none)

theorem checked_inside {a : AppPc} (h : a.checked = true) : a.inside = true := by
  cases a <;> first | rfl | cases h

theorem store_inside {a : AppPc} (h : a.isStore = true) : a.inside = true := by
  cases a <;> first | rfl | cases h

theorem slot_step {s s' : State} {e : Event} (h : Step minv maxv s e s') (hx : Excl s) (hi : SlotInv s) : SlotInv s' := by
  cases h with
  | handOver s l1 l2 =>
    obtain ⟨h1, h2, h3, h4, h5⟩ := hi
    refine ⟨h1, ?_, ?_, by simp, fun _ => h5 rfl⟩
    · intro a ha hc
      simp only [List.mem_append, List.mem_cons] at ha
      rcases ha with ha | rfl | ha
      · exact h2 a (by simp [ha]) hc
      · cases hc
      · exact h2 a (by simp [ha]) hc
    · intro a ha hc
      simp only [List.mem_append, List.mem_cons] at ha
      rcases ha with ha | rfl | ha
      · exact h3 a (by simp [ha]) hc
      · cases hc
      · exact h3 a (by simp [ha]) hc
  | run s s' r r' e apps h =>
    obtain ⟨h1, h2, h3, h4, h5⟩ := hi
    by_cases hr : r.inside = true
    · have hout := excl_run hx hr
      have n1 : ∀ a ∈ apps, a.checked = true → False := by
        intro a ha hc; exact absurd (hout a ha) (by rw [checked_inside hc]; simp)
      have n2 : ∀ a ∈ apps, a.isStore = true → False := by
        intro a ha hc; exact absurd (hout a ha) (by rw [store_inside hc]; simp)
      refine ⟨?_, fun a ha hc => (n1 a ha hc).elim, fun a ha hc => (n2 a ha hc).elim, ?_⟩
      · cases h <;> simp_all
      · cases h <;> simp_all
    · refine ⟨?_, ?_, ?_, ?_⟩
      · cases h <;> simp_all [RunPc.inside]
      · intro a ha hc
        have := h2 a ha hc
        cases h <;> simp_all [RunPc.inside]
      · intro a ha hc
        have := h3 a ha hc
        cases h <;> simp_all [RunPc.inside]
      · cases h <;> simp_all [RunPc.inside]
  | app s s' r a a' e l1 l2 h =>
    obtain ⟨h1, h2, h3, h4, h5⟩ := hi
    have others : ∀ b, b ∈ l1 ++ l2 → b ∈ l1 ++ a :: l2 := by
      intro b hb
      rcases List.mem_append.mp hb with hb | hb
      · exact List.mem_append_left _ hb
      · exact List.mem_append_right _ (List.mem_cons_of_mem _ hb)
    have hmem : ∀ b, b ∈ l1 ++ a' :: l2 → b = a' ∨ b ∈ l1 ++ l2 := by
      intro b hb
      rcases List.mem_append.mp hb with hb | hb
      · exact .inr (List.mem_append_left _ hb)
      · rcases List.mem_cons.mp hb with hb | hb
        · exact .inl hb
        · exact .inr (List.mem_append_right _ hb)
    have hself : a.checked = true → s.value ≤ 0 := h2 a (by simp)
    have hself2 : a.isStore = true → s.slot = none := h3 a (by simp)
    have hdec : s'.value ≤ s.value := by cases h <;> simp <;> omega
    refine ⟨?_, ?_, ?_, ?_⟩
    · intro hs
      cases h <;> simp_all [AppPc.checked] <;> omega
    · intro b hb hc
      rcases hmem b hb with rfl | hb
      · cases h <;> simp_all [AppPc.checked]
      · have := h2 b (others b hb) hc; simp only at this ⊢; omega
    · intro b hb hc
      rcases hmem b hb with rfl | hb
      · cases h <;> simp_all [AppPc.isStore]
      · have hb' := h3 b (others b hb) hc
        by_cases hin : a.inside = true
        · have := (excl_app hx hin).2 b hb
          rw [store_inside hc] at this; cases this
        · cases h <;> simp_all [AppPc.inside]
    · by_cases hin : a.inside = true
      · have hr := (excl_app hx hin).1
        cases r <;> simp_all [RunPc.inside]
      · cases h <;> simp_all [AppPc.inside]

theorem slot_start (n : Nat) : SlotInv (start n) := by
  refine ⟨by simp [start], ?_, ?_, by simp [start]⟩
  · intro a ha hc
    simp only [start, List.mem_replicate] at ha
    rw [ha.2] at hc; cases hc
  · intro a ha hc
    simp only [start, List.mem_replicate] at ha
    rw [ha.2] at hc; cases hc

theorem exec_slot {n : Nat} {tr : List Event} {s : State} (h : Exec minv maxv n tr s) : SlotInv s := by
  induction h with
  | start => exact slot_start n
  | step tr s e s' hx hs ih => exact slot_step hs (exec_excl hx) ih

/-- C46: at most one thread is between `lock` and `unlock` at any time, and the callback slot and its
argument are changed only by the thread that is. -/
theorem lock_protects {n : Nat} {tr : List Event} {s : State} (h : Exec minv maxv n tr s) :
    s.inside ≤ 1 ∧ ∀ e s', Step minv maxv s e s' →
      s'.shared.slot ≠ s.shared.slot ∨ s'.shared.arg ≠ s.shared.arg → s.inside = 1 ∧
      (s'.run ≠ s.run → s.run.inside = true) ∧ (s'.run = s.run → ∃ a ∈ s.apps, a.inside = true) := by
  have hx := exec_excl h
  constructor
  · rw [hx]; split <;> omega
  · intro e s' hs hch
    have key : s.inside ≠ 0 → s.inside = 1 := by
      intro h0
      rw [hx] at h0 ⊢
      split
      · rfl
      · rename_i hl; rw [if_neg hl] at h0; exact absurd rfl h0
    cases hs with
    | run s s' r r' e apps h =>
      cases h <;> simp at hch
      exact ⟨key (by simp [State.inside, RunPc.inside]), by simp [RunPc.inside], by simp⟩
    | app s s' r a a' e l1 l2 h =>
      have : a.inside = true := by cases h <;> simp at hch <;> rfl
      refine ⟨key ?_, by simp, fun _ => ⟨a, by simp, this⟩⟩
      simp only [State.inside, List.countP_append, List.countP_cons, this, if_true]
      omega
    | handOver s l1 l2 => simp at hch

/-- C46: there is never both a registered callback and a pending event. -/
theorem never_both {n : Nat} {tr : List Event} {s : State} (h : Exec minv maxv n tr s) :
    s.shared.slot = none ∨ s.shared.value ≤ 0 := by
  cases hs : s.shared.slot with
  | none => exact .inl rfl
  | some cb => exact .inr ((exec_slot h).pending (by simp [hs]))

/-! ### No event is lost or used twice -/

/-- The event thread has an event in hand. -/
def RunPc.hand : RunPc → Nat
  | .waiting | .unlocking none _ => 0
  | _ => 1

/-- An application thread has taken an event and not called its callback yet. -/
def AppPc.hand : AppPc → Bool
  | .unlockCall _ _ | .calling _ _ => true
  | _ => false

def AppPc.isBlocked : AppPc → Bool
  | .blocked => true
  | _ => false

def RunPc.isSending : RunPc → Nat
  | .sending => 1
  | _ => 0

/-- The events that have been received and are neither used nor dropped nor pending. -/
def State.inHand (s : State) : Nat := s.run.hand + s.apps.countP AppPc.hand

def State.blocked (s : State) : Nat := s.apps.countP AppPc.isBlocked

/-- The counter counts pending events, or, below zero, threads that wait. -/
def CounterOk (s : State) : Prop :=
  s.shared.value + s.blocked - s.run.isSending = max s.shared.value 0

theorem counter_step {s s' : State} {e : Event} (h : Step minv maxv s e s') (hc : CounterOk s) : CounterOk s' := by
  cases h with
  | run s s' r r' e apps h =>
    obtain ⟨lk, sl, ar, va⟩ := s
    cases h <;> simp_all [CounterOk, State.blocked, RunPc.isSending] <;> omega
  | app s s' r a a' e l1 l2 h =>
    obtain ⟨lk, sl, ar, va⟩ := s
    cases h <;> simp_all [CounterOk, State.blocked, AppPc.isBlocked, List.countP_cons] <;> omega
  | handOver s l1 l2 => simp_all [CounterOk, State.blocked, RunPc.isSending, AppPc.isBlocked, List.countP_cons]; omega

theorem exec_counter {n : Nat} {tr : List Event} {s : State} (h : Exec minv maxv n tr s) : CounterOk s := by
  induction h with
  | start => simp [CounterOk, start, State.blocked, RunPc.isSending, List.countP_replicate, AppPc.isBlocked]
  | step tr s e s' _ hs ih => exact counter_step hs ih

/-- How an event changes the balance of events. -/
def Event.delta : Event → Int
  | .received => 1
  | .dropped | .polled | .waited | .called _ _ | .direct _ _ => -1
  | _ => 0

theorem balance_step {s s' : State} {e : Event} (h : Step minv maxv s e s') :
    (s'.inHand : Int) + s'.shared.value + s'.blocked - s'.run.isSending =
    s.inHand + s.shared.value + s.blocked - s.run.isSending + e.delta := by
  cases h with
  | run s s' r r' e apps h =>
    cases h <;> simp [State.inHand, State.blocked, RunPc.isSending, RunPc.hand, Event.delta] <;> omega
  | app s s' r a a' e l1 l2 h =>
    cases h <;> simp [State.inHand, State.blocked, AppPc.hand, AppPc.isBlocked, Event.delta, List.countP_cons] <;> omega
  | handOver s l1 l2 =>
    simp [State.inHand, State.blocked, RunPc.isSending, RunPc.hand, AppPc.hand, AppPc.isBlocked, Event.delta, List.countP_cons]; omega

theorem exec_balance {n : Nat} {tr : List Event} {s : State} (h : Exec minv maxv n tr s) :
    (arrived tr : Int) = dropped tr + consumed tr + s.inHand + (s.shared.value + s.blocked - s.run.isSending) := by
  induction h with
  | start => simp [arrived, dropped, consumed, start, State.inHand, State.blocked, RunPc.isSending, RunPc.hand,
      List.countP_replicate, AppPc.isBlocked, AppPc.hand]
  | step tr s e s' _ hs ih =>
    have hb := balance_step hs
    simp only [arrived, dropped, consumed, List.countP_append, List.countP_cons, List.countP_nil] at ih ⊢
    cases e <;> simp [Event.delta] at hb ⊢ <;> omega

/-- C46: after every execution, every event that has arrived has been used exactly once, was dropped,
is in the hand of a thread that is about to use or pass it on, or is pending. -/
theorem events_conserved {n : Nat} {tr : List Event} {s : State} (h : Exec minv maxv n tr s) :
    arrived tr = dropped tr + consumed tr + s.inHand + s.shared.value.toNat := by
  have h1 := exec_balance h
  have h2 : s.shared.value + s.blocked - s.run.isSending = max s.shared.value 0 := exec_counter h
  omega

/-- C46: when all threads have come to rest, every event that has arrived has been used exactly once,
was dropped, or is pending; and if one is pending, no thread waits and no callback is registered. -/
theorem events_at_rest {n : Nat} {tr : List Event} {s : State} (h : Exec minv maxv n tr s) (hq : s.Quiescent) :
    arrived tr = dropped tr + consumed tr + s.shared.value.toNat ∧
    (0 < s.shared.value → (∀ a ∈ s.apps, a = .idle) ∧ s.shared.slot = none) := by
  have h1 := events_conserved h
  have h0 : s.inHand = 0 := by
    simp only [State.inHand, hq.1, RunPc.hand, Nat.zero_add]
    rw [List.countP_eq_zero]
    intro a ha
    rcases hq.2 a ha with rfl | rfl <;> simp [AppPc.hand]
  refine ⟨by omega, ?_⟩
  intro hv
  have hc : s.shared.value + s.blocked - s.run.isSending = max s.shared.value 0 := exec_counter h
  rw [hq.1] at hc
  simp only [RunPc.isSending] at hc
  have hb : s.apps.countP AppPc.isBlocked = 0 := by
    have : s.blocked = 0 := by omega
    exact this
  constructor
  · intro a ha
    rcases hq.2 a ha with rfl | rfl
    · rfl
    · have := List.countP_eq_zero.mp hb _ ha
      simp [AppPc.isBlocked] at this
  · rcases never_both h with h | h
    · exact h
    · omega

/-- The counter stays within the range of its C type, for every number of events, calls and threads. -/
theorem counter_in_range {n : Nat} {tr : List Event} {s : State} (hmin : minv ≤ 0) (hmax : 0 ≤ maxv)
    (h : Exec minv maxv n tr s) : minv ≤ s.shared.value ∧ s.shared.value ≤ maxv ∧
    (s.run = .posting → s.shared.value < maxv) := by
  induction h with
  | start => exact ⟨hmin, hmax, by simp [start]⟩
  | step tr s e s' _ hs ih =>
    obtain ⟨i1, i2, i3⟩ := ih
    cases hs with
    | run s s' r r' e apps h => cases h <;> simp_all <;> omega
    | app s s' r a a' e l1 l2 h =>
      cases h <;> simp_all <;> omega
    | handOver s l1 l2 => simp_all

/-! ### Registered callbacks -/

/-- The argument that a thread in the middle of registering is about to store. -/
def pendingArg : List AppPc → Option Nat
  | [] => none
  | .regStoreArg arg :: _ => some arg
  | _ :: l => pendingArg l

/-- What the event thread has taken out of the slot and not called yet. -/
def RunPc.taken (s : Shared) : RunPc → List (Nat × Nat)
  | .readingArg (some cb) => [(cb, s.arg)]
  | .deciding (some cb) arg | .unlocking (some cb) arg | .calling cb arg => [(cb, arg)]
  | _ => []

/-- What is in the slot. -/
def inSlot (s : Shared) (apps : List AppPc) : List (Nat × Nat) :=
  match s.slot with
  | none => []
  | some cb => [(cb, (pendingArg apps).getD s.arg)]

/-- Registered and not called yet, oldest first. -/
def State.outstanding (s : State) : List (Nat × Nat) := s.run.taken s.shared ++ inSlot s.shared s.apps

theorem pendingArg_none {apps : List AppPc} (h : ∀ a ∈ apps, a.inside = false) : pendingArg apps = none := by
  induction apps with
  | nil => rfl
  | cons a l ih =>
    have h1 := h a (by simp)
    cases a <;> first | exact ih (fun b hb => h b (by simp [hb])) | cases h1

theorem pendingArg_append (l1 l2 : List AppPc) : pendingArg (l1 ++ l2) = (pendingArg l1).or (pendingArg l2) := by
  induction l1 with
  | nil => rfl
  | cons a l ih => cases a <;> first | exact ih | rfl

/-- Replacing a thread that is not about to store an argument by another such one changes nothing. -/
theorem pendingArg_swap (l1 l2 : List AppPc) (a a' : AppPc) (h : pendingArg [a] = none) (h' : pendingArg [a'] = none) :
    pendingArg (l1 ++ a' :: l2) = pendingArg (l1 ++ a :: l2) := by
  rw [show l1 ++ a' :: l2 = l1 ++ ([a'] ++ l2) by rfl, show l1 ++ a :: l2 = l1 ++ ([a] ++ l2) by rfl]
  simp only [pendingArg_append, h, h']

def Event.registration : Event → List (Nat × Nat)
  | .registered cb arg => [(cb, arg)]
  | _ => []

def Event.call : Event → List (Nat × Nat)
  | .called cb arg => [(cb, arg)]
  | _ => []

theorem outstanding_step {s s' : State} {e : Event} (h : Step minv maxv s e s') (hx : Excl s) (hi : SlotInv s) :
    s.outstanding ++ e.registration = e.call ++ s'.outstanding := by
  cases h with
  | handOver s l1 l2 =>
    simp only [State.outstanding, inSlot, RunPc.taken, Event.registration, Event.call, List.append_nil, List.nil_append]
    rw [pendingArg_swap l1 l2 .blocked .idle rfl rfl]
  | run s s' r r' e apps h =>
    obtain ⟨h1, h2, h3, h4, h5⟩ := hi
    have hp : r.inside = true → pendingArg apps = none := fun hr => pendingArg_none (excl_run hx hr)
    obtain ⟨lk, sl, ar, va⟩ := s
    cases h <;> simp_all [State.outstanding, inSlot, RunPc.taken, RunPc.inside, Event.registration, Event.call]
    · rename_i cb
      cases cb <;> simp
    · rename_i cb
      cases cb <;> simp
  | app s s' r a a' e l1 l2 h =>
    obtain ⟨h1, h2, h3, h4, h5⟩ := hi
    have hself2 : a.isStore = true → s.slot = none := h3 a (by simp)
    have hr : a.inside = true → r.taken s = [] ∨ ∃ cb arg, r = .calling cb arg := by
      intro hin
      have := (excl_app hx hin).1
      cases r <;> simp_all [RunPc.inside, RunPc.taken]
    have hp : a.inside = true → pendingArg l1 = none ∧ pendingArg l2 = none := by
      intro hin
      have := (excl_app hx hin).2
      exact ⟨pendingArg_none (fun b hb => this b (by simp [hb])), pendingArg_none (fun b hb => this b (by simp [hb]))⟩
    have hout : ∀ (t : Shared), t.arg = s.arg → r.taken t = r.taken s := by
      intro t ht
      cases r <;> simp [RunPc.taken, ht]
    have swap := pendingArg_swap l1 l2 a a'
    have hsame : ∀ (t : Shared) (l l' : List AppPc), t.slot = s.slot → t.arg = s.arg → pendingArg l = pendingArg l' →
        State.outstanding ⟨t, r, l⟩ = State.outstanding ⟨s, r, l'⟩ := by
      intro t l l' e1 e2 e3
      simp only [State.outstanding, inSlot, hout t e2, e1, e2, e3]
    cases h with
    | store cb arg =>
      obtain ⟨p1, p2⟩ := hp rfl
      have hs : s.slot = none := hself2 rfl
      simp only [State.outstanding, inSlot, Event.registration, Event.call, hs, List.append_nil, List.nil_append]
      rw [hout { s with slot := some cb } rfl]
      simp [pendingArg_append, p1, pendingArg]
    | storeArg arg =>
      obtain ⟨p1, p2⟩ := hp rfl
      simp only [State.outstanding, inSlot, Event.registration, Event.call, List.append_nil, List.nil_append,
        pendingArg_append, p1]
      have ht : r.taken { s with arg := arg } = r.taken s := by
        rcases hr rfl with h | ⟨cb, arg', rfl⟩
        · have hr0 := (excl_app hx (a := .regStoreArg arg) rfl).1
          cases r <;> simp_all [RunPc.inside, RunPc.taken]
        · rfl
      rw [ht]
      simp [pendingArg, p2]
    | _ =>
      have hsw := swap rfl rfl
      simp only [Event.registration, Event.call, List.append_nil, List.nil_append]
      all_goals exact (hsame _ _ _ rfl rfl hsw).symm

theorem outstanding_exec {n : Nat} {tr : List Event} {s : State} (h : Exec minv maxv n tr s) :
    registrations tr = calls tr ++ s.outstanding := by
  induction h with
  | start => rfl
  | step tr s e s' hx hs ih =>
    have hstep := outstanding_step hs (exec_excl hx) (exec_slot hx)
    have h1 : registrations (tr ++ [e]) = registrations tr ++ e.registration := by
      simp only [registrations, List.filterMap_append]
      cases e <;> rfl
    have h2 : calls (tr ++ [e]) = calls tr ++ e.call := by
      simp only [calls, List.filterMap_append]
      cases e <;> rfl
    rw [h1, h2, ih, List.append_assoc, List.append_assoc, hstep]

/-- C46: a registered callback is never overwritten or called twice: the event thread calls the
registered callbacks in the order of registration, each once and with the argument it was registered
with, and at most two are outstanding (one in the slot and one that is just being called). -/
theorem callbacks_in_order {n : Nat} {tr : List Event} {s : State} (h : Exec minv maxv n tr s) :
    ∃ rest, registrations tr = calls tr ++ rest ∧ rest.length ≤ 2 ∧
      (s.Quiescent → rest = (match s.shared.slot with | none => [] | some cb => [(cb, s.shared.arg)])) := by
  refine ⟨s.outstanding, outstanding_exec h, ?_, ?_⟩
  · simp only [State.outstanding, List.length_append]
    have h1 : (s.run.taken s.shared).length ≤ 1 := by
      cases s.run with
      | readingArg cb => cases cb <;> simp [RunPc.taken]
      | deciding cb arg => cases cb <;> simp [RunPc.taken]
      | unlocking cb arg => cases cb <;> simp [RunPc.taken]
      | _ => simp [RunPc.taken]
    have h2 : (inSlot s.shared s.apps).length ≤ 1 := by
      unfold inSlot; split <;> simp
    omega
  · intro hq
    have hp : pendingArg s.apps = none := by
      apply pendingArg_none
      intro a ha
      rcases hq.2 a ha with rfl | rfl <;> rfl
    simp only [State.outstanding, hq.1, RunPc.taken, inSlot, hp, List.nil_append, Option.getD_none]

/-! ### Progress -/

/-- C46: the thread that holds the lock is never stuck: whenever the lock is held, the thread inside can
take a step; in particular the event thread never sends to the endpoint without a thread that waits. -/
theorem holder_can_step {n : Nat} {tr : List Event} {s : State} (h : Exec minv maxv n tr s) (hl : s.shared.lock = true) :
    (s.run.inside = true ∧ ∃ e s', Step minv maxv s e s' ∧ s'.run ≠ s.run) ∨
    (∃ l1 a l2, s.apps = l1 ++ a :: l2 ∧ a.inside = true ∧ ∃ e a' t, AppStep minv s.shared a e t a' ∧ a' ≠ a) := by
  have hx := exec_excl h
  have hc := exec_counter h
  simp only [Excl, hl, if_true] at hx
  obtain ⟨sh, r, apps⟩ := s
  by_cases hr : r.inside = true
  · left
    refine ⟨hr, ?_⟩
    cases r with
    | waiting => cases hr
    | locking => cases hr
    | calling cb arg => cases hr
    | reading => exact ⟨_, _, .run _ _ _ _ _ _ (.seen sh), by simp⟩
    | clearing cb => exact ⟨_, _, .run _ _ _ _ _ _ (.clear sh cb), by simp⟩
    | readingArg cb => exact ⟨_, _, .run _ _ _ _ _ _ (.seenArg sh cb), by simp⟩
    | deciding cb arg =>
      cases cb with
      | some cb => exact ⟨_, _, .run _ _ _ _ _ _ (.keep sh cb arg), by simp⟩
      | none =>
        by_cases hv : sh.value = maxv
        · exact ⟨_, _, .run _ _ _ _ _ _ (.full sh arg hv), by simp⟩
        · exact ⟨_, _, .run _ _ _ _ _ _ (.room sh arg hv), by simp⟩
    | posting =>
      by_cases hv : 0 ≤ sh.value
      · exact ⟨_, _, .run _ _ _ _ _ _ (.post sh hv), by simp⟩
      · exact ⟨_, _, .run _ _ _ _ _ _ (.postWaiter sh (by omega)), by simp⟩
    | sending =>
      simp only [CounterOk, State.blocked, RunPc.isSending] at hc
      have hb : 0 < apps.countP AppPc.isBlocked := by omega
      obtain ⟨a, ha, hab⟩ := List.countP_pos_iff.mp hb
      obtain ⟨l1, l2, rfl⟩ := List.append_of_mem ha
      cases a <;> try cases hab
      exact ⟨_, _, .handOver sh l1 l2, by simp⟩
    | unlocking cb arg =>
      cases cb with
      | none => exact ⟨_, _, .run _ _ _ _ _ _ (.unlock sh arg), by simp⟩
      | some cb => exact ⟨_, _, .run _ _ _ _ _ _ (.unlockCall sh cb arg), by simp⟩
  · right
    simp only [State.inside, hr] at hx
    have hb : 0 < apps.countP AppPc.inside := by simp at hx; omega
    obtain ⟨a, ha, hab⟩ := List.countP_pos_iff.mp hb
    obtain ⟨l1, l2, rfl⟩ := List.append_of_mem ha
    refine ⟨l1, a, l2, rfl, hab, ?_⟩
    cases a with
    | regPoll cb arg =>
      by_cases hv : 0 < sh.value
      · exact ⟨_, _, _, .again sh cb arg hv, by simp⟩
      · exact ⟨_, _, _, .againNone sh cb arg (by omega), by simp⟩
    | regCheck cb arg =>
      by_cases hv : sh.slot = none
      · exact ⟨_, _, _, .vacant sh cb arg hv, by simp⟩
      · exact ⟨_, _, _, .occupied sh cb arg hv, by simp⟩
    | regStore cb arg => exact ⟨_, _, _, .store sh cb arg, by simp⟩
    | regStoreArg arg => exact ⟨_, _, _, .storeArg sh arg, by simp⟩
    | unlockCall cb arg => exact ⟨_, _, _, .unlockCall sh cb arg, by simp⟩
    | unlockReturn => exact ⟨_, _, _, .unlockReturn sh, by simp⟩
    | _ => cases hab

/-! ### Examples -/

/-- An event arrives, finds no callback and becomes pending; a registration then takes it and calls the
callback itself. -/
theorem demo : ∃ tr s, Exec (-5) 5 1 tr s ∧ arrived tr = 1 ∧ consumed tr = 1 ∧ s.Quiescent := by
  refine ⟨_, _, .step _ _ _ _ (.step _ _ _ _ (.step _ _ _ _ (.step _ _ _ _ (.step _ _ _ _ (.step _ _ _ _
    (.step _ _ _ _ (.step _ _ _ _ (.step _ _ _ _ (.step _ _ _ _ .start
    (.run _ _ _ _ _ _ (.receive _))) (.run _ _ _ _ _ _ (.lock _ rfl))) (.run _ _ _ _ _ _ (.seen _)))
    (.run _ _ _ _ _ _ (.clear _ _))) (.run _ _ _ _ _ _ (.seenArg _ _))) (.run _ _ _ _ _ _ (.room _ _ (by decide))))
    (.run _ _ _ _ _ _ (.post _ (by decide)))) (.run _ _ _ _ _ _ (.unlock _ _)))
    (.app _ _ _ _ _ _ [] [] (.reg _ 7 8 (by decide)))) (.app _ _ _ _ _ _ [] [] (.call _ 7 8)), by decide, by decide, rfl, ?_⟩
  intro a ha
  simp at ha
  exact .inl ha

/-- A callback is registered with argument 8 and an event calls it. -/
theorem demo_callback : ∃ tr s, Exec (-5) 5 1 tr s ∧ registrations tr = [(7, 8)] ∧ calls tr = [(7, 8)] ∧ s.Quiescent := by
  refine ⟨_, _, .step _ _ _ _ (.step _ _ _ _ (.step _ _ _ _ (.step _ _ _ _ (.step _ _ _ _ (.step _ _ _ _ (.step _ _ _ _
    (.step _ _ _ _ (.step _ _ _ _ (.step _ _ _ _ (.step _ _ _ _ (.step _ _ _ _ (.step _ _ _ _ (.step _ _ _ _ (.step _ _ _ _ .start
    (.app _ _ _ _ _ _ [] [] (.regNone _ 7 8 (by decide)))) (.app _ _ _ _ _ _ [] [] (.lock _ _ _ rfl)))
    (.app _ _ _ _ _ _ [] [] (.againNone _ _ _ (by decide)))) (.app _ _ _ _ _ _ [] [] (.vacant _ _ _ rfl)))
    (.app _ _ _ _ _ _ [] [] (.store _ _ _))) (.app _ _ _ _ _ _ [] [] (.storeArg _ _)))
    (.app _ _ _ _ _ _ [] [] (.unlockReturn _)))
    (.run _ _ _ _ _ _ (.receive _))) (.run _ _ _ _ _ _ (.lock _ rfl))) (.run _ _ _ _ _ _ (.seen _)))
    (.run _ _ _ _ _ _ (.clear _ _))) (.run _ _ _ _ _ _ (.seenArg _ _))) (.run _ _ _ _ _ _ (.keep _ _ _)))
    (.run _ _ _ _ _ _ (.unlockCall _ _ _))) (.run _ _ _ _ _ _ (.call _ _ _)), by decide, by decide, rfl, ?_⟩
  intro a ha
  simp at ha
  exact .inl ha

end Verif.Notification
