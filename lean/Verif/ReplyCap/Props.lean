import Verif.ReplyCap.Spec

namespace Verif.ReplyCap

/-! ### C54: the interface of tls.h, for every sequence of calls -/

/-- The thread agrees with what happened. -/
def Tls (st : St) (es : List Event) : Prop :=
  Reported es ∧ (st.inTcb = true → Declared es ∧ savesSinceDeclare es = []) ∧
  (st.inTcb = false → Declared es → savesSinceDeclare es = [st.saveError])

theorem saveCaller_inTcb (fail : Nat) (st : St) : (saveCaller fail st).1.inTcb = st.inTcb ∧ (saveCaller fail st).1.slot = st.slot := by
  unfold saveCaller
  split
  · exact ⟨rfl, rfl⟩
  · split <;> exact ⟨rfl, rfl⟩

theorem declare_tls {b : Build} {slot : Nat} {st st' : St} {es es' : List Event} (h : declare b slot st es = some (st', es')) (hr : Reported es) :
    Tls st' es' ∧ (b.asserts = true → slot ≠ 0 ∧ st.inTcb = false) := by
  unfold declare at h
  split at h
  · cases h
  · rename_i hn
    simp only [Option.some.injEq, Prod.mk.injEq] at h
    obtain ⟨rfl, rfl⟩ := h
    refine ⟨⟨hr, fun _ => ⟨by simp [Declared], rfl⟩, fun h => (by cases h)⟩, fun ha => ⟨fun h => hn ⟨ha, .inl h⟩, ?_⟩⟩
    cases hi : st.inTcb with
    | false => rfl
    | true => exact absurd ⟨ha, .inr hi⟩ hn

theorem beginRecv_some {b : Build} {slot client : Nat} {st st' : St} {es es' : List Event} (h : beginRecv b slot client st es = some (st', es')) :
    st'.inTcb = true := by
  simp only [beginRecv] at h
  unfold declare at h
  split at h
  · cases h
  · simp only [Option.some.injEq, Prod.mk.injEq] at h
    obtain ⟨rfl, rfl⟩ := h
    rfl

theorem beginRecv_asserts {b : Build} (hb : b.asserts = true) {slot client : Nat} {st : St} {es : List Event} (hi : st.inTcb = true) :
    beginRecv b slot client st es = none := by
  simp [beginRecv, recv, declare, hb, hi]

theorem protect_tls {b : Build} {fail : Nat} {st st' : St} {es es' : List Event} (h : protect b fail st es = some (st', es')) (ht : Tls st es) :
    Tls st' es' ∧ st'.inTcb = false := by
  obtain ⟨h1, h2, h3⟩ := ht
  unfold protect at h
  split at h
  · rename_i hi
    obtain ⟨hd, hs⟩ := h2 hi
    split at h
    · cases h
    · split at h
      · simp only [Option.some.injEq, Prod.mk.injEq] at h
        obtain ⟨rfl, rfl⟩ := h
        exact ⟨⟨⟨hs, hd, h1⟩, fun h => (by cases h), fun _ _ => by simp [savesSinceDeclare, hs]⟩, rfl⟩
      · simp only [Option.some.injEq, Prod.mk.injEq] at h
        obtain ⟨rfl, rfl⟩ := h
        exact ⟨⟨⟨hs, hd, h1⟩, fun h => (by cases h), fun _ _ => by simp [savesSinceDeclare, hs]⟩, rfl⟩
  · rename_i hi
    simp only [Option.some.injEq, Prod.mk.injEq] at h
    obtain ⟨rfl, rfl⟩ := h
    exact ⟨⟨h1, h2, h3⟩, by simpa using hi⟩

theorem unprotect_tls {b : Build} {st st' : St} {es es' : List Event} (h : unprotect b st es = some (st', es')) (ht : Tls st es)
    (hi : st.inTcb = false) : Tls st' es' := by
  obtain ⟨h1, h2, h3⟩ := ht
  unfold unprotect at h
  split at h
  · cases h
  · simp only [Option.some.injEq, Prod.mk.injEq] at h
    obtain ⟨rfl, rfl⟩ := h
    refine ⟨⟨h3 hi, h1⟩, ?_, ?_⟩
    · intro h; rw [show st.inTcb = true from h] at hi; cases hi
    · intro _ hd
      have : Declared es := by simpa [Declared] using hd
      simpa [savesSinceDeclare] using h3 hi this

theorem call_tls {b : Build} (hb : b.asserts = true) {c : Call} {st st' : St} {es es' : List Event}
    (h : call b c st es = some (st', es')) (ht : Tls st es) : Tls st' es' := by
  cases c with
  | recvDeclare slot client => exact (declare_tls h (by simpa [recv, Reported] using ht.1)).1
  | protect fail => exact (protect_tls h ht).1
  | unprotect =>
    refine unprotect_tls h ht ?_
    simp only [call] at h
    unfold unprotect at h
    split at h
    · cases h
    · rename_i hn
      cases hi : st.inTcb with
      | false => rfl
      | true => exact absurd ⟨hb, hi⟩ hn

/-- C54: in every sequence of receiving and declaring, protecting and unprotecting in which no assertion
fails, the reply capability is saved at most once for each declaration, and unprotecting reports the result
of that attempt. -/
theorem saved_once_reported (b : Build) (hb : b.asserts = true) (cs : List Call) (st : St) (es : List Event)
    (h : calls b cs fresh [] = some (st, es)) : Reported es := by
  have key : ∀ (cs : List Call) (st st' : St) (es es' : List Event), Tls st es → calls b cs st es = some (st', es') → Tls st' es' := by
    intro cs
    induction cs with
    | nil =>
      intro st st' es es' ht h
      simp only [calls, Option.some.injEq, Prod.mk.injEq] at h
      obtain ⟨rfl, rfl⟩ := h
      exact ht
    | cons c cs ih =>
      intro st st' es es' ht h
      simp only [calls] at h
      obtain ⟨⟨st1, es1⟩, h1, h2⟩ := Option.bind_eq_some_iff.mp h
      exact ih _ _ _ _ (call_tls hb h1 ht) h2
  exact (key cs fresh st [] es ⟨trivial, fun h => (by cases h), fun _ h => (by cases h)⟩ h).1

/-- C54: protecting is idempotent: the second time it does nothing. -/
theorem protect_idempotent (b : Build) (f g : Nat) (st st' : St) (es es' : List Event) (h : protect b f st es = some (st', es')) :
    protect b g st' es' = some (st', es') := by
  have hi : st'.inTcb = false := by
    unfold protect at h
    split at h
    · split at h
      · cases h
      · split at h <;>
        · simp only [Option.some.injEq, Prod.mk.injEq] at h
          obtain ⟨rfl, rfl⟩ := h
          rfl
    · rename_i hn
      simp only [Option.some.injEq, Prod.mk.injEq] at h
      obtain ⟨rfl, rfl⟩ := h
      simpa using hn
  simp [protect, hi]

/-- Declaring a second reply capability while the first is still in the TCB is refused. -/
theorem declare_twice_asserts (b : Build) (hb : b.asserts = true) (s c s' c' : Nat) (st st' : St) (es es' : List Event)
    (h : beginRecv b s c st es = some (st', es')) : beginRecv b s' c' st' es' = none := by
  exact beginRecv_asserts hb (beginRecv_some h)

/-- A request is received, saved, and the error of saving is reported. -/
example : calls ⟨true, true⟩ [.recvDeclare 5 100, .protect 3, .protect 0, .unprotect, .recvDeclare 5 101, .protect 0, .unprotect] fresh [] =
    some (⟨0, false, 0, none, some 101⟩,
      [.unprotected 0, .saved 0, .declared, .got 101, .unprotected 3, .saved 3, .declared, .got 100]) := rfl

/-- What holds in every run, with errors and dropped requests. -/
def Weak (st : St) (es : List Event) : Prop := Tls st es ∧ Declared es ∧ SavedBeforeWait es

theorem beginRecv_weak {b : Build} {slot client : Nat} {st st' : St} {es es' : List Event} (h : beginRecv b slot client st es = some (st', es'))
    (hr : Reported es) (hw : SavedBeforeWait es) : Weak st' es' := by
  refine ⟨(declare_tls h (by simpa [recv, Reported] using hr)).1, ?_⟩
  simp only [beginRecv] at h
  unfold declare at h
  split at h
  · cases h
  · simp only [Option.some.injEq, Prod.mk.injEq] at h
    obtain ⟨rfl, rfl⟩ := h
    exact ⟨by simp [Declared], by simpa [recv, SavedBeforeWait] using hw⟩

theorem step_weak {b : Build} {slot : Nat} {a : Act} (hp : a ≠ .plainWait) {st st' : St} {es es' : List Event} (hs : Weak st es)
    (h : step b slot a st es = some (st', es')) : Weak st' es' := by
  obtain ⟨ht, hd, hw⟩ := hs
  cases a with
  | plainWait => exact absurd rfl hp
  | discard next => exact beginRecv_weak h ht.1 hw
  | protectedWait fail =>
    simp only [step, Option.map_eq_some_iff] at h
    obtain ⟨⟨st1, es1⟩, h1, h2⟩ := h
    obtain ⟨ht1, hi1⟩ := protect_tls h1 ht
    have hd1 : Declared es1 ∧ SavedBeforeWait es1 := by
      unfold protect at h1
      split at h1
      · split at h1
        · cases h1
        · split at h1 <;>
          · simp only [Option.some.injEq, Prod.mk.injEq] at h1
            obtain ⟨_, rfl⟩ := h1
            exact ⟨by simpa [Declared] using hd, hw⟩
      · simp only [Option.some.injEq, Prod.mk.injEq] at h1
        obtain ⟨_, rfl⟩ := h1
        exact ⟨hd, hw⟩
    simp only [wait, Prod.mk.injEq] at h2
    obtain ⟨rfl, rfl⟩ := h2
    have hsv := ht1.2.2 hi1 hd1.1
    refine ⟨⟨ht1.1, fun h => ?_, fun _ _ => by simpa [savesSinceDeclare] using hsv⟩, by simpa [Declared] using hd1.1, by simp [hsv], hd1.2⟩
    rw [show st1.inTcb = true from h] at hi1; cases hi1
  | reply next =>
    simp only [step, replyRecv] at h
    split at h
    · have hq : ∀ (st : St) (es : List Event), Reported es ∧ SavedBeforeWait es → Reported (replyTcb st es).2 ∧ SavedBeforeWait (replyTcb st es).2 := by
        intro st es h
        unfold replyTcb
        split <;> exact h
      have := hq { st with inTcb := false } (.answer :: es) ⟨ht.1, hw⟩
      exact beginRecv_weak h this.1 this.2
    · rename_i hi
      have hi : st.inTcb = false := by simpa using hi
      split at h
      · cases h
      · rename_i r hu
        obtain ⟨st1, es1⟩ := r
        have htl := unprotect_tls hu (es := .answer :: es) ⟨ht.1, fun h => (by rw [hi] at h; cases h), fun h1 h2 => ht.2.2 h1 hd⟩ hi
        have hw1 : SavedBeforeWait es1 := by
          unfold unprotect at hu
          split at hu
          · cases hu
          · simp only [Option.some.injEq, Prod.mk.injEq] at hu
            obtain ⟨_, rfl⟩ := hu
            exact hw
        have hq : ∀ (st : St) (es : List Event), Reported es ∧ SavedBeforeWait es → Reported (sendShadow st es).2 ∧ SavedBeforeWait (sendShadow st es).2 := by
          intro st es h
          unfold sendShadow
          split <;> exact h
        have := hq st1 es1 ⟨htl.1, hw1⟩
        exact beginRecv_weak h this.1 this.2

/-- C54: in every run of a server that protects before it waits, whatever fails and whatever is dropped,
the reply capability is saved before each wait, at most once for each request, and the result of saving is
what unprotecting reports. -/
theorem saved_before_wait (b : Build) (slot first : Nat) (as : List Act) (hp : ∀ a ∈ as, a ≠ .plainWait) (st : St) (es : List Event)
    (h : server b slot first as = some (st, es)) : SavedBeforeWait es ∧ Reported es := by
  have key : ∀ (as : List Act) (st st' : St) (es es' : List Event), (∀ a ∈ as, a ≠ .plainWait) → Weak st es →
      steps b slot as st es = some (st', es') → Weak st' es' := by
    intro as
    induction as with
    | nil =>
      intro st st' es es' _ hw h
      simp only [steps, Option.some.injEq, Prod.mk.injEq] at h
      obtain ⟨rfl, rfl⟩ := h
      exact hw
    | cons a as ih =>
      intro st st' es es' hp hw h
      simp only [steps] at h
      obtain ⟨⟨st1, es1⟩, h1, h2⟩ := Option.bind_eq_some_iff.mp h
      exact ih _ _ _ _ (fun x hx => hp x (by simp [hx])) (step_weak (hp a (by simp)) hw h1) h2
  obtain ⟨⟨st1, es1⟩, h1, h2⟩ := Option.bind_eq_some_iff.mp h
  have := key as _ _ _ _ hp (beginRecv_weak h1 trivial trivial) h2
  exact ⟨this.2.2, this.1.1⟩

/-! ### C56: the server answers the client that sent the request -/

/-- The server between two actions. -/
def Inv (slot : Nat) (saved : Bool) (st : St) (es : List Event) : Prop :=
  Tls st es ∧ Declared es ∧ st.slot = slot ∧ returned es = answered es ∧ SavedBeforeWait es ∧ ∃ c, current es = some c ∧
  ((st.inTcb = true ∧ saved = false ∧ st.tcb = some c ∧ st.shadow = none) ∨ (st.inTcb = false ∧ saved = true ∧ st.shadow = some c))

theorem beginRecv_inv {b : Build} {slot client : Nat} {st : St} {es : List Event} (hs : slot ≠ 0)
    (hr : Reported es) (hra : returned es = answered es) (hw : SavedBeforeWait es) (hsh : st.shadow = none)
    (ha : b.asserts = true → st.inTcb = false) :
    ∃ r, beginRecv b slot client st es = some r ∧ Inv slot false r.1 r.2 ∧
      answered r.2 = answered es ∧ current r.2 = some client := by
  have hne : ¬ (b.asserts = true ∧ (slot = 0 ∨ (recv client st es).1.inTcb = true)) := by
    rintro ⟨h1, h2 | h2⟩
    · exact hs h2
    · rw [show (recv client st es).1.inTcb = st.inTcb from rfl, ha h1] at h2; cases h2
  refine ⟨_, by simp only [beginRecv, declare]; rw [if_neg hne], ?_, rfl, rfl⟩
  refine ⟨⟨hr, fun _ => ⟨by simp [Declared], rfl⟩, fun h => (by cases h)⟩, by simp [Declared], rfl, hra, hw, client, rfl, .inl ⟨rfl, rfl, rfl, hsh⟩⟩

theorem step_inv {b : Build} (hc : b.cnode = true) {slot : Nat} (hs : slot ≠ 0) {saved : Bool} {a : Act} {as : List Act} {st : St} {es : List Event}
    (h : Inv slot saved st es) (hco : Cooperative b saved (a :: as)) :
    ∃ r saved', step b slot a st es = some r ∧ Inv slot saved' r.1 r.2 ∧ Cooperative b saved' as := by
  obtain ⟨ht, hd, hslot, hra, hw, c, hcur, hcase⟩ := h
  cases a with
  | plainWait => exact absurd hco id
  | protectedWait fail =>
    obtain ⟨rfl, hco⟩ := hco
    rcases hcase with ⟨h1, h2, h3, h4⟩ | ⟨h1, h2, h3⟩
    · obtain ⟨hd', hs'⟩ := ht.2.1 h1
      have hp : protect b 0 st es = some (⟨slot, false, 0, none, some c⟩, .saved 0 :: es) := by
        simp only [protect, h1, if_true, hslot, hs, and_false, if_false, hc, Bool.true_eq_false, saveCaller, ne_eq, not_true_eq_false, h4, h3]
      have htls := (protect_tls hp ht).1
      refine ⟨(wait ⟨slot, false, 0, none, some c⟩ (.saved 0 :: es)), true, by rw [step, hp]; rfl, ?_, hco⟩
      refine ⟨⟨htls.1, fun h => (by cases h), fun h1 h2 => ?_⟩, ?_, rfl, hra, ⟨by simp [savesSinceDeclare], hw⟩, c, hcur, .inr ⟨rfl, rfl, rfl⟩⟩
      · simp [wait, savesSinceDeclare, hs']
      · simpa [Declared, wait] using hd
    · have hp : protect b 0 st es = some (st, es) := by simp [protect, h1]
      refine ⟨wait st es, true, by rw [step, hp]; rfl, ?_, hco⟩
      have hsv := ht.2.2 h1 hd
      refine ⟨⟨ht.1, fun h => ?_, fun h1' h2' => ?_⟩, ?_, hslot, hra, ⟨by simp [hsv], hw⟩, c, hcur, .inr ⟨h1, rfl, h3⟩⟩
      · rw [show st.inTcb = true from h] at h1; cases h1
      · simpa [wait, savesSinceDeclare] using hsv
      · simpa [Declared, wait] using hd
  | reply next =>
    rcases hcase with ⟨h1, h2, h3, h4⟩ | ⟨h1, h2, h3⟩
    · have hrt : replyTcb { st with inTcb := false } (.answer :: es) = ({ st with inTcb := false, tcb := none }, .returned c :: .answer :: es) := by
        simp [replyTcb, h3]
      obtain ⟨r, e1, e2, _⟩ := beginRecv_inv (b := b) (client := next) (st := { st with inTcb := false, tcb := none })
        (es := .returned c :: .answer :: es) hs ht.1 (by simp [returned, answered, hra, hcur]) hw h4 (fun _ => rfl)
      exact ⟨r, false, by rw [step, replyRecv, if_pos h1, hrt]; exact e1, e2, hco⟩
    · have hu : unprotect b st (.answer :: es) = some ({ st with slot := if b.asserts = true then 0 else st.slot }, .unprotected st.saveError :: .answer :: es) := by
        rw [unprotect, if_neg (by rw [h1]; simp)]
      have htl : Tls { st with slot := if b.asserts = true then 0 else st.slot } (.unprotected st.saveError :: .answer :: es) := by
        refine unprotect_tls hu ?_ h1
        refine ⟨ht.1, fun h => ?_, fun _ h => ?_⟩
        · rw [show st.inTcb = true from h] at h1; cases h1
        · exact ht.2.2 h1 hd
      have hsd : sendShadow { st with slot := if b.asserts = true then 0 else st.slot } (.unprotected st.saveError :: .answer :: es) =
          ({ st with slot := if b.asserts = true then 0 else st.slot, shadow := none }, .returned c :: .unprotected st.saveError :: .answer :: es) := by
        simp [sendShadow, h3]
      obtain ⟨r, e1, e2, _⟩ := beginRecv_inv (b := b) (client := next)
        (st := { st with slot := if b.asserts = true then 0 else st.slot, shadow := none })
        (es := .returned c :: .unprotected st.saveError :: .answer :: es) hs htl.1 (by simp [returned, answered, hra, hcur]) hw rfl (fun _ => h1)
      refine ⟨r, false, ?_, e2, hco⟩
      rw [step, replyRecv, if_neg (by rw [h1]; simp), hu]
      simp only
      rw [hsd]
      exact e1
  | discard next =>
    obtain ⟨ha, rfl, hco⟩ := hco
    rcases hcase with ⟨h1, h2, h3, h4⟩ | ⟨h1, h2, h3⟩
    · obtain ⟨r, e1, e2, _⟩ := beginRecv_inv (b := b) (client := next) (st := st) (es := .drop :: es) hs ht.1 hra hw h4
        (fun h => by rw [ha] at h; cases h)
      exact ⟨r, false, e1, e2, hco⟩
    · cases h2

theorem steps_inv {b : Build} (hc : b.cnode = true) {slot : Nat} (hs : slot ≠ 0) : ∀ (as : List Act) (saved : Bool) (st : St) (es : List Event),
    Inv slot saved st es → Cooperative b saved as → ∃ r saved', steps b slot as st es = some r ∧ Inv slot saved' r.1 r.2 := by
  intro as
  induction as with
  | nil => intro saved st es h _; exact ⟨(st, es), saved, rfl, h⟩
  | cons a as ih =>
    intro saved st es h hco
    obtain ⟨r, saved', e1, e2, e3⟩ := step_inv hc hs h hco
    obtain ⟨r', saved'', e4, e5⟩ := ih saved' r.1 r.2 e2 e3
    exact ⟨r', saved'', by rw [steps, e1]; exact e4, e5⟩

/-- C56 for cooperative servers: in every run no assertion fails, each answer reaches the client whose
request is being handled, exactly once and in order, and the reply capability is saved before each wait,
at most once. -/
theorem server_correct_partial (b : Build) (hc : b.cnode = true) (slot first : Nat) (hs : slot ≠ 0) (as : List Act) (hco : Cooperative b false as) :
    ∃ st es, server b slot first as = some (st, es) ∧ returned es = answered es ∧ SavedBeforeWait es ∧ Reported es := by
  obtain ⟨r, e1, e2, _⟩ := beginRecv_inv (b := b) (slot := slot) (client := first) (st := fresh) (es := []) hs trivial rfl trivial rfl (fun _ => rfl)
  obtain ⟨r', _, e4, e5⟩ := steps_inv hc hs as false r.1 r.2 e2 hco
  refine ⟨r'.1, r'.2, by rw [server, e1]; exact e4, e5.2.2.2.1, e5.2.2.2.2.1, e5.1.1⟩

/-- Three requests, one of which needs a lock twice. -/
example : (server ⟨true, true⟩ 5 100 [.reply 101, .protectedWait 0, .protectedWait 0, .reply 102, .reply 103]).map (fun r => returned r.2) =
    some [some 102, some 101, some 100] := rfl

example : Cooperative ⟨true, true⟩ false [.reply 101, .protectedWait 0, .protectedWait 0, .reply 102, .reply 103] := by
  simp [Cooperative]

/-- What the user expects of the server: whatever the client sends, no assertion fails, and answers reach the
client whose request is being handled. -/
def AnswersRight (b : Build) : Prop :=
  ∀ slot first as, slot ≠ 0 → (∀ a ∈ as, a ≠ .plainWait ∧ ∀ f, a ≠ .protectedWait (f + 1)) →
    ∃ st es, server b slot first as = some (st, es) ∧ returned es = answered es

/-- C56 fails: a request that cannot be unmarshalled and is dropped makes the assertion fail when the next
request arrives, whoever sends it. -/
theorem dropped_request_asserts (b : Build) (hb : b.asserts = true) (slot first next : Nat) :
    server b slot first [.discard next] = none := by
  cases h : beginRecv b slot first fresh [] with
  | none => rw [server, h]; rfl
  | some r =>
    have : beginRecv b slot next r.1 (.drop :: r.2) = none := beginRecv_asserts hb (beginRecv_some (es' := r.2) h)
    rw [server, h]
    simp only [Option.bind_some, steps, step, this, Option.bind_none]

/-- C56 fails in every build: if the output of a request that waited cannot be marshalled, the client of that
request gets the answer to the next request that waits. -/
theorem wrong_client_answered (b : Build) (hc : b.cnode = true) (slot c1 c2 c3 : Nat) (hs : slot ≠ 0) :
    ∃ st es, server b slot c1 [.protectedWait 0, .discard c2, .protectedWait 0, .reply c3] = some (st, es) ∧
      answered es = [some c2] ∧ returned es = [some c1] := by
  obtain ⟨a, cn⟩ := b
  simp only at hc
  subst hc
  cases a <;>
    simp [server, steps, step, beginRecv, recv, declare, protect, saveCaller, wait, replyRecv, unprotect, sendShadow, fresh, hs]
  all_goals exact ⟨_, _, ⟨rfl, rfl⟩, rfl, rfl⟩

theorem not_answersRight (b : Build) (hc : b.cnode = true) : ¬ AnswersRight b := by
  intro h
  obtain ⟨st, es, h1, h2⟩ := h 5 1 [.protectedWait 0, .discard 2, .protectedWait 0, .reply 3] (by decide) (by simp)
  obtain ⟨st', es', h3, h4, h5⟩ := wrong_client_answered b hc 5 1 2 3 (by decide)
  rw [h1] at h3
  cases h3
  rw [h4, h5] at h2
  simp at h2

/-- C56 fails: the error of saving is reported to the connector, which ignores it: the client is never
answered, and the server goes on. -/
theorem save_error_ignored (b : Build) (hc : b.cnode = true) (slot c1 c2 fail : Nat) (hs : slot ≠ 0) (hf : fail ≠ 0) :
    ∃ st es, server b slot c1 [.protectedWait fail, .reply c2] = some (st, es) ∧ .unprotected fail ∈ es ∧
      answered es = [some c1] ∧ returned es = [] := by
  obtain ⟨a, cn⟩ := b
  simp only at hc
  subst hc
  cases a <;>
    simp [server, steps, step, beginRecv, recv, declare, protect, saveCaller, wait, replyRecv, unprotect, sendShadow, fresh, hs, hf]
  all_goals exact ⟨_, _, ⟨rfl, rfl⟩, by simp, rfl, rfl⟩

/-- Protecting is needed: waiting without it loses the reply. -/
theorem unprotected_wait_loses (b : Build) (slot c1 c2 : Nat) (hs : slot ≠ 0) :
    ∃ st es, server b slot c1 [.plainWait, .reply c2] = some (st, es) ∧ answered es = [some c1] ∧ returned es = [] := by
  obtain ⟨a, cn⟩ := b
  cases a <;>
    simp [server, steps, step, beginRecv, recv, declare, wait, replyRecv, replyTcb, fresh, hs]
  all_goals exact ⟨_, _, ⟨rfl, rfl⟩, rfl, rfl⟩

end Verif.ReplyCap
