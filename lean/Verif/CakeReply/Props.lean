import Verif.CakeReply.Lemmas

/-!
# C135: a server in CakeML answers each client as one in C does
-/

namespace Verif.CakeReply

open Verif.CakeRpc (Buf)
open Verif.ReplyCap (St Event Build answered returned current SavedBeforeWait Reported Cooperative)

/-! ### The same as in C -/

/-- C135: whatever the methods of the server do and whatever fails, what is seen of a server in CakeML is what is
seen of the server in C that does the same, if the component might block. The capabilities survive the way
through arrays of bytes. -/
theorem same_as_c {s : Server} (hs : s.Ok) (hm : s.mightBlock = true) {buf msg : Buf} (hb : 1 + s.ws ≤ buf.length)
    (hm' : 1 + s.ws ≤ msg.length) (c : Nat) (as : List Act) (hr : ∀ a ∈ as, Room s a) :
    (server s buf c msg as).map (·.2) = (ReplyCap.server ⟨s.asserts, true⟩ s.slot c (as.map inC)).map (·.2) := by
  unfold server ReplyCap.server
  have h := first_same hs hm hb hm' c
  change (_ : Option (List Event)) = Option.map _ ((ReplyCap.beginRecv (build s) s.slot c ReplyCap.fresh []).bind _)
  cases hx : ReplyCap.beginRecv (build s) s.slot c ReplyCap.fresh [] with
  | none => rw [h.1 hx]; rfl
  | some q =>
    obtain ⟨t, ht, he, hi⟩ := h.2 q.1 q.2 hx
    rw [ht, Option.bind_some, Option.bind_some]
    have h2 := steps_same hs hm as t q.2 hi hr
    rw [he] at h2
    change _ = Option.map _ (ReplyCap.steps (build s) s.slot (as.map inC) q.1 q.2)
    cases hy : ReplyCap.steps (build s) s.slot (as.map inC) q.1 q.2 with
    | none => rw [h2.1 hy]; rfl
    | some p =>
      obtain ⟨t2, ht2, _, _⟩ := h2.2 p.1 p.2 hy
      rw [ht2]
      rfl

/-! ### Who is answered -/

theorem replyTcb_seen (st : St) (es : List Event) :
    answered (ReplyCap.replyTcb st es).2 = answered es ∧ current (ReplyCap.replyTcb st es).2 = current es := by
  unfold ReplyCap.replyTcb
  cases st.tcb <;> exact ⟨rfl, rfl⟩

theorem sendShadow_seen (st : St) (es : List Event) :
    answered (ReplyCap.sendShadow st es).2 = answered es ∧ current (ReplyCap.sendShadow st es).2 = current es := by
  unfold ReplyCap.sendShadow
  cases st.shadow <;> exact ⟨rfl, rfl⟩

theorem protect_seen {b : Build} {f : Nat} {st st' : St} {es es' : List Event} (h : ReplyCap.protect b f st es = some (st', es')) :
    answered es' = answered es ∧ current es' = current es := by
  unfold ReplyCap.protect at h
  split at h
  · split at h
    · cases h
    · split at h <;>
      · simp only [Option.some.injEq, Prod.mk.injEq] at h
        rw [← h.2]
        exact ⟨rfl, rfl⟩
  · simp only [Option.some.injEq, Prod.mk.injEq] at h
    rw [← h.2]
    exact ⟨rfl, rfl⟩

theorem unprotect_seen {b : Build} {st st' : St} {es es' : List Event} (h : ReplyCap.unprotect b st es = some (st', es')) :
    answered es' = answered es ∧ current es' = current es := by
  unfold ReplyCap.unprotect at h
  split at h
  · cases h
  · simp only [Option.some.injEq, Prod.mk.injEq] at h
    rw [← h.2]
    exact ⟨rfl, rfl⟩

theorem declare_seen {s : Server} {r r' : Run} (h : saveReplyCap s r = some r') :
    answered r'.2 = answered r.2 ∧ current r'.2 = current r.2 := by
  unfold saveReplyCap at h
  split at h
  · unfold declare at h
    obtain ⟨a, _, h⟩ := Option.bind_eq_some_iff.mp h
    obtain ⟨w, _, h⟩ := Option.bind_eq_some_iff.mp h
    obtain ⟨q, hq, h⟩ := Option.map_eq_some_iff.mp h
    unfold ReplyCap.declare at hq
    split at hq
    · cases hq
    · simp only [Option.some.injEq] at hq
      rw [← h, ← hq]
      exact ⟨rfl, rfl⟩
  · simp only [Option.some.injEq] at h
    rw [h]
    exact ⟨rfl, rfl⟩

theorem recv_seen {s : Server} {c : Nat} {msg : Buf} {r r' : Run} (h : recv s c msg r = some r') :
    answered r'.2 = answered r.2 ∧ current r'.2 = some c := by
  unfold recv at h
  obtain ⟨a, _, h⟩ := Option.bind_eq_some_iff.mp h
  obtain ⟨w, _, h⟩ := Option.bind_eq_some_iff.mp h
  split at h
  · simp only [Option.some.injEq] at h
    rw [← h]
    exact ⟨rfl, rfl⟩
  · cases h

theorem replyRecv_seen {s : Server} {c : Nat} {msg : Buf} {r r' : Run} (h : replyRecv s c msg r = some r') :
    answered r'.2 = answered r.2 ∧ current r'.2 = some c := by
  unfold replyRecv at h
  obtain ⟨a, _, h⟩ := Option.bind_eq_some_iff.mp h
  obtain ⟨w, _, h⟩ := Option.bind_eq_some_iff.mp h
  simp only at h
  split at h
  · simp only [Option.some.injEq] at h
    rw [← h]
    exact ⟨(replyTcb_seen _ _).1, rfl⟩
  · cases h

theorem send_seen {s : Server} {cap : Nat} {r r' : Run} (h : send s cap r = some r') :
    answered r'.2 = answered r.2 := by
  unfold send at h
  obtain ⟨a, _, h⟩ := Option.bind_eq_some_iff.mp h
  obtain ⟨w, _, h⟩ := Option.map_eq_some_iff.mp h
  rw [← h]
  split
  · exact (sendShadow_seen _ _).1
  · rfl

theorem clear_seen {s : Server} {r : Run} {q : Run × Bool} (h : clear s r = some q) : answered q.1.2 = answered r.2 := by
  unfold clear at h
  obtain ⟨p, hp, h⟩ := Option.bind_eq_some_iff.mp h
  obtain ⟨v, _, h⟩ := Option.map_eq_some_iff.mp h
  rw [← h]
  unfold ffiClear at hp
  split at hp
  · simp only [Option.some.injEq] at hp
    rw [← hp]
  · obtain ⟨u, hu, hp⟩ := Option.map_eq_some_iff.mp hp
    rw [← hp]
    exact (unprotect_seen hu).1

theorem reply_seen {s : Server} {c : Nat} {msg : Buf} {r r' : Run} (h : replyNext s c msg r = some r') :
    answered r'.2 = current r.2 :: answered r.2 ∧ current r'.2 = some c := by
  unfold replyNext at h
  obtain ⟨x, hx, h⟩ := Option.bind_eq_some_iff.mp h
  obtain ⟨h1, h2⟩ := declare_seen h
  rw [h1, h2]
  split at hx
  · obtain ⟨q, hq, hx⟩ := Option.bind_eq_some_iff.mp hx
    have hc := clear_seen hq
    split at hx
    · obtain ⟨h3, h4⟩ := replyRecv_seen hx
      exact ⟨by rw [h3, hc]; rfl, h4⟩
    · obtain ⟨y, hy, hx⟩ := Option.bind_eq_some_iff.mp hx
      obtain ⟨h3, h4⟩ := recv_seen hx
      exact ⟨by rw [h3, send_seen hy, hc]; rfl, h4⟩
  · obtain ⟨h3, h4⟩ := replyRecv_seen hx
    exact ⟨by rw [h3]; rfl, h4⟩

theorem steps_seen {s : Server} : ∀ (as : List Act) (c : Nat) (r r' : Run), current r.2 = some c → steps s as r = some r' →
    answered r'.2 = ((c :: clients as).dropLast.map some).reverse ++ answered r.2
  | [], c, r, r', _, h => by
    simp only [steps, Option.some.injEq] at h
    rw [h]
    simp [clients]
  | .reply c' msg :: as, c, r, r', hc, h => by
    simp only [steps, step] at h
    obtain ⟨x, hx, h⟩ := Option.bind_eq_some_iff.mp h
    obtain ⟨h1, h2⟩ := reply_seen hx
    rw [steps_seen as c' x r' h2 h, h1, hc]
    simp [clients]
  | .cakeWait :: as, c, r, r', hc, h => by
    simp only [steps, step, Option.bind_some] at h
    have hw : ∀ (x : Run), answered x.2 = answered r.2 → current x.2 = some c → steps s as x = some r' →
        answered r'.2 = ((c :: clients as).dropLast.map some).reverse ++ answered r.2 := by
      intro x ha hcx hx
      rw [← ha]
      exact steps_seen as c x r' hcx hx
    refine hw _ ?_ ?_ h
    · rfl
    · exact hc
  | .protectedWait f :: as, c, r, r', hc, h => by
    simp only [steps, step] at h
    obtain ⟨x, hx, h⟩ := Option.bind_eq_some_iff.mp h
    obtain ⟨y, hy, hx⟩ := Option.map_eq_some_iff.mp hx
    unfold protect at hy
    obtain ⟨z, hz, hy⟩ := Option.map_eq_some_iff.mp hy
    obtain ⟨h1, h2⟩ := protect_seen hz
    have ha : answered x.2 = answered r.2 := by rw [← hx, ← hy]; exact h1
    have hcu : current x.2 = some c := by rw [← hx, ← hy]; exact h2.trans hc
    rw [steps_seen as c x r' hcu h, ha]
    rfl

/-- C135: a server answers its clients one after the other: all but the last one of those that it received a
request from (the last one's request is being handled). -/
theorem answers_in_turn {s : Server} {buf msg : Buf} {c : Nat} {as : List Act} {t : Thread} {es : List Event}
    (h : server s buf c msg as = some (t, es)) : answered es = ((c :: clients as).dropLast.map some).reverse := by
  unfold server at h
  obtain ⟨x, hx, h⟩ := Option.bind_eq_some_iff.mp h
  unfold first at hx
  obtain ⟨t0, _, hx⟩ := Option.bind_eq_some_iff.mp hx
  obtain ⟨y, hy, hx⟩ := Option.bind_eq_some_iff.mp hx
  obtain ⟨h1, h2⟩ := recv_seen hy
  obtain ⟨h3, h4⟩ := declare_seen hx
  have := steps_seen as c x (t, es) (h4.trans h2) h
  rw [this, h3, h1]
  simp [answered]

theorem protects_cooperative (b : Build) : ∀ (as : List Act) (saved : Bool), Protects as → Cooperative b saved (as.map inC)
  | [], _, _ => trivial
  | .protectedWait _ :: as, _, h => ⟨h.1, protects_cooperative b as _ h.2⟩
  | .cakeWait :: _, _, h => h.elim
  | .reply _ _ :: as, _, h => protects_cooperative b as _ h

/-- C135: a server in CakeML whose component might block, and that waits only in functions that protect its
reply capability, returns the call of each client that it answers, once and in order, and never stops on an
assertion; the capability is saved before each wait and at most once for each request. Missing: waiting with
CakeML's own function, and savings that fail (the disagreements below). -/
theorem answers_reach_partial {s : Server} (hs : s.Ok) (hm : s.mightBlock = true) {buf msg : Buf} (hb : 1 + s.ws ≤ buf.length)
    (hm' : 1 + s.ws ≤ msg.length) (c : Nat) (as : List Act) (hr : ∀ a ∈ as, Room s a) (hp : Protects as) :
    ∃ t es, server s buf c msg as = some (t, es) ∧ returned es = ((c :: clients as).dropLast.map some).reverse ∧
      SavedBeforeWait es ∧ Reported es := by
  obtain ⟨st, es, h1, h2, h3, h4⟩ := ReplyCap.server_correct_partial ⟨s.asserts, true⟩ rfl s.slot c hs.slot.1 (as.map inC)
    (protects_cooperative _ as false hp)
  have h := same_as_c hs hm hb hm' c as hr
  rw [h1] at h
  obtain ⟨⟨t, es'⟩, h5, h6⟩ := Option.map_eq_some_iff.mp h
  simp only at h6
  subst h6
  exact ⟨t, es', h5, h2.trans (answers_in_turn h5), h3, h4⟩

/-! ### Components that cannot block -/

/-- What holds of the thread between two requests. -/
def Waits (s : Server) (r : Run) : Prop :=
  1 + s.ws ≤ r.1.buf.length ∧ returned r.2 = answered r.2 ∧ ∃ c, r.1.st.tcb = some c ∧ current r.2 = some c

theorem unblocked_step {s : Server} (hs : s.Ok) (hm : s.mightBlock = false) {r : Run} (h : Waits s r) (c : Nat) {msg : Buf}
    (hl : 1 + s.ws ≤ msg.length) : ∃ r', replyNext s c msg r = some r' ∧ Waits s r' := by
  obtain ⟨hb, hra, d, htcb, hcur⟩ := h
  unfold replyNext
  simp only [hm, Bool.false_eq_true, if_false]
  rw [replyRecv_ok hs c msg (r.1, .answer :: r.2) hb, Option.bind_some]
  unfold saveReplyCap
  rw [if_neg (by simp [hm])]
  refine ⟨_, rfl, hl, ?_, c, rfl, rfl⟩
  simp only [ReplyCap.replyTcb, htcb, ReplyCap.recv, returned, answered, hcur, hra]

/-- C135: a server in CakeML whose component cannot block needs none of this: each client that it answers has its
call returned, once and in order. -/
theorem unblocked_answers {s : Server} (hs : s.Ok) (hm : s.mightBlock = false) {buf msg : Buf} (hb : 1 + s.ws ≤ buf.length)
    (hm' : 1 + s.ws ≤ msg.length) (c : Nat) (as : List Act) (hr : ∀ a ∈ as, Room s a) (ho : OnlyAnswers as) :
    ∃ t es, server s buf c msg as = some (t, es) ∧ returned es = ((c :: clients as).dropLast.map some).reverse := by
  have key : ∀ (as : List Act) (r : Run), Waits s r → (∀ a ∈ as, Room s a) → OnlyAnswers as →
      ∃ r', steps s as r = some r' ∧ Waits s r' := by
    intro as
    induction as with
    | nil => intro r h _ _; exact ⟨r, rfl, h⟩
    | cons a as ih =>
      intro r h hr ho
      obtain ⟨c, m, rfl⟩ := ho a (by simp)
      obtain ⟨r', h1, h2⟩ := unblocked_step hs hm h c (hr (.reply c m) (by simp))
      obtain ⟨r2, h3, h4⟩ := ih r' h2 (fun x hx => hr x (by simp [hx])) (fun x hx => ho x (by simp [hx]))
      exact ⟨r2, by simp only [steps, step, h1, Option.bind_some, h3], h4⟩
  have hf : ∃ r, first s c msg (fresh buf, []) = some r ∧ Waits s r := by
    unfold first
    rw [if_neg (by simp [hm]), Option.bind_some, recv_ok hs _ _ _ hb, Option.bind_some]
    unfold saveReplyCap
    rw [if_neg (by simp [hm])]
    exact ⟨_, rfl, hm', rfl, c, rfl, rfl⟩
  obtain ⟨r, h1, h2⟩ := hf
  obtain ⟨⟨t, es⟩, h3, h4⟩ := key as r h2 hr ho
  have h5 : server s buf c msg as = some (t, es) := by unfold server; rw [h1, Option.bind_some, h3]
  exact ⟨t, es, h5, h4.2.1.trans (answers_in_turn h5)⟩

/-! ### What does not hold -/

theorem declare_works {b : Build} {slot : Nat} {st : St} {es : List Event} (hs : slot ≠ 0) (hi : st.inTcb = false) :
    ReplyCap.declare b slot st es = some ({ st with slot := slot, inTcb := true }, .declared :: es) := by
  unfold ReplyCap.declare
  rw [if_neg]
  rintro ⟨_, h | h⟩
  · exact hs h
  · rw [hi] at h; cases h

/-- **Disagreement with C135.** A method that waits with CakeML's own function loses its client: the function does
not protect the reply capability, the server answers, and the call never returns. Nothing is reported. -/
theorem own_wait_loses {s : Server} (hs : s.Ok) {buf msg msg2 : Buf} (hb : 1 + s.ws ≤ buf.length)
    (hm : 1 + s.ws ≤ msg.length) (c c2 : Nat) :
    ∃ t es, server s buf c msg [.cakeWait, .reply c2 msg2] = some (t, es) ∧ answered es = [some c] ∧ returned es = [] := by
  cases hmb : s.mightBlock
  · have : ∃ t es, server s buf c msg [.cakeWait, .reply c2 msg2] = some (t, es) ∧ returned es = [] := by
      unfold server first
      rw [if_neg (by simp [hmb]), Option.bind_some, recv_ok hs _ _ _ hb, Option.bind_some]
      unfold saveReplyCap
      rw [if_neg (by simp [hmb]), Option.bind_some]
      simp only [steps, step, Option.bind_some, replyNext, hmb, Bool.false_eq_true, if_false]
      rw [replyRecv_ok hs _ _ _ hm, Option.bind_some]
      unfold saveReplyCap
      rw [if_neg (by simp [hmb])]
      exact ⟨_, _, rfl, rfl⟩
    obtain ⟨t, es, h1, h2⟩ := this
    exact ⟨t, es, h1, answers_in_turn h1, h2⟩
  · have : ∃ t es, server s buf c msg [.cakeWait, .reply c2 msg2] = some (t, es) ∧ returned es = [] := by
      unfold server first
      rw [if_pos hmb, setCnode_ok hs, Option.bind_some, recv_ok hs _ _ _ hb, Option.bind_some]
      unfold saveReplyCap
      rw [if_pos hmb, declare_ok hs, declare_works hs.slot.1 rfl]
      simp only [Option.map_some, Option.bind_some, steps, step, replyNext, hmb, if_true, clear, ffiClear, ReplyCap.wait,
        List.getElem?_cons_succ, List.getElem?_cons_zero]
      rw [if_pos (by decide), replyRecv_ok hs _ _ _ hm, Option.bind_some]
      unfold saveReplyCap
      rw [if_pos hmb, declare_ok hs, declare_works hs.slot.1 rfl]
      exact ⟨_, _, rfl, rfl⟩
    obtain ⟨t, es, h1, h2⟩ := this
    exact ⟨t, es, h1, answers_in_turn h1, h2⟩

/-- **Disagreement with C135.** If saving the reply capability fails, the error is there when the server answers,
but the server does not look: it answers, the call of the client never returns, and it goes on. -/
theorem failed_save_loses {s : Server} (hs : s.Ok) (hmb : s.mightBlock = true) {buf msg msg2 : Buf} (hb : 1 + s.ws ≤ buf.length)
    (hm : 1 + s.ws ≤ msg.length) (hm2 : 1 + s.ws ≤ msg2.length) (c c2 fail : Nat) (hf : fail ≠ 0) :
    ∃ t es, server s buf c msg [.protectedWait fail, .reply c2 msg2] = some (t, es) ∧ answered es = [some c] ∧
      returned es = [] ∧ .unprotected fail ∈ es := by
  have h := same_as_c hs hmb hb hm c [.protectedWait fail, .reply c2 msg2] (by
    intro a ha
    simp only [List.mem_cons, List.not_mem_nil, or_false] at ha
    rcases ha with rfl | rfl
    · trivial
    · exact hm2)
  have hrun : ∃ st es, ReplyCap.server ⟨s.asserts, true⟩ s.slot c [.protectedWait fail, .reply c2] = some (st, es) ∧
      returned es = [] ∧ .unprotected fail ∈ es := by
    have hp : ∀ (st : St) (es : List Event), st.inTcb = true → st.slot = s.slot → ReplyCap.protect ⟨s.asserts, true⟩ fail st es =
        some ({ st with saveError := fail, inTcb := false }, .saved fail :: es) := by
      intro st es h1 h2
      unfold ReplyCap.protect
      rw [if_pos h1, if_neg (fun h => hs.slot.1 (h2.symm.trans h.2)), if_neg (by simp)]
      simp only [ReplyCap.saveCaller, ne_eq, hf, not_false_iff, if_true]
    simp only [ReplyCap.server, ReplyCap.beginRecv]
    rw [declare_works hs.slot.1 rfl, Option.bind_some]
    simp only [ReplyCap.steps, ReplyCap.step]
    rw [hp _ _ rfl rfl]
    simp only [Option.map_some, Option.bind_some, ReplyCap.replyRecv, ReplyCap.wait, Bool.false_eq_true, if_false]
    have hu : ∀ (st : St) (es : List Event), st.inTcb = false → ReplyCap.unprotect ⟨s.asserts, true⟩ st es =
        some ({ st with slot := if s.asserts = true then 0 else st.slot }, .unprotected st.saveError :: es) := by
      intro st es h1
      unfold ReplyCap.unprotect
      rw [if_neg (by simp [h1])]
    rw [hu _ _ rfl]
    simp only [ReplyCap.sendShadow, ReplyCap.beginRecv, ReplyCap.recv, ReplyCap.fresh]
    rw [declare_works hs.slot.1 rfl]
    exact ⟨_, _, rfl, rfl, by simp⟩
  obtain ⟨st, es, h1, h2, h3⟩ := hrun
  simp only [List.map_cons, List.map_nil, inC] at h
  rw [h1] at h
  obtain ⟨⟨t, es'⟩, h5, h6⟩ := Option.map_eq_some_iff.mp h
  simp only at h6
  subst h6
  exact ⟨t, es', h5, answers_in_turn h5, h2, h3⟩

/-! ### A concrete case -/

/-- A server on a 64-bit machine: endpoint 3, slot 300, CNode 5. -/
def demo : Server := ⟨8, 3, 300, 5, true, true, 3, 5⟩

theorem demo_ok : demo.Ok := ⟨.inr rfl, ⟨rfl, by decide⟩, ⟨rfl, by decide, by decide⟩, ⟨by decide, by decide⟩⟩

def demoMsg : Buf := List.replicate 1000 7

/-- Client 11 is answered after two waits, client 12 at once, client 13 after a wait; 14 is being served. -/
def demoActs : List Act :=
  [.protectedWait 0, .protectedWait 0, .reply 12 demoMsg, .reply 13 demoMsg, .protectedWait 0, .reply 14 demoMsg]

theorem demo_room : ∀ a ∈ demoActs, Room demo a := by
  intro a ha
  simp only [demoActs, List.mem_cons, List.not_mem_nil, or_false] at ha
  rcases ha with rfl | rfl | rfl | rfl | rfl | rfl <;> simp only [Room, demoMsg, List.length_replicate] <;> decide

/-- The hypotheses hold of a concrete server, and it answers as it should. -/
theorem demo_answers : ∃ t es, server demo demoMsg 11 demoMsg demoActs = some (t, es) ∧ returned es = [some 13, some 12, some 11] := by
  obtain ⟨t, es, h1, h2, _⟩ := answers_reach_partial demo_ok rfl (buf := demoMsg) (msg := demoMsg) (by rw [demoMsg, List.length_replicate]; decide) (by rw [demoMsg, List.length_replicate]; decide) 11 demoActs
    demo_room (by simp [demoActs, Protects])
  exact ⟨t, es, h1, h2⟩

/-- A server that cannot block, on a 32-bit machine. -/
def demoPlain : Server := ⟨4, 3, 9, 5, false, true, 3, 5⟩

theorem demo_plain : ∃ t es, server demoPlain demoMsg 11 demoMsg [.reply 12 demoMsg, .reply 11 demoMsg] = some (t, es) ∧
    returned es = [some 12, some 11] := by
  refine unblocked_answers (s := demoPlain) ⟨.inl rfl, ⟨rfl, by decide⟩, ⟨rfl, by decide, by decide⟩, ⟨by decide, by decide⟩⟩ rfl
    (by rw [demoMsg, List.length_replicate]; decide) (by rw [demoMsg, List.length_replicate]; decide) 11 _ ?_ ?_
  · intro a ha
    simp only [List.mem_cons, List.not_mem_nil, or_false] at ha
    rcases ha with rfl | rfl <;> simp only [Room, demoMsg, List.length_replicate] <;> decide
  · intro a ha
    simp only [List.mem_cons, List.not_mem_nil, or_false] at ha
    rcases ha with rfl | rfl <;> exact ⟨_, _, rfl⟩

end Verif.CakeReply
