import Verif.CakeReply.Spec
import Verif.ReplyCap.Props
import Verif.CakeRpc.Lemmas

/-!
# Lemmas
-/

namespace Verif.CakeReply

open Verif.CakeRpc (Buf put intToBytes over put_ok over_drop over_length intToBytes_nat intToBytes_length)
open Verif.ReplyCap (St Event Build)
open Verif.Marshal (dec enc dec_enc enc_length)

theorem putCap_ok {ws cap : Nat} {a : Buf} (h : 1 + ws ≤ a.length) :
    putCap ws cap a = some (over a 1 (enc ws cap)) := by
  unfold putCap
  rw [intToBytes_nat, put_ok _ (by rw [enc_length]; exact h)]

theorem wordAt_over {ws cap : Nat} {a : Buf} (h : 1 + ws ≤ a.length) (hc : cap < 2 ^ (8 * ws)) :
    wordAt ws (over a 1 (enc ws cap)) 1 = some cap := by
  unfold wordAt
  rw [over_length (by rw [enc_length]; exact h), if_pos h, over_drop (by omega), List.take_left' (enc_length _ _), dec_enc _ _ hc]

theorem take_enc : ∀ (k n v : Nat), k ≤ n → (enc n v).take k = enc k v
  | 0, _, _, _ => by simp [enc]
  | k + 1, n + 1, v, h => by
    simp only [enc, List.take_succ_cons]
    rw [take_enc k n _ (by omega)]

theorem setCnode_ok {s : Server} (hs : s.Ok) (t : Thread) : setCnode s t = some { t with cnode := s.cnode } := by
  unfold setCnode wordAt
  have h8 : s.ws ≤ 8 := by rcases hs.ws with h | h <;> omega
  rw [intToBytes_nat, enc_length, if_pos (by omega)]
  simp only [List.drop_zero, Option.map_some]
  rw [take_enc _ _ _ h8, dec_enc _ _ hs.cnode.2.2]

theorem declare_ok {s : Server} (hs : s.Ok) (r : Run) :
    declare s r = (ReplyCap.declare ⟨s.asserts, decide (r.1.cnode ≠ 0)⟩ s.slot r.1.st r.2).map fun q => ({ r.1 with st := q.1 }, q.2) := by
  unfold declare
  rw [putCap_ok (by simp), Option.bind_some, wordAt_over (by simp) hs.slot.2, Option.bind_some]

theorem recv_ok {s : Server} (hs : s.Ok) (c : Nat) (msg : Buf) (r : Run) (hb : 1 + s.ws ≤ r.1.buf.length) :
    recv s c msg r = some ({ r.1 with st := (ReplyCap.recv c r.1.st r.2).1, buf := msg }, (ReplyCap.recv c r.1.st r.2).2) := by
  unfold recv
  rw [putCap_ok hb, Option.bind_some, wordAt_over hb hs.ep.2, Option.bind_some, if_pos hs.ep.1]

theorem replyRecv_ok {s : Server} (hs : s.Ok) (c : Nat) (msg : Buf) (r : Run) (hb : 1 + s.ws ≤ r.1.buf.length) :
    replyRecv s c msg r = some ({ r.1 with
      st := (ReplyCap.recv c (ReplyCap.replyTcb r.1.st r.2).1 (ReplyCap.replyTcb r.1.st r.2).2).1, buf := msg },
      (ReplyCap.recv c (ReplyCap.replyTcb r.1.st r.2).1 (ReplyCap.replyTcb r.1.st r.2).2).2) := by
  unfold replyRecv
  rw [putCap_ok hb, Option.bind_some, wordAt_over hb hs.ep.2, Option.bind_some]
  simp only
  rw [if_pos hs.ep.1]

theorem send_ok {s : Server} (hs : s.Ok) (r : Run) (hb : 1 + s.ws ≤ r.1.buf.length)
    (hin : r.1.st.shadow ≠ none → r.1.savedIn = s.slot) :
    ∃ a, 1 + s.ws ≤ a.length ∧ send s s.slot r =
      some ({ r.1 with st := (ReplyCap.sendShadow r.1.st r.2).1, buf := a }, (ReplyCap.sendShadow r.1.st r.2).2) := by
  refine ⟨over r.1.buf 1 (enc s.ws s.slot), by rw [over_length (by rw [enc_length]; exact hb)]; exact hb, ?_⟩
  unfold send
  rw [putCap_ok hb, Option.bind_some, wordAt_over hb hs.slot.2, Option.map_some]
  by_cases hsh : r.1.st.shadow = none
  · have : ReplyCap.sendShadow r.1.st r.2 = (r.1.st, r.2) := by unfold ReplyCap.sendShadow; rw [hsh]
    rw [this]
    split <;> rfl
  · rw [if_pos (hin hsh).symm]

/-- What holds of the thread between two actions. -/
structure Inv (s : Server) (t : Thread) : Prop where
  cnode : t.cnode = s.cnode
  buf : 1 + s.ws ≤ t.buf.length
  savedIn : t.st.shadow ≠ none → t.savedIn = s.slot
  slot : t.st.inTcb = true → t.st.slot = s.slot

/-- The build of the same server in C. -/
def build (s : Server) : Build := ⟨s.asserts, true⟩

theorem build_eq {s : Server} (hs : s.Ok) {c : Nat} (h : c = s.cnode) : (⟨s.asserts, decide (c ≠ 0)⟩ : Build) = build s := by
  subst h
  simp [build, hs.cnode.2.1]

/-- The two results are the same, seen from outside. -/
def Same (s : Server) (x : Option Run) (y : Option (St × List Event)) : Prop :=
  (y = none → x = none) ∧ ∀ st es, y = some (st, es) → ∃ t, x = some (t, es) ∧ t.st = st ∧ Inv s t

theorem same_declare {s : Server} (hs : s.Ok) {t : Thread} {es : List Event} (hc : t.cnode = s.cnode)
    (hb : 1 + s.ws ≤ t.buf.length) (hi : t.st.shadow ≠ none → t.savedIn = s.slot) :
    Same s (declare s (t, es)) (ReplyCap.declare (build s) s.slot t.st es) := by
  rw [declare_ok hs, build_eq hs hc]
  refine ⟨fun h => by simp only [h, Option.map_none], ?_⟩
  intro st es' h
  refine ⟨{ t with st := st }, by simp only [h, Option.map_some], rfl, ?_⟩
  unfold ReplyCap.declare at h
  split at h
  · cases h
  · simp only [Option.some.injEq, Prod.mk.injEq] at h
    obtain ⟨rfl, _⟩ := h
    exact ⟨hc, hb, hi, fun _ => rfl⟩

theorem first_same {s : Server} (hs : s.Ok) (hm : s.mightBlock = true) {buf msg : Buf} (hb : 1 + s.ws ≤ buf.length)
    (hm' : 1 + s.ws ≤ msg.length) (c : Nat) :
    Same s (first s c msg (fresh buf, [])) (ReplyCap.beginRecv (build s) s.slot c ReplyCap.fresh []) := by
  unfold first ReplyCap.beginRecv
  rw [if_pos hm, setCnode_ok hs, Option.bind_some, recv_ok hs _ _ _ hb, Option.bind_some]
  unfold saveReplyCap
  rw [if_pos hm]
  exact same_declare hs rfl hm' (fun h => absurd rfl h)

theorem replyTcb_shadow (st : St) (es : List Event) : (ReplyCap.replyTcb st es).1.shadow = st.shadow := by
  unfold ReplyCap.replyTcb
  cases st.tcb <;> rfl

theorem sendShadow_none (st : St) (es : List Event) : (ReplyCap.sendShadow st es).1.shadow = none := by
  unfold ReplyCap.sendShadow
  cases h : st.shadow
  · exact h
  · rfl

theorem reply_same {s : Server} (hs : s.Ok) (hm : s.mightBlock = true) {t : Thread} {es : List Event} (hi : Inv s t)
    {msg : Buf} (hm' : 1 + s.ws ≤ msg.length) (c : Nat) :
    Same s (replyNext s c msg (t, es)) (ReplyCap.replyRecv (build s) s.slot c t.st es) := by
  unfold replyNext ReplyCap.replyRecv
  simp only [hm, if_true]
  by_cases ht : t.st.inTcb = true
  · have hcl : clear s (t, .answer :: es) = some (({ t with st := { t.st with inTcb := false } }, .answer :: es), true) := by
      unfold clear ffiClear
      rw [if_pos ht]
      rfl
    rw [hcl, Option.bind_some, if_pos rfl, replyRecv_ok hs _ _ _ hi.buf, Option.bind_some]
    unfold saveReplyCap ReplyCap.beginRecv
    rw [if_pos hm, if_pos ht]
    refine same_declare hs hi.cnode hm' ?_
    intro h
    refine hi.savedIn ?_
    have := replyTcb_shadow { t.st with inTcb := false } (.answer :: es)
    simp only [ReplyCap.recv] at h
    rw [this] at h
    exact h
  · rw [if_neg ht]
    have hcl : clear s (t, .answer :: es) = (ReplyCap.unprotect (build s) t.st (.answer :: es)).map
        fun q => (({ t with st := q.1 }, q.2), false) := by
      unfold clear ffiClear
      rw [if_neg ht, build_eq hs hi.cnode]
      cases ReplyCap.unprotect (build s) t.st (.answer :: es) <;> rfl
    rw [hcl]
    cases hu : ReplyCap.unprotect (build s) t.st (.answer :: es) with
    | none =>
      refine ⟨fun _ => rfl, ?_⟩
      intro st es' h
      cases h
    | some q =>
      simp only [Option.map_some, Option.bind_some]
      have hsh : q.1.shadow = t.st.shadow := by
        unfold ReplyCap.unprotect at hu
        split at hu
        · cases hu
        · simp only [Option.some.injEq] at hu
          rw [← hu]
      rw [if_neg (by decide)]
      obtain ⟨a, ha, hse⟩ := send_ok hs ({ t with st := q.1 }, q.2) hi.buf (by
        intro h
        refine hi.savedIn ?_
        rw [← hsh]
        exact h)
      rw [hse, Option.bind_some, recv_ok hs _ _ _ ha, Option.bind_some]
      unfold saveReplyCap ReplyCap.beginRecv
      rw [if_pos hm]
      refine same_declare hs hi.cnode hm' ?_
      intro h
      exact absurd (sendShadow_none q.1 q.2) h

theorem protect_same {s : Server} (hs : s.Ok) {t : Thread} {es : List Event} (hi : Inv s t) (fail : Nat) :
    Same s (protect s fail (t, es)) (ReplyCap.protect (build s) fail t.st es) := by
  unfold protect
  rw [build_eq hs hi.cnode, if_pos (hi.cnode.trans hs.cnode.1)]
  refine ⟨fun h => by simp only [h, Option.map_none], ?_⟩
  intro st es' h
  refine ⟨{ t with st := st, savedIn := if st.shadow = t.st.shadow then t.savedIn else t.st.slot },
    by simp only [h, Option.map_some], rfl, ⟨hi.cnode, hi.buf, ?_, ?_⟩⟩
  · intro hne
    simp only at hne ⊢
    by_cases heq : st.shadow = t.st.shadow
    · rw [if_pos heq]
      exact hi.savedIn (by rw [← heq]; exact hne)
    · rw [if_neg heq]
      refine hi.slot ?_
      unfold ReplyCap.protect at h
      by_cases ht : t.st.inTcb = true
      · exact ht
      · rw [if_neg ht] at h
        simp only [Option.some.injEq, Prod.mk.injEq] at h
        rw [h.1] at heq
        exact absurd rfl heq
  · intro ht
    simp only at ht ⊢
    unfold ReplyCap.protect at h
    split at h
    · split at h
      · cases h
      · split at h
        · simp only [Option.some.injEq, Prod.mk.injEq] at h
          rw [← h.1] at ht
          cases ht
        · simp only [Option.some.injEq, Prod.mk.injEq] at h
          rw [← h.1] at ht
          cases ht
    · simp only [Option.some.injEq, Prod.mk.injEq] at h
      rw [← h.1] at ht ⊢
      exact hi.slot ht

theorem step_same {s : Server} (hs : s.Ok) (hm : s.mightBlock = true) {t : Thread} {es : List Event} (hi : Inv s t)
    (a : Act) (hr : Room s a) : Same s (step s a (t, es)) (ReplyCap.step (build s) s.slot (inC a) t.st es) := by
  cases a with
  | reply c msg => exact reply_same hs hm hi hr c
  | cakeWait =>
    refine ⟨fun h => by simp [inC, ReplyCap.step] at h, ?_⟩
    intro st es' h
    simp only [inC, ReplyCap.step, Option.some.injEq, ReplyCap.wait, Prod.mk.injEq] at h
    obtain ⟨rfl, rfl⟩ := h
    exact ⟨_, rfl, rfl, ⟨hi.cnode, hi.buf, hi.savedIn, hi.slot⟩⟩
  | protectedWait fail =>
    have h := protect_same hs hi fail (es := es)
    simp only [step, inC, ReplyCap.step]
    refine ⟨fun hn => ?_, ?_⟩
    · rw [h.1 (by simpa using hn)]
      rfl
    · intro st es' he
      obtain ⟨⟨st1, es1⟩, h1, h2⟩ := Option.map_eq_some_iff.mp he
      obtain ⟨t1, ht1, rfl, hi1⟩ := h.2 _ _ h1
      simp only [ReplyCap.wait, Prod.mk.injEq] at h2
      obtain ⟨rfl, rfl⟩ := h2
      rw [ht1]
      exact ⟨_, rfl, rfl, ⟨hi1.cnode, hi1.buf, hi1.savedIn, hi1.slot⟩⟩

theorem steps_same {s : Server} (hs : s.Ok) (hm : s.mightBlock = true) : ∀ (as : List Act) (t : Thread) (es : List Event),
    Inv s t → (∀ a ∈ as, Room s a) → Same s (steps s as (t, es)) (ReplyCap.steps (build s) s.slot (as.map inC) t.st es)
  | [], t, es, hi, _ => by
    refine ⟨fun h => (by cases h), ?_⟩
    intro st es' h
    simp only [List.map_nil, ReplyCap.steps, Option.some.injEq, Prod.mk.injEq] at h
    obtain ⟨rfl, rfl⟩ := h
    exact ⟨t, rfl, rfl, hi⟩
  | a :: as, t, es, hi, hr => by
    have h := step_same hs hm hi a (hr a (by simp)) (es := es)
    simp only [steps, List.map_cons, ReplyCap.steps]
    cases hx : ReplyCap.step (build s) s.slot (inC a) t.st es with
    | none =>
      rw [h.1 hx]
      exact ⟨fun _ => rfl, fun _ _ h => (by cases h)⟩
    | some q =>
      obtain ⟨t1, ht1, he, hi1⟩ := h.2 q.1 q.2 hx
      rw [ht1, Option.bind_some, Option.bind_some, ← he]
      exact steps_same hs hm as t1 q.2 hi1 (fun x hx => hr x (by simp [hx]))

end Verif.CakeReply
