import Verif.RtReply.Spec

/-!
# C137: system calls of a server on both kinds of kernels
-/

namespace Verif.RtReply

/-! ### The code is that of the kernel -/

theorem meaning_recv (k : Bool) (n : Names) : meaning k n { genRecv k n.ep n.badge n.reply with result := some n.info } = some .recv := by
  cases k <;> simp [genRecv, meaning, accepts, arity]

theorem meaning_replyRecv (k : Bool) (n : Names) :
    meaning k n { genReplyRecv k n.ep n.info n.badge n.reply with result := some n.info } = some .replyRecv := by
  cases k <;> simp [genReplyRecv, meaning, accepts, arity]

theorem exec_first_active (k : Bool) (n : Names) (c : Nat) (r : Run) : exec k n c (firstCode k false n) r = some (doRecv c r) := by
  simp only [firstCode, Bool.false_eq_true, if_false, exec, meaning_recv, sys]

theorem exec_begin (k : Bool) (n : Names) (c : Nat) (r : Run) : exec k n c (beginCode k n) r = some (doRecv c r) := by
  simp only [beginCode, exec, meaning_recv, sys]

theorem exec_reply (k : Bool) (n : Names) (c : Nat) (r : Run) : exec k n c (replyCode k n) r = some (doRecv c (doReply r)) := by
  simp only [replyCode, exec, meaning_replyRecv, sys]

theorem exec_first_passive (k : Bool) (n : Names) (c : Nat) (r : Run) :
    exec k n c (firstCode k true n) r = some (doRecv c { r with log := .ready k :: r.log }) := by
  cases k <;> simp [firstCode, genSignalRecv, exec, meaning, accepts, arity, sys]

/-- C137: what is generated for a kind of kernel compiles with that kernel's library, each statement. -/
theorem compiles (k passive : Bool) (n : Names) :
    ∀ c ∈ firstCode k passive n ++ beginCode k n ++ replyCode k n, accepts k c = true := by
  cases k <;> cases passive <;> simp [firstCode, genSignalRecv, beginCode, replyCode, genRecv, genReplyRecv, accepts, arity]

/-- C137: a server that was generated for the other kind of kernel does not compile: no such program is ever run. -/
theorem mismatch_refused (k passive : Bool) (n : Names) :
    (∃ c ∈ firstCode (!k) passive n, accepts k c = false) ∧ (∃ c ∈ beginCode (!k) n, accepts k c = false) ∧
    (∃ c ∈ replyCode (!k) n, accepts k c = false) := by
  cases k <;> cases passive <;> simp [firstCode, genSignalRecv, beginCode, replyCode, genRecv, genReplyRecv, accepts, arity]

/-! ### Each answer reaches its client -/

theorem returnedOf_append (a b : List Event) : returnedOf (a ++ b) = returnedOf b ++ returnedOf a := by
  simp [returnedOf]

theorem returnedOf_cons (e : Event) (l : List Event) : returnedOf (e :: l) =
    returnedOf l ++ (match e with | .returned c => [c] | _ => []) := by
  cases e <;> simp [returnedOf]

theorem gotOf_cons (e : Event) (l : List Event) : gotOf (e :: l) = gotOf l ++ (match e with | .got c => [c] | _ => []) := by
  cases e <;> simp [gotOf]

theorem readyOf_cons (e : Event) (l : List Event) : readyOf (e :: l) = readyOf l ++ (match e with | .ready b => [b] | _ => []) := by
  cases e <;> simp [readyOf]

theorem steps_correct (k : Bool) (n : Names) : ∀ (as : List Act) (c : Nat) (log : List Event), MayWait k as →
    ∃ c' log', steps k k n as ⟨some c, log⟩ = some ⟨some c', log'⟩ ∧
      returnedOf log' = returnedOf log ++ answeredOf (fates c as) ∧
      gotOf log' = gotOf log ++ nexts as ∧ readyOf log' = readyOf log
  | [], c, log, _ => ⟨c, log, rfl, by simp [fates, answeredOf], by simp [nexts], rfl⟩
  | .wait :: as, c, log, h => by
    have hk : k = true := by
      rcases h with h | h
      · exact h
      · exact absurd rfl (h .wait (by simp))
    obtain ⟨c', log', h1, h2, h3, h4⟩ := steps_correct k n as c (.waited :: log) (.inl hk)
    refine ⟨c', log', ?_, ?_, ?_, ?_⟩
    · simp only [steps, step, Option.bind_some, hk, if_true]
      rw [← hk]; exact h1
    · rw [h2, returnedOf_cons]; simp [fates]
    · rw [h3, gotOf_cons]; simp [nexts]
    · rw [h4, readyOf_cons]; simp
  | .reply d :: as, c, log, h => by
    have h' : MayWait k as := h.imp id (fun h a ha => h a (by simp [ha]))
    obtain ⟨c', log', h1, h2, h3, h4⟩ := steps_correct k n as d (.got d :: .returned c :: .answer :: log) h'
    refine ⟨c', log', ?_, ?_, ?_, ?_⟩
    · simp only [steps, step, exec_reply, doReply, doRecv, Option.bind_some]
      exact h1
    · rw [h2, returnedOf_cons, returnedOf_cons, returnedOf_cons]; simp [fates, answeredOf]
    · rw [h3, gotOf_cons, gotOf_cons, gotOf_cons]; simp [nexts]
    · rw [h4, readyOf_cons, readyOf_cons, readyOf_cons]; simp
  | .discard d :: as, c, log, h => by
    have h' : MayWait k as := h.imp id (fun h a ha => h a (by simp [ha]))
    obtain ⟨c', log', h1, h2, h3, h4⟩ := steps_correct k n as d (.got d :: .drop :: log) h'
    refine ⟨c', log', ?_, ?_, ?_, ?_⟩
    · simp only [steps, step, exec_begin, doRecv, Option.bind_some]
      exact h1
    · rw [h2, returnedOf_cons, returnedOf_cons]; simp [fates, answeredOf]
    · rw [h3, gotOf_cons, gotOf_cons]; simp [nexts]
    · rw [h4, readyOf_cons, readyOf_cons]; simp

theorem server_correct (k passive : Bool) (n : Names) (first : Nat) (as : List Act) (h : MayWait k as) :
    ∃ r, server k k passive n first as = some r ∧ returnedOf r.log = answeredOf (fates first as) ∧
      gotOf r.log = first :: nexts as ∧ readyOf r.log = (if passive then [k] else []) := by
  unfold server
  cases passive
  · obtain ⟨c, log, h1, h2, h3, h4⟩ := steps_correct k n as first [.got first] h
    refine ⟨_, by rw [exec_first_active]; exact h1, ?_, ?_, ?_⟩
    · rw [h2]; simp [returnedOf]
    · rw [h3]; simp [gotOf]
    · rw [h4]; simp [readyOf]
  · obtain ⟨c, log, h1, h2, h3, h4⟩ := steps_correct k n as first [.got first, .ready k] h
    refine ⟨_, by rw [exec_first_passive]; exact h1, ?_, ?_, ?_⟩
    · rw [h2]; simp [returnedOf]
    · rw [h3]; simp [gotOf]
    · rw [h4]; simp [readyOf]

/-- C137: on a real-time kernel, whatever its methods wait for, a server returns the call of each client that it
answers, once and in the order of the requests, and of no other. Nothing needs to be saved. -/
theorem realtime_answers (passive : Bool) (n : Names) (first : Nat) (as : List Act) :
    ∃ r, server true true passive n first as = some r ∧ returnedOf r.log = answeredOf (fates first as) := by
  obtain ⟨r, h1, h2, _⟩ := server_correct true passive n first as (.inl rfl)
  exact ⟨r, h1, h2⟩

/-- C137: on another kernel this holds of a component that cannot block. -/
theorem plain_answers (passive : Bool) (n : Names) (first : Nat) (as : List Act) (h : ∀ a ∈ as, a ≠ .wait) :
    ∃ r, server false false passive n first as = some r ∧ returnedOf r.log = answeredOf (fates first as) := by
  obtain ⟨r, h1, h2, _⟩ := server_correct false passive n first as (.inr h)
  exact ⟨r, h1, h2⟩

theorem nexts_fates : ∀ (as : List Act) (first : Nat), (first :: nexts as).dropLast = (fates first as).map (·.1)
  | [], _ => rfl
  | .wait :: as, first => nexts_fates as first
  | .reply d :: as, first => by simp only [nexts, fates, List.map_cons, List.dropLast_cons_cons, nexts_fates as d]
  | .discard d :: as, first => by simp only [nexts, fates, List.map_cons, List.dropLast_cons_cons, nexts_fates as d]

/-- C137: no request is lost or repeated: the server takes each of them once, in order. -/
theorem requests_in_order (k passive : Bool) (n : Names) (first : Nat) (as : List Act) (h : MayWait k as) (r : Run)
    (hr : server k k passive n first as = some r) : gotOf r.log = first :: nexts as ∧ (first :: nexts as).dropLast = (fates first as).map (·.1) := by
  obtain ⟨r', h1, _, h3, _⟩ := server_correct k passive n first as h
  rw [hr] at h1
  cases h1
  exact ⟨h3, nexts_fates as first⟩

/-- C137: a passive server tells the control thread once that it is ready; on a real-time kernel it is waiting for the
first request at that moment. An active server tells nothing. -/
theorem ready_once (k passive : Bool) (n : Names) (first : Nat) (as : List Act) (h : MayWait k as) (r : Run)
    (hr : server k k passive n first as = some r) : readyOf r.log = if passive then [k] else [] := by
  obtain ⟨r', h1, _, _, h4⟩ := server_correct k passive n first as h
  rw [hr] at h1
  cases h1
  exact h4

/-! ### What does not hold -/

/-- **Disagreement with C137.** The call of a client whose request is dropped for an error never returns: it is not told
of the error, on either kind of kernel. -/
theorem dropped_never_returns (k : Bool) (n : Names) (c d : Nat) (as : List Act) (h : MayWait k as) (hc : c ∉ nexts (.discard d :: as)) :
    ∃ r, server k k false n c (.discard d :: as) = some r ∧ c ∉ returnedOf r.log := by
  obtain ⟨r, h1, h2, _⟩ := server_correct k false n c (.discard d :: as) (h.imp id (by
    intro h a ha
    rcases List.mem_cons.mp ha with rfl | ha
    · simp
    · exact h a ha))
  refine ⟨r, h1, ?_⟩
  rw [h2]
  have key : ∀ (as : List Act) (e : Nat), e ≠ c → c ∉ nexts as → c ∉ (fates e as).map (·.1) := by
    intro as
    induction as with
    | nil => intro e _ _; simp [fates]
    | cons a as ih =>
      intro e he hn
      cases a with
      | wait => exact ih e he hn
      | reply d =>
        simp only [nexts, List.mem_cons, not_or] at hn
        simp only [fates, List.map_cons, List.mem_cons, not_or]
        exact ⟨fun h => he h.symm, ih d (fun h => hn.1 h.symm) hn.2⟩
      | discard d =>
        simp only [nexts, List.mem_cons, not_or] at hn
        simp only [fates, List.map_cons, List.mem_cons, not_or]
        exact ⟨fun h => he h.symm, ih d (fun h => hn.1 h.symm) hn.2⟩
  simp only [nexts, List.mem_cons, not_or] at hc
  have := key as d (fun h => hc.1 h.symm) hc.2
  intro hm
  apply this
  simp only [fates, answeredOf] at hm
  obtain ⟨x, hx, rfl⟩ := List.mem_map.mp hm
  rw [List.filter_cons_of_neg (by simp)] at hx
  exact List.mem_map.mpr ⟨x, (List.mem_filter.mp hx).1, rfl⟩

/-- Why the waits of other kernels need the care of C54: a wait without it loses the client. -/
theorem plain_wait_loses (n : Names) (c d : Nat) : ∃ r, server false false false n c [.wait, .reply d] = some r ∧
    answeredOf (fates c [.wait, .reply d]) = [c] ∧ returnedOf r.log = [] := by
  refine ⟨⟨some d, [.got d, .answer, .waited, .got c]⟩, ?_, by simp [fates, answeredOf], by simp [returnedOf]⟩
  simp only [server, exec_first_active, Option.bind_some, steps, step, exec_reply, doRecv, doReply]
  rfl

/-- On a kernel that is not real-time, a passive server is not yet waiting when it says that it is ready. -/
theorem plain_ready_early (n : Names) (first : Nat) : ∃ r, server false false true n first [] = some r ∧ readyOf r.log = [false] := by
  obtain ⟨r, h1, _, _, h4⟩ := server_correct false true n first [] (.inr (by simp))
  exact ⟨r, h1, h4⟩

/-! ### A concrete case -/

def demoNames : Names := ⟨"info", "6", "&a_badge", "7", "init_ntfn"⟩

/-- Client 1 is answered after two waits, client 2 is dropped, client 1 is answered again, client 3 is being served. -/
theorem demo : server true true true demoNames 1 [.wait, .wait, .reply 2, .discard 1, .wait, .reply 3] =
    some ⟨some 3, [.got 3, .returned 1, .answer, .waited, .got 1, .drop, .got 2, .returned 1, .answer, .waited, .waited, .got 1, .ready true]⟩ := by
  decide +kernel

theorem demo_mismatch : server true false false demoNames 1 [] = none ∧ server false true true demoNames 1 [] = none := by decide +kernel

end Verif.RtReply
