import Verif.SenderId.Spec
import Verif.Badges.Props
import Mathlib.Data.List.Induction

namespace Verif.SenderId

theorem run_append (g : Config) (a b : List Event) : ∀ s, run g s (a ++ b) = (run g s a).bind (fun s => run g s b) := by
  induction a with
  | nil => intro s; rfl
  | cons e a ih =>
    intro s
    simp only [List.cons_append, run]
    cases step g s e with
    | none => rfl
    | some s' => exact ih s'

theorem step_other {g : Config} {s s' : State} {e : Event} {i : Nat} (h : step g s e = some s') (he : ∀ d, e ≠ .called i d) : s'.var i = s.var i := by
  cases e with
  | done j b => simp only [step] at h; split at h <;> cases h; rfl
  | sent j => simp only [step] at h; split at h <;> cases h; rfl
  | called j c =>
    have hj : i ≠ j := fun e => he c (by rw [e])
    simp only [step] at h
    split at h
    · split at h <;> cases h
      simp [hj]
    · cases h

theorem run_other {g : Config} {i : Nat} : ∀ {es : List Event} {s s' : State}, run g s es = some s' → (∀ e ∈ es, ∀ d, e ≠ .called i d) → s'.var i = s.var i
  | [], s, s', h, _ => by cases h; rfl
  | e :: es, s, s', h, he => by
    simp only [run] at h
    split at h
    · cases h
    · rename_i s1 h1
      rw [run_other h (fun x hx => he x (List.mem_cons_of_mem _ hx)), step_other h1 (he e List.mem_cons_self)]

theorem step_called {g : Config} {s s' : State} {i c : Nat} (h : step g s (.called i c) = some s') :
    s'.var i = g.badge i c ∧ c < (g.explicit i).length := by
  simp only [step] at h
  split at h
  · rename_i hc
    split at h <;> cases h
    exact ⟨by simp, hc⟩
  · cases h

/-- **C145.** While a call is handled, the interface tells the badge of its client, whatever calls were handled before, however the threads of the
interfaces take turns, and however replies are sent. -/
theorem sender_is_caller (g : Config) (h : List Event) (s : State) (i c : Nat) (hr : run g (init g) h = some s) (hh : Handles i c h) :
    senderId s i = g.badge i c ∧ c < (g.explicit i).length := by
  obtain ⟨before, after, rfl, hafter⟩ := hh
  rw [run_append] at hr
  cases h1 : run g (init g) before with
  | none => rw [h1] at hr; cases hr
  | some s1 =>
    rw [h1] at hr
    simp only [Option.bind_some, run] at hr
    split at hr
    · cases hr
    · rename_i s2 h2
      have := step_called h2
      exact ⟨(run_other hr (fun e he => (hafter e he).1)).trans this.1, this.2⟩

theorem badge_get {g : Config} {i c : Nat} (hc : c < (g.explicit i).length) :
    (Badges.allocateBadges (g.explicit i))[c]? = some (some (g.badge i c)) := by
  obtain ⟨h1, h2, -⟩ := Badges.allocate_spec (g.explicit i)
  unfold Config.badge
  cases h : (Badges.allocateBadges (g.explicit i))[c]? with
  | none => rw [List.getElem?_eq_none_iff] at h; omega
  | some o =>
    cases o with
    | none => exact absurd h (h2 c)
    | some b => rfl

/-- **C145 (configured).** A client for which a badge is configured is known by it. -/
theorem configured_sender (g : Config) (h : List Event) (s : State) (i c b : Nat) (hr : run g (init g) h = some s) (hh : Handles i c h)
    (hb : (g.explicit i)[c]? = some (some b)) : senderId s i = b := by
  obtain ⟨h1, h2⟩ := sender_is_caller g h s i c hr hh
  have h3 := (Badges.allocate_spec (g.explicit i)).2.2.1 c b hb
  rw [badge_get h2] at h3
  rw [h1]
  exact Option.some.inj (Option.some.inj h3)

/-- **C145 (told apart).** If the configured badges are different, the same answer in two calls, in the same history or in two, means the same client. -/
theorem senders_told_apart_partial (g : Config) (i c d : Nat) (hd : g.Distinct i) (h k : List Event) (s t : State)
    (hr : run g (init g) h = some s) (kr : run g (init g) k = some t) (hh : Handles i c h) (kh : Handles i d k) :
    senderId s i = senderId t i ↔ c = d := by
  obtain ⟨h1, h2⟩ := sender_is_caller g h s i c hr hh
  obtain ⟨k1, k2⟩ := sender_is_caller g k t i d kr kh
  rw [h1, k1]
  refine ⟨fun e => ?_, fun e => by rw [e]⟩
  have hn := Badges.allocate_distinct_partial (g.explicit i) hd
  have e1 := badge_get h2
  have e2 := badge_get k2
  rw [← e] at e2
  have hl := (Badges.allocate_spec (g.explicit i)).1
  by_contra hne
  rw [List.nodup_iff_getElem?_ne_getElem?] at hn
  rcases Nat.lt_or_gt_of_ne hne with hlt | hlt
  · exact hn c d hlt (by omega) (by rw [e1, e2])
  · exact hn d c hlt (by omega) (by rw [e1, e2])

/-- **C145 (no call yet).** Before the first call of an interface the answer is 0; no client without a configured badge is known by 0. -/
theorem no_call_zero (g : Config) (h : List Event) (s : State) (i : Nat) (hr : run g (init g) h = some s)
    (hh : ∀ c, Event.called i c ∉ h) :
    senderId s i = 0 ∧ ∀ c, (g.explicit i)[c]? = some none → 0 < g.badge i c := by
  refine ⟨run_other hr (fun e he d hd => hh d (hd ▸ he)), fun c hc => ?_⟩
  have hl : c < (g.explicit i).length := (List.getElem?_eq_some_iff.mp hc).1
  exact ((Badges.allocate_spec (g.explicit i)).2.2.2 c _ hc (badge_get hl)).1

/-- The thread of an interface is in a method exactly if it has nothing to receive before it. -/
theorem inMethod_iff {g : Config} : ∀ {h : List Event} {s s' : State}, (∀ i, s.inMethod i = true ↔ s.todo i = []) →
    (∀ i, s.todo i ≠ [] → (s.todo i = [.send, .recv] ∨ ∃ c, c ≠ .send ∧ s.todo i = [c])) → run g s h = some s' →
    (∀ i, s'.inMethod i = true ↔ s'.todo i = []) ∧ ∀ i, s'.todo i ≠ [] → (s'.todo i = [.send, .recv] ∨ ∃ c, c ≠ .send ∧ s'.todo i = [c])
  | [], s, s', h1, h2, h => by cases h; exact ⟨h1, h2⟩
  | e :: es, s, s', h1, h2, h => by
    simp only [run] at h
    split at h
    · cases h
    · rename_i s1 hs
      have hr : ∀ i b, replyRecv g i b = [.send, .recv] ∨ replyRecv g i b = [.replyRecv] := by
        intro i b
        unfold replyRecv
        split
        · cases b <;> simp
        · simp
      refine inMethod_iff ?_ ?_ h
      · intro i
        cases e with
        | done j b =>
          simp only [step] at hs
          split at hs <;> cases hs
          by_cases hj : i = j
          · rcases hr j b with e | e <;> simp [hj, e]
          · simpa [hj] using h1 i
        | sent j =>
          simp only [step] at hs
          split at hs <;> cases hs
          rename_i rest ht
          by_cases hj : i = j
          · subst hj
            have := h2 i (by simp [ht])
            rw [ht] at this
            have hm : s.inMethod i = false := by
              have := h1 i; rw [ht] at this; simpa using this
            rcases this with e | ⟨c, hc, e⟩
            · cases e; simp [hm]
            · cases e; exact absurd rfl hc
          · simpa [hj] using h1 i
        | called j c =>
          simp only [step] at hs
          split at hs
          · split at hs <;> cases hs
            rename_i a rest hna ht
            by_cases hj : i = j
            · subst hj
              have := h2 i (by simp [ht])
              rw [ht] at this
              rcases this with e | ⟨c, hc, e⟩
              · cases e; exact absurd rfl hna
              · cases e; simp
            · simpa [hj] using h1 i
          · cases hs
      · intro i hi
        cases e with
        | done j b =>
          simp only [step] at hs
          split at hs <;> cases hs
          by_cases hj : i = j
          · rcases hr j b with e | e <;> simp [hj, e]
          · simpa [hj] using h2 i (by simpa [hj] using hi)
        | sent j =>
          simp only [step] at hs
          split at hs <;> cases hs
          rename_i rest ht
          by_cases hj : i = j
          · subst hj
            have := h2 i (by simp [ht])
            rw [ht] at this
            rcases this with e | ⟨c, hc, e⟩
            · cases e; exact .inr ⟨.recv, by simp, by simp⟩
            · cases e; exact absurd rfl hc
          · simpa [hj] using h2 i (by simpa [hj] using hi)
        | called j c =>
          simp only [step] at hs
          split at hs
          · split at hs <;> cases hs
            rename_i a rest hna ht
            by_cases hj : i = j
            · subst hj
              have := h2 i (by simp [ht])
              rw [ht] at this
              rcases this with e | ⟨c, hc, e⟩
              · cases e; exact absurd rfl hna
              · cases e; simp at hi
            · simpa [hj] using h2 i (by simpa [hj] using hi)
          · cases hs

theorem init_ok (g : Config) : (∀ i, (init g).inMethod i = true ↔ (init g).todo i = []) ∧
    ∀ i, (init g).todo i ≠ [] → ((init g).todo i = [.send, .recv] ∨ ∃ c, c ≠ .send ∧ (init g).todo i = [c]) := by
  constructor
  · intro i; simp only [init, recvFirst]; split <;> simp
  · intro i _; simp only [init, recvFirst]; split <;> simp

/-- **C145 (in methods).** Whenever the thread of an interface is in the implementation of a method, it handles the call of a client, and the answer is
that client's badge. -/
theorem sender_in_method (g : Config) (h : List Event) (s : State) (i : Nat) (hr : run g (init g) h = some s) (hm : s.inMethod i = true) :
    ∃ c, Handles i c h ∧ senderId s i = g.badge i c := by
  suffices hh : ∃ c, Handles i c h by
    obtain ⟨c, hc⟩ := hh
    exact ⟨c, hc, (sender_is_caller g h s i c hr hc).1⟩
  induction h using List.reverseRecOn generalizing s with
  | nil => cases hr; cases hm
  | append_singleton h e ih =>
    rw [run_append] at hr
    cases h1 : run g (init g) h with
    | none => rw [h1] at hr; cases hr
    | some s1 =>
      rw [h1] at hr
      simp only [Option.bind_some, run] at hr
      split at hr
      · cases hr
      · rename_i s2 h2
        cases hr
        by_cases hc : ∃ c, e = .called i c
        · obtain ⟨c, rfl⟩ := hc
          exact ⟨c, h, [], rfl, by simp⟩
        · have hkeep : s1.inMethod i = true ∧ ∀ b, e ≠ .done i b := by
            cases e with
            | done j b =>
              simp only [step] at h2
              split at h2 <;> cases h2
              by_cases hj : i = j
              · simp [hj] at hm
              · exact ⟨by simpa [hj] using hm, fun b' e => hj (by cases e; rfl)⟩
            | sent j => simp only [step] at h2; split at h2 <;> cases h2; exact ⟨hm, by simp⟩
            | called j c =>
              have hj : i ≠ j := fun e => hc ⟨c, by rw [e]⟩
              simp only [step] at h2
              split at h2
              · split at h2 <;> cases h2
                exact ⟨by simpa [hj] using hm, by simp⟩
              · cases h2
          obtain ⟨c, before, after, rfl, ha⟩ := ih s1 h1 hkeep.1
          refine ⟨c, before, after ++ [e], by simp, fun x hx => ?_⟩
          rcases List.mem_append.mp hx with hx | hx
          · exact ha x hx
          · rw [List.mem_singleton.mp hx]
            exact ⟨fun d hd => hc ⟨d, hd⟩, hkeep.2⟩

/-- **C145 (calls are received).** After every history, an interface that handles no call can receive one of every client, at most one reply later;
and one that handles a call receives no other. -/
theorem calls_received (g : Config) (h : List Event) (s : State) (i c : Nat) (hr : run g (init g) h = some s) (hc : c < (g.explicit i).length) :
    (s.inMethod i = false → (∃ t, run g s [.called i c] = some t ∧ t.inMethod i = true) ∨
      ∃ t, run g s [.sent i, .called i c] = some t ∧ t.inMethod i = true) ∧
    (s.inMethod i = true → run g s [.called i c] = none ∧ ∀ b, run g s [.done i b] ≠ none) := by
  obtain ⟨h1, h2⟩ := inMethod_iff (init_ok g).1 (init_ok g).2 hr
  constructor
  · intro hm
    have hne : s.todo i ≠ [] := fun e => by rw [(h1 i).mpr e] at hm; cases hm
    rcases h2 i hne with e | ⟨a, ha, e⟩
    · right; simp [run, step, e, hc]
    · left; cases a <;> simp_all [run, step]
  · intro hm
    have e := (h1 i).mp hm
    exact ⟨by simp [run, step, e], by simp [run, step, hm]⟩

/-- **Disagreement with C145.** Two clients with the same configured badge cannot be told apart. -/
theorem same_badge_confused : ∃ (g : Config) (h k : List Event) (s t : State), run g (init g) h = some s ∧ run g (init g) k = some t ∧
    Handles 0 0 h ∧ Handles 0 1 k ∧ senderId s 0 = senderId t 0 :=
  ⟨⟨false, fun _ => true, fun _ => false, fun _ => [some 5, some 5]⟩, [.called 0 0], [.called 0 1], _, _, rfl, rfl,
    ⟨[], [], rfl, by simp⟩, ⟨[], [], rfl, by simp⟩, rfl⟩

/-- **Disagreement with C145.** A client with the configured badge 0 cannot be told from none. -/
theorem zero_confused : ∃ (g : Config) (h : List Event) (s : State), g.Distinct 0 ∧ run g (init g) h = some s ∧ Handles 0 0 h ∧
    senderId s 0 = senderId (init g) 0 :=
  ⟨⟨false, fun _ => true, fun _ => false, fun _ => [some 0, none]⟩, [.called 0 0], _, by
    intro a b n ha hb
    have h0 : ∀ a n : Nat, [some 0, none][a]? = some (some n) → a = 0 := by
      intro a n h
      match a with
      | 0 => rfl
      | 1 => simp at h
      | a + 2 => simp at h
    rw [h0 a n ha, h0 b n hb], rfl, ⟨[], [], rfl, by simp⟩, rfl⟩

/-- Two interfaces, the first with three clients; the threads take turns. -/
def demo : Config := ⟨false, fun i => i == 0, fun i => i == 1, fun i => if i = 0 then [none, some 7, none] else [none]⟩

theorem demo_run : ((run demo (init demo) [.called 0 1, .called 1 0, .done 0 false, .sent 0, .called 0 2]).map (fun s => (senderId s 0, senderId s 1))) = some (2, 1) ∧
    Handles 1 0 [.called 0 1, .called 1 0, .done 0 false, .sent 0, .called 0 2] :=
  ⟨rfl, ⟨[.called 0 1], [.done 0 false, .sent 0, .called 0 2], rfl, by simp⟩⟩

end Verif.SenderId
