import Verif.Startup.Stuck

/-!
# C62: initialisation functions run in order, and every interface gets started

For every component, every number of interfaces, passive or not, and every schedule.
-/

namespace Verif.Startup

/-! ## Order -/

theorem done_of_past {c : Config} {s : State} (h : Reach c s) (hw : (s.rest 0).count (.wait .ini) ≤ 1) (i : Nat) (hi : i < c.ifaces.length) : .init i ∈ s.trace :=
  have f := iface_facts h i hi
  f.2.2 (f.1 (all_done h hw i hi)).2

/-- Under every schedule the functions of the user start in the right order, and at most once each. -/
theorem ordered (c : Config) (schedule : List Nat) : Ordered c.ifaces.length (run c (start c) schedule).trace := by
  have hr : Reach c (run c (start c) schedule) := run_reach c schedule _ .start
  generalize run c (start c) schedule = s at hr
  -- an interface thread that runs has an interface
  have inr : ∀ {s : State}, Reach c s → ∀ i a r, s.rest (i + 1) = .act a :: r → (a = .init i ∨ a = .run i ∨ a = .serve i) → i < c.ifaces.length := by
    intro s h i a r h1 ha
    have hm : .act a ∈ program c (i + 1) := (reach_suffix h _).subset (h1 ▸ List.mem_cons_self)
    rcases act_cases c _ a hm with ⟨h0, _⟩ | ⟨j, hj, hlt, _⟩ | ⟨_, rfl, _⟩
    · cases h0
    · cases hj; exact hlt
    · rcases ha with h | h | h <;> cases h
  have late : ∀ {s : State}, Reach c s → ∀ i, (hi : i < c.ifaces.length) → (∃ p x, x :: p <:+ servePart c i c.ifaces[i] ∧ s.rest (i + 1) = (x :: p) ++ [.wait .pre, .act (.escape i)]) →
      .postInit ∈ s.trace := by
    intro s h i hi ⟨p, x, hp, g⟩
    have : (s.rest (i + 1)).count (.wait .post) = 0 := by
      rw [g, List.count_append]
      have h1 := hp.sublist.count_le (.wait .post)
      rw [serve_count c i _ _ (by simp) (by simp) (by simp)] at h1
      have e : ([.wait .pre, .act (.escape i)] : List Instr).count (.wait .post) = 0 := by simp
      omega
    exact (past_post h (ran_past h i hi this)).2
  constructor
  · intro i
    refine only_after (c := c) _ _ ?_ hr
    intro s h r h1 b hb
    rw [List.mem_singleton] at hb
    subst hb
    change s.rest (i + 1) = _ at h1
    have hi := inr h i _ r h1 (.inl rfl)
    refine pre_done h (.inl ⟨i, hi, ?_⟩)
    have hs := reach_suffix h (i + 1)
    rw [program_iface c i hi] at hs
    have zw := serve_count c i c.ifaces[i] (.wait .pre) (by simp) (by simp) (by simp)
    rcases iface_cases c i _ hs with g | g | g | g | ⟨p, y, hp', g⟩ | g | g | g
    · rw [h1] at g; cases g
    · rw [g]; simp [List.count_cons, zw]
    · rw [h1] at g; cases g
    · rw [h1] at g; cases g
    · rw [h1] at g
      injection g with g1 g2
      rcases serve_cases c i _ hp' with ⟨_, h4 | h4 | h4⟩ | ⟨_, h4⟩ <;> rw [← g1] at h4 <;> cases h4
    · rw [h1] at g; cases g
    · rw [h1] at g; cases g
    · rw [h1] at g; cases g
  · refine only_after (c := c) _ _ ?_ hr
    intro s h r h1 b hb
    obtain ⟨i, hi, rfl⟩ := List.mem_map.mp hb
    rw [List.mem_range] at hi
    change s.rest 0 = _ at h1
    refine done_of_past h ?_ i hi
    rcases control_cases h with ⟨p, x, hp, g⟩ | g | g
    · exfalso
      rw [h1] at g
      injection g with g1 g2
      have : x ∈ before c := hp.subset List.mem_cons_self
      rw [← g1] at this
      exact absurd this (List.count_eq_zero.mp (before_counts c).2.2.2.2.2.2)
    · rw [g, List.count_cons, (after_counts c).2.1]; simp
    · exfalso
      have : .act .postInit ∈ after c := g.subset (h1 ▸ List.mem_cons_self)
      exact absurd this (List.count_eq_zero.mp (after_counts c).2.2.2.2.2.2)
  · intro i
    refine only_after (c := c) _ _ ?_ hr
    intro s h r h1 b hb
    rw [List.mem_singleton] at hb
    subst hb
    change s.rest (i + 1) = _ at h1
    have hi := inr h i _ r h1 (.inr (.inl rfl))
    have hs := reach_suffix h (i + 1)
    rw [program_iface c i hi] at hs
    rcases iface_cases c i _ hs with g | g | g | g | g | g | g | g
    · rw [h1] at g; cases g
    · rw [h1] at g; cases g
    · rw [h1] at g; cases g
    · rw [h1] at g; cases g
    · exact late h i hi g
    · rw [h1] at g; cases g
    · rw [h1] at g; cases g
    · rw [h1] at g; cases g
  · intro i
    refine only_after (c := c) _ _ ?_ hr
    intro s h r h1 b hb
    rw [List.mem_singleton] at hb
    subst hb
    change s.rest (i + 1) = _ at h1
    have hi := inr h i _ r h1 (.inr (.inr rfl))
    have hs := reach_suffix h (i + 1)
    rw [program_iface c i hi] at hs
    rcases iface_cases c i _ hs with g | g | g | g | g | g | g | g
    · rw [h1] at g; cases g
    · rw [h1] at g; cases g
    · rw [h1] at g; cases g
    · rw [h1] at g; cases g
    · exact late h i hi g
    · rw [h1] at g; cases g
    · rw [h1] at g; cases g
    · rw [h1] at g; cases g
  · refine only_after (c := c) _ _ ?_ hr
    intro s h r h1 b hb
    rw [List.mem_singleton] at hb
    subst hb
    change s.rest 0 = _ at h1
    refine (past_post h ?_).2
    intro hm
    rcases control_cases h with ⟨p, x, hp, g⟩ | g | g
    · rw [h1] at g
      injection g with g1 g2
      have : x ∈ before c := hp.subset List.mem_cons_self
      rw [← g1] at this
      unfold before preSync at this
      simp at this
    · rw [h1] at g; cases g
    · exact absurd (g.subset hm) (List.count_eq_zero.mp (after_counts c).2.2.2.2.2.2)
  · refine only_after (c := c) _ _ ?_ hr
    intro s h r h1 b hb
    rw [List.mem_singleton] at hb
    subst hb
    change s.rest (c.ifaces.length + 1) = _ at h1
    refine pre_done h (.inr ?_)
    have hs := reach_suffix h (c.ifaces.length + 1)
    rw [program_fault, h1] at hs
    unfold faultProgram at hs
    unfold extra
    cases hf : c.faultHandler with
    | false => rw [hf] at hs; simp at hs
    | true =>
      rw [hf] at hs
      simp [List.suffix_cons_iff] at hs
      rw [h1, hs]
      simp
  · exact (reach_once hr).1

/-! ## Threads that are finished -/

theorem past_all {c : Config} {s : State} (h : Reach c s) (i : Nat) (hi : i < c.ifaces.length) (he : .escape i ∈ s.trace) :
    (s.rest (i + 1)).count (.wait .pre) = 0 ∧ ∀ j, j < c.ifaces.length → (s.rest (j + 1)).count (.wait .pre) ≤ 1 := by
  have h1 := ((reach_once h).2 _ he).2
  change .act (.escape i) ∉ s.rest (i + 1) at h1
  have hs := reach_suffix h (i + 1)
  rw [program_iface c i hi] at hs
  have g : s.rest (i + 1) = [] := by
    rcases iface_cases c i _ hs with g | g | g | g | ⟨_, _, _, g⟩ | g | g | g
    all_goals first
      | exact g
      | (exfalso; apply h1; rw [g]; simp)
  refine ⟨by rw [g]; rfl, ?_⟩
  intro j hj
  have hp := ran_past h i hi (by rw [g]; rfl)
  have hw := (after_facts h hp).1
  exact ((iface_facts h j hj).1 (all_done h hw j hj)).1

theorem escape_lt {c : Config} {s : State} (h : Reach c s) (i : Nat) (he : .escape i ∈ s.trace) : i < c.ifaces.length := by
  have h1 := ((reach_once h).2 _ he).1
  rcases act_cases c _ _ h1 with ⟨h0, _⟩ | ⟨j, hj, hlt, h2⟩ | ⟨_, h2, _⟩
  · cases h0
  · cases hj; exact hlt
  · cases h2

theorem sum_bound {n : Nat} {f : Nat → Nat} (hf : ∀ j < n, f j ≤ 1) {L : List Nat} (hn : L.Nodup) (hL : ∀ i ∈ L, i < n ∧ f i = 0) :
    ∑ i ∈ Finset.range n, f i + L.length ≤ n := by
  have h1 := length_le_sum (n := n) (f := fun i => 1 - f i) hn (fun j hj => ⟨(hL j hj).1, by have := (hL j hj).2; omega⟩)
  have h2 : ∑ i ∈ Finset.range n, f i + ∑ i ∈ Finset.range n, (1 - f i) = n := by
    rw [← Finset.sum_add_distrib, sum_const n 1 _ (fun i hi => by have := hf i hi; omega)]
    omega
  omega

theorem control_stays {c : Config} {s : State} (h : Reach c s) : .escapeControl ∉ s.trace := by
  intro he
  have h1 := ((reach_once h).2 _ he).2
  change .act .escapeControl ∉ s.rest 0 at h1
  have e := eq_ini h
  have hp := place h
  generalize hl : s.rest 0 = l at hp
  rw [hl] at h1 e
  cases hp with
  | empty => simp at e
  | start => rw [control_eq] at h1; simp [PF, after, postSync] at h1
  | posting k => simp [PF, after] at h1
  | waiting k _ => simp [PF, after] at h1
  | pbind => simp [PF, after] at h1
  | ppost => simp [PF, after] at h1
  | pwait => simp [PF, after] at h1
  | punbind => simp [PF, after] at h1
  | postInit => simp [PF, after] at h1
  | letting k _ => simp [QF, tail] at h1
  | qbind => simp [QF, tail] at h1
  | qwait => simp [QF, tail] at h1
  | qunbind => simp [QF, tail] at h1
  | control => simp [tail] at h1
  | ended => simp at h1
  | escaping => simp at h1

/-- Without a fault handler no thread ever returns from `post_main`. -/
theorem no_escape_partial (c : Config) (hf : c.faultHandler = false) (schedule : List Nat) : NoEscape (run c (start c) schedule).trace := by
  have h : Reach c (run c (start c) schedule) := run_reach c schedule _ .start
  refine ⟨fun i he => ?_, control_stays h⟩
  have hi := escape_lt h i he
  obtain ⟨h1, h2⟩ := past_all h i hi he
  have e := eq_pre h
  have hfb := rest_le h (c.ifaces.length + 1) (.wait .pre)
  rw [(fault_counts c).2.2.2.1, extra, hf] at hfb
  have := sum_bound h2 (L := [i]) (by simp) (by simpa using ⟨hi, h1⟩)
  simp at this hfb
  omega

/-- With a fault handler at most one interface thread returns, and then the fault handler never runs: the
thread took its turn. -/
theorem escape_excludes_handler (c : Config) (schedule : List Nat) (i : Nat) (he : .escape i ∈ (run c (start c) schedule).trace) :
    .handle ∉ (run c (start c) schedule).trace ∧ (∀ j, .escape j ∈ (run c (start c) schedule).trace → j = i) ∧ .escapeControl ∉ (run c (start c) schedule).trace := by
  have h : Reach c (run c (start c) schedule) := run_reach c schedule _ .start
  generalize run c (start c) schedule = s at h he
  have hi := escape_lt h i he
  obtain ⟨h1, h2⟩ := past_all h i hi he
  have e := eq_pre h
  have hfb := rest_le h (c.ifaces.length + 1) (.wait .pre)
  rw [(fault_counts c).2.2.2.1] at hfb
  have hex : extra c ≤ 1 := by unfold extra; split <;> omega
  have hb := sum_bound h2 (L := [i]) (by simp) (by simpa using ⟨hi, h1⟩)
  rw [List.length_singleton] at hb
  refine ⟨?_, ?_, control_stays h⟩
  · intro hh
    obtain ⟨a1, a2⟩ := (reach_once h).2 _ hh
    change .act .handle ∈ program c (c.ifaces.length + 1) at a1
    change .act .handle ∉ s.rest (c.ifaces.length + 1) at a2
    have hs := reach_suffix h (c.ifaces.length + 1)
    rw [program_fault] at hs a1
    unfold faultProgram at hs a1
    split at a1
    · rename_i hf
      rw [if_pos hf] at hs
      simp only [List.suffix_cons_iff, List.suffix_nil] at hs
      rcases hs with g | g | g
      · rw [g] at a2; simp at a2
      · rw [g] at a2; simp at a2
      · rw [g] at e; simp at e; omega
    · cases a1
  · intro j hj
    by_contra hne
    have hjl := escape_lt h j hj
    have hj0 := (past_all h j hjl hj).1
    have := sum_bound h2 (L := [i, j]) (by simp; exact fun e => hne e.symm) (by
      intro k hk
      simp at hk
      rcases hk with rfl | rfl
      · exact ⟨hi, h1⟩
      · exact ⟨hjl, hj0⟩)
    simp at this
    omega

/-! ## Progress -/

theorem right_of_plain {c : Config} (h : PlainNames c) : Right c := by
  obtain ⟨h1, h2⟩ := h
  intro i hi
  unfold takesPassive
  rw [h1]
  cases hp : c.ifaces[i].passive with
  | true =>
    rw [List.any_eq_true]
    exact ⟨c.ifaces[i], List.getElem_mem hi, by simp [hp]⟩
  | false =>
    rw [List.any_eq_false]
    intro u hu
    obtain ⟨j, hj, rfl⟩ := List.getElem_of_mem hu
    intro hh
    simp at hh
    have : j = i := by
      refine (List.Nodup.getElem_inj_iff h2 (i := j) (j := i) (hi := by simpa) (hj := by simpa)).mp ?_
      simpa using hh.2
    subst this
    rw [hp] at hh
    exact absurd hh.1 (by simp)

theorem run_of_signal {c : Config} {s : State} (h : Reach c s) (i : Nat) (hi : i < c.ifaces.length) (ht : takesPassive c c.ifaces[i] = true)
    (h0 : (s.rest (i + 1)).count .signal = 0) : .run i ∈ s.trace := by
  rcases reach_acts h (i + 1) (.run i) (by rw [program_iface c i hi]; simp [ifaceProgram, servePart, ht]) with h1 | h1
  · exfalso
    have hs := reach_suffix h (i + 1)
    rw [program_iface c i hi] at hs
    rcases iface_cases c i _ hs with g | g | g | g | ⟨p, y, hp', g⟩ | g | g | g
    · rw [g, servePart, ht] at h0; simp at h0
    · rw [g, servePart, ht] at h0; simp at h0
    · rw [g, servePart, ht] at h0; simp at h0
    · rw [g, servePart, ht] at h0; simp at h0
    · rcases serve_cases c i _ hp' with ⟨_, h4 | h4 | h4⟩ | ⟨h5, _⟩
      · rw [g, h4] at h0; simp at h0
      · rw [g, h4] at h0; simp at h0
      · rw [g, h4] at h1; simp at h1
      · rw [ht] at h5; cases h5
    · rw [g] at h1; simp at h1
    · rw [g] at h1; simp at h1
    · rw [g] at h1; simp at h1
  · exact h1

/-- If the names are plain, passive interfaces have started when `run` of the control thread starts. -/
theorem passive_first (c : Config) (hn : PlainNames c) (schedule : List Nat) (i : Nat) (t : Iface) (hi : c.ifaces[i]? = some t) (hp : t.passive = true) :
    OnlyAfter (run c (start c) schedule).trace .control [.run i] := by
  have hr : Reach c (run c (start c) schedule) := run_reach c schedule _ .start
  refine only_after (c := c) _ _ ?_ hr
  intro s h r h1 b hb
  rw [List.mem_singleton] at hb
  subst hb
  obtain ⟨hlt, rfl⟩ := List.getElem?_eq_some_iff.mp hi
  have hR := right_of_plain hn
  refine run_of_signal h i hlt (by rw [hR i hlt]; exact hp) (done_post hR h i hlt ?_)
  change s.rest 0 = _ at h1
  have hpl := place h
  generalize hl : s.rest 0 = l at hpl
  rw [hl] at h1
  cases hpl with
  | start => rw [control_eq] at h1; cases h1
  | posting k => cases h1
  | waiting k _ => cases h1
  | postInit => cases h1
  | letting k _ => cases h1
  | control => simp [tail]
  | _ => cases h1

/-- If the names are plain, an execution that cannot go on has started everything. -/
theorem stuck_started (c : Config) (hn : PlainNames c) (schedule : List Nat) (hst : Stuck c (run c (start c) schedule)) :
    AllStarted c (run c (start c) schedule).trace := by
  have h : Reach c (run c (start c) schedule) := run_reach c schedule _ .start
  generalize run c (start c) schedule = s at h hst
  have h0 := stuck_control (right_of_plain hn) h hst
  have hpost : .act .postInit ∉ s.rest 0 := by rcases h0 with h0 | h0 <;> rw [h0] <;> simp
  have hctl : .act .control ∉ s.rest 0 := by rcases h0 with h0 | h0 <;> rw [h0] <;> simp
  have hpre : .act .preInit ∉ s.rest 0 := by rcases h0 with h0 | h0 <;> rw [h0] <;> simp
  have hin := (after_facts h hpost).1
  refine ⟨?_, (past_post h hpost).2, ?_, ?_⟩
  · rcases reach_acts h 0 .preInit (by simp [program, controlProgram]) with h1 | h1
    · exact absurd h1 hpre
    · exact h1
  · rcases reach_acts h 0 .control (by simp [program, controlProgram]) with h1 | h1
    · exact absurd h1 hctl
    · exact h1
  · intro i hi
    refine ⟨done_of_past h hin i hi, ?_⟩
    cases hp : c.ifaces[i].passive with
    | true =>
      refine run_of_signal h i hi (by rw [right_of_plain hn i hi]; exact hp) (done_post (right_of_plain hn) h i hi ?_)
      rcases h0 with h0 | h0 <;> rw [h0] <;> simp
    | false =>
    have htake : takesPassive c c.ifaces[i] = false := by rw [right_of_plain hn i hi]; exact hp
    have hrun : canRun c s (i + 1) = true := by
      simp only [canRun]; rw [List.getElem?_eq_getElem hi]; simp [hp]
    rcases reach_acts h (i + 1) (.run i) (by rw [program_iface c i hi]; simp [ifaceProgram, servePart, htake]) with h1 | h1
    · exfalso
      have hd := all_done h hin i hi
      have hs := reach_suffix h (i + 1)
      rw [program_iface c i hi] at hs
      rcases iface_cases c i _ hs with g | g | g | g | ⟨p, y, hp', g⟩ | g | g | g
      · rw [g] at hd; simp at hd
      · rw [g] at hd; simp at hd
      · rw [g] at hd; simp at hd
      · rcases stuck_head (hst (i + 1)) hrun g with ⟨m, hm, hz⟩ | ⟨hm, _⟩ | ⟨_, hm, _⟩
        · cases hm
          have ep := eq_post h
          have : (s.rest 0).count (.post .post) = 0 := by rcases h0 with h0 | h0 <;> rw [h0] <;> simp
          rw [hz, this] at ep
          have hw : List.count (.wait .post) (s.rest (i + 1)) ≠ 0 := by rw [g]; simp
          exact hw (Finset.sum_eq_zero_iff.mp ep.symm i (Finset.mem_range.mpr hi))
        · cases hm
        · cases hm
      · rw [List.cons_append] at g
        rcases stuck_head (hst (i + 1)) hrun g with ⟨m, hm', hz'⟩ | ⟨hm', _⟩ | ⟨_, hm', _⟩ <;>
          rcases serve_cases c i _ hp' with ⟨_, h4 | h4 | h4⟩ | ⟨_, h4⟩ <;> cases h4 <;> cases hm'
      · rw [g] at h1; simp at h1
      · rw [g] at h1; simp at h1
      · rw [g] at h1; simp at h1
    · exact h1

/-- How many instructions are left. -/
def left (c : Config) (s : State) : Nat := ∑ k ∈ Finset.range (size c), (s.rest k).length

theorem left_step {c : Config} {s s' : State} {k : Nat} (h : Reach c s) (hk : step c s k = some s') : left c s' < left c s := by
  have hlt := step_lt h hk
  obtain ⟨x, r, h1, _, h2, _⟩ := step_some hk
  refine Finset.sum_lt_sum (fun j _ => ?_) ⟨k, Finset.mem_range.mpr hlt, ?_⟩
  · rw [h2]; beta_reduce
    split
    · rename_i hj; subst hj; rw [h1]; simp
    · exact le_refl _
  · rw [h2, h1]; simp

/-- Every execution can be continued until nothing can run any more. -/
theorem can_finish (c : Config) (schedule : List Nat) : ∃ more, Stuck c (run c (start c) (schedule ++ more)) := by
  have : ∀ (n : Nat) (s : State), Reach c s → left c s ≤ n → ∃ more, Stuck c (run c s more) := by
    intro n
    induction n with
    | zero =>
      intro s h hl
      refine ⟨[], fun k => ?_⟩
      change step c s k = none
      cases hs : step c s k with
      | none => rfl
      | some s' => have := left_step h hs; omega
    | succ n ih =>
      intro s h hl
      by_cases hst : Stuck c s
      · exact ⟨[], hst⟩
      · simp only [Stuck, not_forall] at hst
        obtain ⟨k, hk⟩ := hst
        obtain ⟨s', hs⟩ := Option.ne_none_iff_exists'.mp hk
        obtain ⟨more, hm⟩ := ih s' (.step k h hs) (by have := left_step h hs; omega)
        exact ⟨k :: more, by rw [run, hs]; exact hm⟩
  obtain ⟨more, hm⟩ := this _ _ (run_reach c schedule _ .start) (le_refl _)
  exact ⟨more, by rw [run_append]; exact hm⟩

/-- No execution goes on for ever. -/
theorem not_endless (c : Config) : ¬ Endless c := by
  rintro ⟨f, h0, hf⟩
  have hreach : ∀ n, Reach c (f n) := by
    intro n
    induction n with
    | zero => rw [h0]; exact .start
    | succ n ih => obtain ⟨k, hk⟩ := hf n; exact .step k ih hk
  have hdec : ∀ n, left c (f (n + 1)) < left c (f n) := by
    intro n
    obtain ⟨k, hk⟩ := hf n
    exact left_step (hreach n) hk
  have : ∀ n, left c (f n) + n ≤ left c (f 0) := by
    intro n
    induction n with
    | zero => omega
    | succ n ih => have := hdec n; omega
  have := this (left c (f 0) + 1)
  omega

/-! ## The witnesses -/

/-- A component with an event interface, a passive procedure and a second procedure. -/
def demo : Config := ⟨"comp".toList, [⟨"ev".toList, 0, false⟩, ⟨"rpc".toList, 0, true⟩, ⟨"rpc2".toList, 0, false⟩], false⟩

example : PlainNames demo := by constructor <;> decide

/-- One schedule of it. -/
def demoSchedule : List Nat := [0, 0, 0, 3, 1, 3, 1, 1, 3, 0, 0, 0, 0, 2, 2, 2, 0, 0, 0, 0, 0, 0, 1, 0, 2, 2, 2, 3, 0, 1, 0, 3, 0]

set_option maxRecDepth 4000 in
example : AllStarted demo (run demo (start demo) demoSchedule).trace := by
  refine ⟨by decide, by decide, by decide, ?_⟩
  decide

/-- **Full C62 fails with a fault handler**: an interface thread can take the turn of the fault handler and
return from `post_main`; faults are then never handled. -/
theorem fault_handler_lost : ∃ c schedule i, PlainNames c ∧ .escape i ∈ (run c (start c) schedule).trace := by
  refine ⟨⟨"c".toList, [⟨"e".toList, 0, false⟩], true⟩, [0, 0, 0, 1, 1, 1, 0, 0, 0, 1, 1, 1, 1], 0, ?_, by decide⟩
  constructor <;> decide

theorem sanitize_length (l : List Char) : (sanitize l).length = l.length := by simp [sanitize]

theorem not_taken {c : Config} (h : sanitize c.inst ≠ c.inst) (t : Iface) : takesPassive c t = false := by
  unfold takesPassive
  rw [List.any_eq_false]
  intro u _ hh
  simp only [Bool.and_eq_true, decide_eq_true_eq] at hh
  apply h
  have := hh.2
  unfold threadName at this
  simp only [List.append_assoc] at this
  exact (List.append_inj this (sanitize_length _)).1

theorem no_signal {c : Config} (h : sanitize c.inst ≠ c.inst) (k : Nat) : .signal ∉ program c k := by
  cases k with
  | zero =>
    simp only [program, controlProgram, preSync, postSync]
    simp
  | succ k =>
    rw [program]
    split
    · rw [ifaceProgram, servePart, not_taken h]; simp
    · split
      · unfold faultProgram; split <;> simp
      · simp

/-- **Full C62 fails for nested instances**: if the name of the instance contains a dot (or any other
character that is replaced in names of threads) and there is a passive interface, `run` of the control
thread never starts, under any schedule. -/
theorem nested_passive_hangs (c : Config) (hn : sanitize c.inst ≠ c.inst) (hp : ∃ t ∈ c.ifaces, t.passive = true) (schedule : List Nat) :
    .control ∉ (run c (start c) schedule).trace := by
  have h : Reach c (run c (start c) schedule) := run_reach c schedule _ .start
  generalize run c (start c) schedule = s at h
  have key : s.ntfn = false ∧ .await ∈ s.rest 0 := by
    induction h with
    | start =>
      refine ⟨rfl, ?_⟩
      obtain ⟨t, ht, htp⟩ := hp
      obtain ⟨i, hi, rfl⟩ := List.getElem_of_mem ht
      have hm : i ∈ passives c := (mem_passives c i hi).mpr htp
      simp only [start, program, controlProgram, postSync]
      simp only [List.mem_append, List.mem_flatMap]
      left; right; right
      exact ⟨i, hm, by simp⟩
    | @step s s' k hr hs ih =>
      obtain ⟨x, r, h1, _, h2, h3⟩ := step_some hs
      have hx : x ≠ .signal := by
        rintro rfl
        exact no_signal hn k ((reach_suffix hr k).subset (h1 ▸ List.mem_cons_self))
      rcases exec_ntfn h3 with ⟨h4, _⟩ | ⟨_, h4, _⟩ | ⟨_, h4, h5⟩
      · exact absurd h4 hx
      · rw [ih.1] at h4; cases h4
      · refine ⟨by rw [h5]; exact ih.1, ?_⟩
        rw [h2]
        beta_reduce
        split
        · rename_i h0
          have := ih.2
          rw [h0, h1, List.mem_cons] at this
          rcases this with h6 | h6
          · exact absurd h6.symm h4
          · exact h6
        · exact ih.2
  intro hc
  have h1 := ((reach_once h).2 _ hc).2
  change .act .control ∉ s.rest 0 at h1
  apply h1
  have hp := place h
  generalize s.rest 0 = l at hp key
  cases hp with
  | start => rw [control_eq]; simp [PF, after]
  | posting k => simp [PF, after]
  | waiting k _ => simp [PF, after]
  | pbind => simp [PF, after]
  | ppost => simp [PF, after]
  | pwait => simp [PF, after]
  | punbind => simp [PF, after]
  | postInit => simp [PF, after]
  | letting k _ => simp [QF, tail]
  | qbind => simp [QF, tail]
  | qwait => simp [QF, tail]
  | qunbind => simp [QF, tail]
  | control => simp [tail]
  | ended => simp at key
  | escaping => simp at key
  | empty => simp at key

example : sanitize "outer.inner".toList ≠ "outer.inner".toList := by decide

end Verif.Startup
