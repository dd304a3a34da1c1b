import Verif.Startup.Live

namespace Verif.Startup

theorem rest_mono {c : Config} {s s' : State} {k : Nat} (hs : step c s k = some s') (j : Nat) (x : Instr) : (s'.rest j).count x ≤ (s.rest j).count x := by
  obtain ⟨y, r, h1, _, h2, _⟩ := step_some hs
  rw [h2]
  beta_reduce
  split
  · rename_i hj; subst hj; rw [h1, List.count_cons]; omega
  · exact le_refl _

/-- Between two passive interfaces all others have been initialised. -/
theorem boundary {c : Config} {s : State} (h : Reach c s) {js d : List Nat} (hj : passives c = d ++ js) (hr : s.rest 0 = PF c js) (i : Nat)
    (hi : i < c.ifaces.length) (hm : i ∉ js) : (s.rest (i + 1)).count (.post .ini) = 0 := by
  have hn : js.Nodup := (hj ▸ passives_nodup c).sublist (List.sublist_append_right _ _)
  have hsub : ∀ j ∈ js, j ∈ passives c := fun j hjj => hj ▸ List.mem_append_right _ hjj
  refine zero_outside (n := c.ifaces.length) (f := fun i => (s.rest (i + 1)).count (.post .ini)) hn ?_ ?_ hi hm
  · intro j hjj
    have hlt := passives_lt c j (hsub j hjj)
    refine ⟨hlt, ?_⟩
    have hb := (PF_bind c js j).1
    rw [List.count_eq_one_of_mem (passives_nodup c) (hsub j hjj), List.count_eq_one_of_mem hn hjj] at hb
    rcases untouched h j (hsub j hjj) with h1 | h1
    · simp only [h1]; rw [(iface_counts c j hlt).2.2.2.2.1]
    · rw [hr] at h1; omega
  · have e := eq_ini h
    rw [hr, (PF_counts c js).1] at e
    omega

/-- Interfaces that have been waited for are initialised. -/
theorem done_pre {c : Config} {s : State} (h : Reach c s) (i : Nat) (hi : i < c.ifaces.length) :
    (s.rest 0).count (.wait .ini) ≤ (passives c).length + 1 → (s.rest 0).count (.unbind i) < 2 → (s.rest (i + 1)).count (.post .ini) = 0 := by
  induction h with
  | start =>
    intro h1 h2
    exfalso
    have hr0 : (start c).rest 0 = program c 0 := rfl
    rw [hr0, (control_counts c).2.1] at h1
    rw [hr0, control_eq, List.count_cons, List.count_append, List.count_append, List.count_replicate, List.count_replicate, (PF_bind c _ i).2] at h2
    have := passives_length c
    have hf : (c.ifaces.filter fun t => !t.passive) = [] := List.eq_nil_of_length_eq_zero (by omega)
    rw [List.filter_eq_nil_iff] at hf
    have hp : i ∈ passives c := by
      rw [mem_passives c i hi]
      have := hf c.ifaces[i] (List.getElem_mem hi)
      simpa using this
    have := List.count_eq_one_of_mem (passives_nodup c) hp
    omega
  | @step s s' k hr hs ih =>
    intro p1 p2
    have hmono := rest_mono hs (i + 1) (.post .ini)
    by_cases q : (s.rest 0).count (.wait .ini) ≤ (passives c).length + 1 ∧ (s.rest 0).count (.unbind i) < 2
    · have := ih q.1 q.2; omega
    · obtain ⟨x, r, h1, hc, h2, h3⟩ := step_some hs
      cases k with
      | succ k =>
        have : s'.rest 0 = s.rest 0 := by rw [h2]; simp
        rw [this] at p1 p2
        exact absurd ⟨p1, p2⟩ q
      | zero =>
        have hr0 : s'.rest 0 = r := by rw [h2]; simp
        have hreach : Reach c s' := .step 0 hr hs
        rw [hr0] at p1 p2
        have hp := place hr
        generalize hl : s.rest 0 = l at hp
        have hxr : x :: r = l := h1 ▸ hl
        rw [hl] at q
        cases hp with
        | start =>
          rw [control_eq] at hxr q
          injection hxr with hx hr'
          rw [← hr', List.count_cons, List.count_cons] at q
          simp at q
          have := q p1
          omega
        | posting k =>
          rw [List.replicate_succ, List.cons_append] at hxr q
          injection hxr with hx hr'
          rw [← hr', List.count_cons, List.count_cons] at q
          simp at q
          have := q p1
          omega
        | waiting k hk =>
          rw [List.replicate_succ] at hxr
          injection hxr with hx hr'
          rw [hr'] at p1
          change ((List.replicate k (Instr.wait .ini)) ++ PF c (passives c)).count (.wait .ini) ≤ _ at p1
          rw [List.count_append, (PF_counts c _).1, List.count_replicate_self] at p1
          have hk0 : k = 0 := by omega
          subst hk0
          have hr0' : s'.rest 0 = PF c (passives c) := hr0.trans hr'
          refine boundary hreach (d := []) rfl hr0' i hi ?_
          intro hm
          have e := (PF_bind c (passives c) i).2
          rw [List.count_eq_one_of_mem (passives_nodup c) hm] at e
          rw [← hr0, hr0'] at p2
          omega
        | pbind d j js _ =>
          injection hxr with hx hr'
          rw [← hr', List.count_cons, List.count_cons] at q
          simp at q
          have := q p1
          omega
        | ppost d j js _ =>
          injection hxr with hx hr'
          rw [← hr', List.count_cons, List.count_cons] at q
          simp at q
          have := q p1
          omega
        | pwait d j js hj =>
          injection hxr with hx hr'
          exfalso
          apply q
          have hlen : (passives c).length = d.length + (js.length + 1) := by rw [hj]; simp
          constructor
          · simp only [List.count_cons, (PF_counts c js).1]
            simp
            omega
          · rw [hr'] at p2
            rw [List.count_cons]
            simpa using p2
        | punbind d j js hj =>
          injection hxr with hx hr'
          have hr0' : s'.rest 0 = PF c js := hr0.trans hr'
          refine boundary hreach (d := d ++ [j]) (by rw [hj]; simp) hr0' i hi ?_
          intro hm
          have hmp : i ∈ passives c := by rw [hj]; simp [hm]
          have e := (PF_bind c js i).2
          rw [List.count_eq_one_of_mem (passives_nodup c) hmp] at e
          have : 1 ≤ js.count i := List.count_pos_iff.mpr hm
          rw [hr'] at p2
          omega
        | postInit =>
          injection hxr with hx hr'
          rw [← hr', List.count_cons, List.count_cons] at q
          simp at q
          have := q p1
          omega
        | letting k _ =>
          rw [List.replicate_succ, List.cons_append] at hxr q
          injection hxr with hx hr'
          rw [← hr', List.count_cons, List.count_cons] at q
          simp at q
          have := q p1
          omega
        | qbind d j js _ =>
          injection hxr with hx hr'
          rw [← hr', List.count_cons, List.count_cons] at q
          simp at q
          have := q p1
          omega
        | qwait d j js _ =>
          injection hxr with hx hr'
          rw [← hr', List.count_cons, List.count_cons] at q
          simp at q
          have := q p1
          omega
        | qunbind d j js hj =>
          injection hxr with hx hr'
          exfalso
          apply q
          obtain ⟨q1, q2, q3, q4, q5⟩ := split_facts hj
          have hle : js.count i ≤ 1 := List.nodup_iff_count_le_one.mp (List.nodup_cons.mp q4).2 i
          constructor
          · rw [List.count_cons, (QF_counts js).2.1]; simp
          · rw [List.count_cons, (QF_bind js i).2]
            by_cases hji : j = i
            · subst hji; simp [q2]
            · simp [hji]; omega
        | control =>
          injection hxr with hx hr'
          rw [tail, ← hr', List.count_cons, List.count_cons] at q
          simp at q
          have := q p1
          omega
        | ended =>
          exfalso; apply q; simp
        | escaping => exfalso; apply q; simp
        | empty => cases hxr

/-- Passive interfaces that have been waited for have signalled. -/
theorem done_post {c : Config} (hR : Right c) {s : State} (h : Reach c s) (i : Nat) (hi : i < c.ifaces.length) :
    (s.rest 0).count (.unbind i) = 0 → (s.rest (i + 1)).count .signal = 0 := by
  by_cases hpas : i ∈ passives c
  swap
  · intro _
    have h1 := signal_count hR i hi
    rw [mem_passives c i hi] at hpas
    rw [if_neg hpas] at h1
    have := rest_le h (i + 1) .signal
    omega
  have hone := List.count_eq_one_of_mem (passives_nodup c) hpas
  induction h with
  | start =>
    intro h2
    exfalso
    have hr0 : (start c).rest 0 = program c 0 := rfl
    rw [hr0, control_eq, List.count_cons, List.count_append, List.count_append, (PF_bind c _ i).2] at h2
    omega
  | @step s s' k hr hs ih =>
    intro p2
    have hmono := rest_mono hs (i + 1) .signal
    by_cases q : (s.rest 0).count (.unbind i) = 0
    · have := ih q; omega
    · obtain ⟨x, r, h1, hc, h2, h3⟩ := step_some hs
      cases k with
      | succ k =>
        have : s'.rest 0 = s.rest 0 := by rw [h2]; simp
        rw [this] at p2
        exact absurd p2 q
      | zero =>
        have hr0 : s'.rest 0 = r := by rw [h2]; simp
        have hreach : Reach c s' := .step 0 hr hs
        rw [hr0] at p2
        have hxu : x = .unbind i := by
          by_contra hne
          apply q
          rw [h1, List.count_cons, p2]
          simp [hne]
        subst hxu
        have hp := place hr
        generalize hl : s.rest 0 = l at hp
        have hxr : Instr.unbind i :: r = l := h1 ▸ hl
        cases hp with
        | start => rw [control_eq] at hxr; cases hxr
        | posting k => cases hxr
        | waiting k _ => cases hxr
        | pbind => cases hxr
        | ppost => cases hxr
        | pwait => cases hxr
        | punbind d j js hj =>
          cases hxr
          have := (PF_bind c js i).2
          omega
        | postInit => cases hxr
        | letting k _ => cases hxr
        | qbind => cases hxr
        | qwait => cases hxr
        | qunbind d j js hj =>
          cases hxr
          obtain ⟨q1, q2, q3, q4, q5⟩ := split_facts hj
          refine zero_outside (n := c.ifaces.length) (f := fun i => (s'.rest (i + 1)).count .signal) (List.nodup_cons.mp q4).2 ?_ ?_ hi (List.nodup_cons.mp q4).1
          · refine sig_js hR hreach q5 ?_
            intro j hj
            rw [hr0, (QF_bind js j).1]
            exact List.count_pos_iff.mpr hj
          · have e := eq_ntfn hR hreach
            rw [hr0, (QF_counts js).1] at e
            omega
        | control => cases hxr
        | ended => cases hxr
        | escaping => cases hxr
        | empty => cases hxr

/-! ## A system that can do nothing more -/

theorem stuck_head {c : Config} {s : State} {k : Nat} (h : step c s k = none) (hc : canRun c s k = true) {x : Instr} {r : List Instr} (hr : s.rest k = x :: r) :
    (∃ m, x = .wait m ∧ s.sem m = 0) ∨ (x = .await ∧ s.ntfn = false) ∨ (∃ i, x = .bind i ∧ s.bound ≠ none) := by
  unfold step at h
  rw [if_pos hc, hr] at h
  cases x <;> simp only [exec] at h
  · split at h
    · exact .inl ⟨_, rfl, by assumption⟩
    · cases h
  · cases h
  · cases h
  · split at h
    · cases h
    · right; left; exact ⟨rfl, by simp_all⟩
  · split at h
    · cases h
    · right; right; exact ⟨_, rfl, by assumption⟩
  · cases h
  · cases h

theorem early_pre {c : Config} {s : State} (h : Reach c s) (hp : .act .postInit ∈ s.rest 0) (i : Nat) (hi : i < c.ifaces.length) :
    1 ≤ (s.rest (i + 1)).count (.wait .pre) ∧ ((s.rest (i + 1)).count (.post .ini) = 1 → s.rest (i + 1) = program c (i + 1) ∨
      ∃ x r, s.rest (i + 1) = x :: r ∧ (x = .act (.init i) ∨ x = .post .ini)) := by
  have hs := reach_suffix h (i + 1)
  rw [program_iface c i hi] at hs ⊢
  have hd : (s.rest (i + 1)).count (.wait .post) ≠ 0 := fun h0 => ran_past h i hi h0 hp
  have zw := serve_count c i c.ifaces[i] (.wait .post) (by simp) (by simp) (by simp)
  rcases iface_cases c i _ hs with g | g | g | g | ⟨p, y, hp', g⟩ | g | g | g
  · rw [g]; exact ⟨by simp, fun _ => .inl rfl⟩
  · rw [g]; exact ⟨by simp, fun _ => .inr ⟨_, _, rfl, .inl rfl⟩⟩
  · rw [g]; exact ⟨by simp, fun _ => .inr ⟨_, _, rfl, .inr rfl⟩⟩
  · rw [g]; refine ⟨by simp, fun h1 => ?_⟩
    have zi := serve_count c i c.ifaces[i] (.post .ini) (by simp) (by simp) (by simp)
    simp [List.count_cons, zi] at h1
  · exfalso
    apply hd
    rw [g, List.count_append]
    have := hp'.sublist.count_le (.wait .post)
    have e : ([.wait .pre, .act (.escape i)] : List Instr).count (.wait .post) = 0 := by simp
    omega
  · exfalso; apply hd; rw [g]; simp
  · exfalso; apply hd; rw [g]; simp
  · exfalso; apply hd; rw [g]; simp

theorem sum_ge_succ {n : Nat} {g : Nat → Nat} {L : List Nat} (hg : ∀ j < n, 1 ≤ g j) (hn : L.Nodup) (hL : ∀ j ∈ L, j < n ∧ 2 ≤ g j) :
    n + L.length ≤ ∑ i ∈ Finset.range n, g i := by
  have h1 := length_le_sum (n := n) (f := fun i => g i - 1) hn (fun j hj => ⟨(hL j hj).1, by have := (hL j hj).2; omega⟩)
  have h2 : ∑ i ∈ Finset.range n, g i = ∑ i ∈ Finset.range n, (1 + (g i - 1)) := by
    refine Finset.sum_congr rfl fun i hi => ?_
    have := hg i (Finset.mem_range.mp hi)
    omega
  rw [h2, Finset.sum_add_distrib]
  simp
  omega

/-- Before `post_init` an interface that has not been initialised, runs and is not hindered can go on. -/
theorem can_init {c : Config} {s : State} (h : Reach c s) (hst : Stuck c s) (hp : .act .postInit ∈ s.rest 0) (i : Nat) (hi : i < c.ifaces.length)
    (hb : (s.rest (i + 1)).count (.post .ini) = 1) (hrun : canRun c s (i + 1) = true) (L : List Nat) (hn : (i :: L).Nodup)
    (hL : ∀ j ∈ L, j < c.ifaces.length ∧ s.rest (j + 1) = program c (j + 1)) (hcp : (s.rest 0).count (.post .pre) ≤ L.length) : False := by
  rcases (early_pre h hp i hi).2 hb with h1 | ⟨x, r, h1, hx⟩
  · have h2 : program c (i + 1) = .wait .pre :: ([.act (.init i), .post .ini, .wait .post] ++ (servePart c i c.ifaces[i] ++ [.wait .pre, .act (.escape i)])) := by
      rw [program_iface c i hi]; rfl
    rcases stuck_head (hst (i + 1)) hrun (h1.trans h2) with ⟨m, hm, hz⟩ | ⟨hm, _⟩ | ⟨_, hm, _⟩
    · cases hm
      have e := eq_pre h
      have := sum_ge_succ (n := c.ifaces.length) (g := fun i => (s.rest (i + 1)).count (.wait .pre)) (L := i :: L)
        (fun j hj => (early_pre h hp j hj).1) hn (by
          intro j hj
          rcases List.mem_cons.mp hj with rfl | hj
          · refine ⟨hi, ?_⟩
            simp only [h1]
            rw [(iface_counts c j hi).2.2.2.1]
          · obtain ⟨a1, a2⟩ := hL j hj
            refine ⟨a1, ?_⟩
            simp only [a2]
            rw [(iface_counts c j a1).2.2.2.1])
      rw [List.length_cons] at this
      omega
    · cases hm
    · cases hm
  · rcases stuck_head (hst (i + 1)) hrun h1 with ⟨m, hm, _⟩ | ⟨hm, _⟩ | ⟨_, hm, _⟩ <;> rcases hx with rfl | rfl <;> cases hm

/-- The places where the control thread can be for ever. -/
theorem stuck_control {c : Config} (hR : Right c) {s : State} (h : Reach c s) (hst : Stuck c s) :
    s.rest 0 = [.wait .ini, .act .escapeControl] ∨ s.rest 0 = [] := by
  have hp := place h
  have hhead := fun x r (hr : s.rest 0 = x :: r) => stuck_head (hst 0) rfl hr
  have hb := reach_bound h
  generalize hl : s.rest 0 = l at hp
  cases hp with
  | start =>
    rw [control_eq] at hl
    rcases hhead _ _ hl with ⟨m, hm, _⟩ | ⟨hm, _⟩ | ⟨_, hm, _⟩ <;> cases hm
  | posting k =>
    rw [List.replicate_succ] at hl
    rcases hhead _ _ hl with ⟨m, hm, _⟩ | ⟨hm, _⟩ | ⟨_, hm, _⟩ <;> cases hm
  | waiting k hk =>
    exfalso
    rw [List.replicate_succ] at hl
    rcases hhead _ _ hl with ⟨m, hm, hz⟩ | ⟨hm, _⟩ | ⟨_, hm, _⟩
    · cases hm
      have e := eq_ini h
      rw [hz, hl] at e
      change _ = List.count _ (Instr.wait .ini :: (List.replicate k (Instr.wait .ini) ++ PF c (passives c))) at e
      rw [List.count_cons, List.count_append, (PF_counts c _).1, List.count_replicate_self] at e
      simp only [beq_self_eq_true, if_true] at e
      have hpost : .act .postInit ∈ s.rest 0 := by rw [hl]; simp [PF]
      have hub : ∀ j ∈ passives c, j < c.ifaces.length ∧ s.rest (j + 1) = program c (j + 1) := by
        intro j hj
        refine ⟨passives_lt c j hj, ?_⟩
        rcases untouched h j hj with h1 | h1
        · exact h1
        · exfalso
          rw [hl] at h1
          change List.count _ (Instr.wait .ini :: (List.replicate k (Instr.wait .ini) ++ PF c (passives c))) ≤ 1 at h1
          rw [List.count_cons, List.count_append, (PF_bind c _ j).1, List.count_eq_one_of_mem (passives_nodup c) hj] at h1
          omega
      -- someone who is not passive has not been initialised
      obtain ⟨i, hi, hnp, hbi⟩ : ∃ i, i < c.ifaces.length ∧ i ∉ passives c ∧ (s.rest (i + 1)).count (.post .ini) ≠ 0 := by
        by_contra hno
        have hall : ∀ i, i < c.ifaces.length → i ∉ passives c → (s.rest (i + 1)).count (.post .ini) = 0 := by
          intro i hi hn
          by_contra h0
          exact hno ⟨i, hi, hn, h0⟩
        have hle : ∑ i ∈ Finset.range c.ifaces.length, (s.rest (i + 1)).count (.post .ini) ≤
            ∑ i ∈ Finset.range c.ifaces.length, (if (c.ifaces[i]?.any (·.passive)) = true then 1 else 0) := by
          refine Finset.sum_le_sum fun i hi => ?_
          have hi := Finset.mem_range.mp hi
          by_cases hm : i ∈ passives c
          · have := rest_le h (i + 1) (.post .ini)
            rw [(iface_counts c i hi).2.2.2.2.1] at this
            have hpp := (mem_passives c i hi).mp hm
            rw [List.getElem?_eq_getElem hi, if_pos (by simpa using hpp)]
            exact this
          · rw [hall i hi hm]; omega
        rw [sum_indicator] at hle
        change _ ≤ (passives c).length at hle
        omega
      have hbi1 : (s.rest (i + 1)).count (.post .ini) = 1 := by
        have := rest_le h (i + 1) (.post .ini)
        rw [(iface_counts c i hi).2.2.2.2.1] at this
        omega
      refine can_init h hst hpost i hi hbi1 ?_ (passives c) (List.nodup_cons.mpr ⟨hnp, passives_nodup c⟩) hub ?_
      · simp only [canRun]
        rw [List.getElem?_eq_getElem hi]
        rw [mem_passives c i hi] at hnp
        simp [hnp]
      · rw [hl]
        change List.count _ (Instr.wait .ini :: (List.replicate k (Instr.wait .ini) ++ PF c (passives c))) ≤ _
        rw [List.count_cons, List.count_append, (PF_counts c _).2.1, List.count_replicate]
        simp
    · cases hm
    · cases hm
  | pbind d j js _ =>
    exfalso
    rcases hhead _ _ hl with ⟨m, hm, _⟩ | ⟨hm, _⟩ | ⟨_, hm, hne⟩
    · cases hm
    · cases hm
    · rw [hb, hl] at hne; exact hne rfl
  | ppost d j js _ => rcases hhead _ _ hl with ⟨m, hm, _⟩ | ⟨hm, _⟩ | ⟨_, hm, _⟩ <;> cases hm
  | pwait d j js hj =>
    exfalso
    rcases hhead _ _ hl with ⟨m, hm, hz⟩ | ⟨hm, _⟩ | ⟨_, hm, _⟩
    · cases hm
      obtain ⟨q1, q2, q3, q4, q5⟩ := split_facts hj
      have hlt := passives_lt c j q1
      have hpost : .act .postInit ∈ s.rest 0 := by rw [hl]; simp [PF]
      have hlen : (passives c).length = d.length + (js.length + 1) := by rw [hj]; simp
      have e := eq_ini h
      have hcnt : (s.rest 0).count (.wait .ini) = js.length + 2 := by
        rw [hl]; simp only [List.count_cons, (PF_counts c js).1]; simp
      have hbj : (s.rest (j + 1)).count (.post .ini) = 1 := by
        have hle := rest_le h (j + 1) (.post .ini)
        rw [(iface_counts c j hlt).2.2.2.2.1] at hle
        by_contra h0
        have h0 : (s.rest (j + 1)).count (.post .ini) = 0 := by omega
        have hle2 : ∑ i ∈ Finset.range c.ifaces.length, (s.rest (i + 1)).count (.post .ini) ≤
            ∑ i ∈ Finset.range c.ifaces.length, (if (decide (i ∈ js)) = true then 1 else 0) := by
          refine Finset.sum_le_sum fun i hi => ?_
          have hi := Finset.mem_range.mp hi
          by_cases hm : i ∈ js
          · have := rest_le h (i + 1) (.post .ini)
            rw [(iface_counts c i hi).2.2.2.2.1] at this
            simp [hm]; exact this
          · by_cases hij : i = j
            · subst hij; rw [h0]; omega
            · rw [done_pre h i hi (by rw [hcnt]; omega) ?_]
              · omega
              · rw [hl]
                have hjs0 : js.count i = 0 := List.count_eq_zero.mpr hm
                have hpc : (passives c).count i ≤ 1 := List.nodup_iff_count_le_one.mp (passives_nodup c) i
                simp only [List.count_cons, (PF_bind c js i).2, hjs0]
                have : ((Instr.unbind j == Instr.unbind i) = true) = False := by simp; exact fun e => hij e.symm
                simp [this]
                omega
        rw [sum_indicator] at hle2
        have hlen2 : ((List.range c.ifaces.length).filter fun i => decide (i ∈ js)).length ≤ js.length := by
          have hs : ((List.range c.ifaces.length).filter fun i => decide (i ∈ js)).Nodup := List.nodup_range.filter _
          exact (List.subperm_of_subset hs (fun a ha => by simpa using (List.mem_filter.mp ha).2)).length_le
        omega
      have hbound : s.bound = some j := by rw [hb, hl]; rfl
      refine can_init h hst hpost j hlt hbj ?_ js q4 ?_ ?_
      · simp only [canRun, hbound]; simp
      · intro i hi
        refine ⟨passives_lt c i (q5 i hi), ?_⟩
        rcases untouched h i (q5 i hi) with h1 | h1
        · exact h1
        · exfalso
          rw [hl] at h1
          have : 1 ≤ js.count i := List.count_pos_iff.mpr hi
          simp only [List.count_cons, (PF_bind c js i).1, List.count_eq_one_of_mem (passives_nodup c) (q5 i hi)] at h1
          omega
      · rw [hl]; simp only [List.count_cons, (PF_counts c js).2.1]; simp
    · cases hm
    · cases hm
  | punbind d j js _ => rcases hhead _ _ hl with ⟨m, hm, _⟩ | ⟨hm, _⟩ | ⟨_, hm, _⟩ <;> cases hm
  | postInit => rcases hhead _ _ hl with ⟨m, hm, _⟩ | ⟨hm, _⟩ | ⟨_, hm, _⟩ <;> cases hm
  | letting k hk =>
    rw [List.replicate_succ] at hl
    rcases hhead _ _ hl with ⟨m, hm, _⟩ | ⟨hm, _⟩ | ⟨_, hm, _⟩ <;> cases hm
  | qbind d j js _ =>
    exfalso
    rcases hhead _ _ hl with ⟨m, hm, _⟩ | ⟨hm, _⟩ | ⟨_, hm, hne⟩
    · cases hm
    · cases hm
    · rw [hb, hl] at hne; exact hne rfl
  | qwait d j js hj =>
    exfalso
    rcases hhead _ _ hl with ⟨m, hm, _⟩ | ⟨hm, hz⟩ | ⟨_, hm, _⟩
    · cases hm
    · obtain ⟨q1, q2, q3, q4, q5⟩ := split_facts hj
      have hlt := passives_lt c j q1
      have e := eq_ntfn hR h
      rw [hz, hl] at e
      simp only [Bool.false_eq_true, if_false, List.count_cons, (QF_counts js).1] at e
      simp at e
      have hpost : .act .postInit ∉ s.rest 0 := by
        rw [hl]; simp [QF, qseg, tail]
      have hsig : (s.rest (j + 1)).count .signal ≠ 0 := by
        intro h0
        have hle2 : ∑ i ∈ Finset.range c.ifaces.length, (s.rest (i + 1)).count .signal ≤
            ∑ i ∈ Finset.range c.ifaces.length, (if (decide (i ∈ js)) = true then 1 else 0) := by
          refine Finset.sum_le_sum fun i hi => ?_
          have hi := Finset.mem_range.mp hi
          by_cases hm : i ∈ js
          · have := rest_le h (i + 1) .signal
            rw [signal_count hR i hi] at this
            simp [hm]
            split at this <;> omega
          · by_cases hij : i = j
            · subst hij; rw [h0]; omega
            · rw [done_post hR h i hi ?_]
              · omega
              · rw [hl]
                have hjs0 : js.count i = 0 := List.count_eq_zero.mpr hm
                simp only [List.count_cons, (QF_bind js i).2, hjs0]
                have : ((Instr.unbind j == Instr.unbind i) = true) = False := by simp; exact fun e => hij e.symm
                simp [this]
        rw [sum_indicator] at hle2
        have hlen2 : ((List.range c.ifaces.length).filter fun i => decide (i ∈ js)).length ≤ js.length := by
          have hs : ((List.range c.ifaces.length).filter fun i => decide (i ∈ js)).Nodup := List.nodup_range.filter _
          exact (List.subperm_of_subset hs (fun a ha => by simpa using (List.mem_filter.mp ha).2)).length_le
        omega
      have hbound : s.bound = some j := by rw [hb, hl]; rfl
      have hrun : canRun c s (j + 1) = true := by simp only [canRun, hbound]; simp
      have hbj := all_done h (after_facts h hpost).1 j hlt
      have hsfx := reach_suffix h (j + 1)
      rw [program_iface c j hlt] at hsfx
      rcases iface_cases c j _ hsfx with g | g | g | g | ⟨p, y, hp', g⟩ | g | g | g
      · rw [g] at hbj; simp [List.count_cons] at hbj
      · rw [g] at hbj; simp [List.count_cons] at hbj
      · rw [g] at hbj; simp [List.count_cons] at hbj
      · rcases stuck_head (hst (j + 1)) hrun g with ⟨m, hm', hz'⟩ | ⟨hm', _⟩ | ⟨_, hm', _⟩
        · cases hm'
          have ep := eq_post h
          rw [hz', hl] at ep
          simp only [List.count_cons, (QF_counts js).2.2.2] at ep
          have ep := ep.symm
          simp only [show ((Instr.await == Instr.post .post) = true) = False by simp, show ((Instr.unbind j == Instr.post .post) = true) = False by simp, if_false] at ep
          have hw : List.count (.wait .post) (s.rest (j + 1)) ≠ 0 := by rw [g]; simp
          exact hw (Finset.sum_eq_zero_iff.mp ep j (Finset.mem_range.mpr hlt))
        · cases hm'
        · cases hm'
      · rw [List.cons_append] at g
        rcases stuck_head (hst (j + 1)) hrun g with ⟨m, hm', hz'⟩ | ⟨hm', _⟩ | ⟨_, hm', _⟩ <;>
          rcases serve_cases c j _ hp' with ⟨_, h4 | h4 | h4⟩ | ⟨_, h4⟩ <;> cases h4 <;> cases hm'
      · rw [g] at hsig; simp at hsig
      · rw [g] at hsig; simp at hsig
      · rw [g] at hsig; simp at hsig
    · cases hm
  | qunbind d j js _ => rcases hhead _ _ hl with ⟨m, hm, _⟩ | ⟨hm, _⟩ | ⟨_, hm, _⟩ <;> cases hm
  | control =>
    rw [tail] at hl
    rcases hhead _ _ hl with ⟨m, hm, _⟩ | ⟨hm, _⟩ | ⟨_, hm, _⟩ <;> cases hm
  | ended => exact .inl rfl
  | escaping =>
    rcases hhead _ _ hl with ⟨m, hm, _⟩ | ⟨hm, _⟩ | ⟨_, hm, _⟩ <;> cases hm
  | empty => exact .inr rfl

end Verif.Startup
