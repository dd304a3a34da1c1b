import Verif.Startup.Safety

namespace Verif.Startup

/-- What the control thread does for a passive interface before `post_init`. -/
def pseg (i : Nat) : List Instr := [.bind i, .post .pre, .wait .ini, .unbind i]
/-- What the control thread does for a passive interface after `post_init`. -/
def qseg (i : Nat) : List Instr := [.bind i, .await, .unbind i]
/-- The end of the control thread. -/
def tail : List Instr := [.act .control, .wait .ini, .act .escapeControl]
def QF (js : List Nat) : List Instr := js.flatMap qseg ++ tail
def PF (c : Config) (js : List Nat) : List Instr := js.flatMap pseg ++ .act .postInit :: after c

theorem after_eq (c : Config) : after c = List.replicate c.ifaces.length (.post .post) ++ QF (passives c) := by
  unfold after postSync QF tail
  rw [List.map_const', List.append_assoc]
  rfl

theorem control_eq (c : Config) : program c 0 = .act .preInit :: (List.replicate ((c.ifaces.filter fun t => !t.passive).length + extra c) (.post .pre) ++
    (List.replicate (c.ifaces.filter fun t => !t.passive).length (.wait .ini) ++ PF c (passives c))) := by
  show controlProgram c = _
  rw [control_split]
  unfold before preSync PF
  rw [List.map_const', List.map_const', others_length]
  simp only [List.append_assoc, List.cons_append, List.nil_append]
  rfl

theorem sfx_replicate {α : Type} {a : α} {n : Nat} {p : List α} {x : α} (h : x :: p <:+ List.replicate n a) : ∃ k, k < n ∧ x :: p = List.replicate (k + 1) a := by
  induction n with
  | zero => simp at h
  | succ n ih =>
    rw [List.replicate_succ, List.suffix_cons_iff] at h
    rcases h with h | h
    · exact ⟨n, by omega, by rw [h, List.replicate_succ]⟩
    · obtain ⟨k, hk, h⟩ := ih h
      exact ⟨k, by omega, h⟩

theorem sfx_flatMap {f : Nat → List Instr} {L : List Nat} {p : List Instr} {x : Instr} (h : x :: p <:+ L.flatMap f) :
    ∃ d j js q y, L = d ++ j :: js ∧ y :: q <:+ f j ∧ x :: p = (y :: q) ++ js.flatMap f := by
  induction L with
  | nil => simp at h
  | cons a L ih =>
    rw [List.flatMap_cons] at h
    rcases sfx_append h with h | ⟨q, y, h1, h2⟩
    · obtain ⟨d, j, js, q, y, h1, h2, h3⟩ := ih h
      exact ⟨a :: d, j, js, q, y, by rw [h1]; rfl, h2, h3⟩
    · exact ⟨[], a, L, q, y, rfl, h1, h2⟩

/-- All the places where the control thread can be. -/
inductive Place (c : Config) : List Instr → Prop where
  | start : Place c (program c 0)
  | posting (k) : Place c (List.replicate (k + 1) (.post .pre) ++ (List.replicate (c.ifaces.filter fun t => !t.passive).length (.wait .ini) ++ PF c (passives c)))
  | waiting (k) : k < (c.ifaces.filter fun t => !t.passive).length → Place c (List.replicate (k + 1) (.wait .ini) ++ PF c (passives c))
  | pbind (d j js) : passives c = d ++ j :: js → Place c (.bind j :: .post .pre :: .wait .ini :: .unbind j :: PF c js)
  | ppost (d j js) : passives c = d ++ j :: js → Place c (.post .pre :: .wait .ini :: .unbind j :: PF c js)
  | pwait (d j js) : passives c = d ++ j :: js → Place c (.wait .ini :: .unbind j :: PF c js)
  | punbind (d j js) : passives c = d ++ j :: js → Place c (.unbind j :: PF c js)
  | postInit : Place c (.act .postInit :: after c)
  | letting (k) : k < c.ifaces.length → Place c (List.replicate (k + 1) (.post .post) ++ QF (passives c))
  | qbind (d j js) : passives c = d ++ j :: js → Place c (.bind j :: .await :: .unbind j :: QF js)
  | qwait (d j js) : passives c = d ++ j :: js → Place c (.await :: .unbind j :: QF js)
  | qunbind (d j js) : passives c = d ++ j :: js → Place c (.unbind j :: QF js)
  | control : Place c tail
  | ended : Place c [.wait .ini, .act .escapeControl]
  | escaping : Place c [.act .escapeControl]
  | empty : Place c []

theorem place {c : Config} {s : State} (h : Reach c s) : Place c (s.rest 0) := by
  have hs := reach_suffix h 0
  generalize s.rest 0 = l at hs ⊢
  have h0 := hs
  rw [control_eq, List.suffix_cons_iff] at h0
  rcases h0 with rfl | h0
  · rw [← control_eq]; exact .start
  rcases sfx_append h0 with h0 | ⟨p, x, h1, rfl⟩
  swap
  · obtain ⟨k, _, h2⟩ := sfx_replicate h1
    rw [h2]; exact .posting k
  rcases sfx_append h0 with h0 | ⟨p, x, h1, rfl⟩
  swap
  · obtain ⟨k, hk, h2⟩ := sfx_replicate h1
    rw [h2]; exact .waiting k hk
  rcases sfx_append h0 with h0 | ⟨p, x, h1, rfl⟩
  swap
  · obtain ⟨d, j, js, q, y, h2, h3, h4⟩ := sfx_flatMap h1
    rw [h4, List.append_assoc, show js.flatMap pseg ++ .act .postInit :: after c = PF c js from rfl]
    simp only [pseg, List.suffix_cons_iff, List.suffix_nil] at h3
    rcases h3 with h3 | h3 | h3 | h3 | h3
    · rw [h3]; exact .pbind d j js h2
    · rw [h3]; exact .ppost d j js h2
    · rw [h3]; exact .pwait d j js h2
    · rw [h3]; exact .punbind d j js h2
    · cases h3
  rw [List.suffix_cons_iff] at h0
  rcases h0 with rfl | h0
  · exact .postInit
  rw [after_eq] at h0
  rcases sfx_append h0 with h0 | ⟨p, x, h1, rfl⟩
  swap
  · obtain ⟨k, hk, h2⟩ := sfx_replicate h1
    rw [h2]; exact .letting k hk
  rcases sfx_append h0 with h0 | ⟨p, x, h1, rfl⟩
  swap
  · obtain ⟨d, j, js, q, y, h2, h3, h4⟩ := sfx_flatMap h1
    rw [h4, List.append_assoc, show js.flatMap qseg ++ tail = QF js from rfl]
    simp only [qseg, List.suffix_cons_iff, List.suffix_nil] at h3
    rcases h3 with h3 | h3 | h3 | h3
    · rw [h3]; exact .qbind d j js h2
    · rw [h3]; exact .qwait d j js h2
    · rw [h3]; exact .qunbind d j js h2
    · cases h3
  simp only [tail, List.suffix_cons_iff, List.suffix_nil] at h0
  rcases h0 with rfl | rfl | rfl | rfl
  · exact .control
  · exact .ended
  · exact .escaping
  · exact .empty

/-! ## Counting in the control thread -/

theorem QF_count (js : List Nat) (x : Instr) (k : Nat) (h : ∀ i ∈ js, (qseg i).count x = k) : (QF js).count x = k * js.length + tail.count x := by
  unfold QF
  rw [List.count_append, flat_count _ _ _ k h]

theorem PF_count (c : Config) (js : List Nat) (x : Instr) (k : Nat) (h : ∀ i ∈ js, (pseg i).count x = k) :
    (PF c js).count x = k * js.length + ((if Instr.act .postInit = x then 1 else 0) + (after c).count x) := by
  unfold PF
  rw [List.count_append, flat_count _ _ _ k h, List.count_cons]
  simp only [beq_iff_eq]
  omega

theorem QF_counts (js : List Nat) : (QF js).count .await = js.length ∧ (QF js).count (.wait .ini) = 1 ∧ (QF js).count (.post .pre) = 0 ∧ (QF js).count (.post .post) = 0 := by
  refine ⟨?_, ?_, ?_, ?_⟩
  · rw [QF_count js _ 1 (by simp [qseg, List.count_cons])]; simp [tail, List.count_cons]
  all_goals rw [QF_count js _ 0 (by simp [qseg, List.count_cons])]; simp [tail, List.count_cons]

theorem PF_counts (c : Config) (js : List Nat) : (PF c js).count (.wait .ini) = js.length + 1 ∧ (PF c js).count (.post .pre) = js.length ∧
    (PF c js).count .await = (passives c).length := by
  obtain ⟨b1, b2, b3, _⟩ := after_counts c
  refine ⟨?_, ?_, ?_⟩
  · rw [PF_count c js _ 1 (by simp [pseg, List.count_cons]), b2]; simp
  · rw [PF_count c js _ 1 (by simp [pseg, List.count_cons]), b1]; simp
  · rw [PF_count c js _ 0 (by simp [pseg, List.count_cons]), after_eq, List.count_append, (QF_counts _).1, List.count_replicate]; simp

theorem seg_bind_count (f : Nat → List Instr) (g : Nat → Instr) (hg : ∀ i j, (f i).count (g j) = if i = j then 1 else 0) (js : List Nat) (i : Nat) :
    (js.flatMap f).count (g i) = js.count i := by
  induction js with
  | nil => rfl
  | cons a js ih =>
    rw [List.flatMap_cons, List.count_append, hg, ih, List.count_cons]
    simp only [beq_iff_eq]
    omega

theorem QF_bind (js : List Nat) (i : Nat) : (QF js).count (.bind i) = js.count i ∧ (QF js).count (.unbind i) = js.count i := by
  unfold QF
  constructor
  · rw [List.count_append, seg_bind_count qseg .bind (by intro i j; simp [qseg, List.count_cons])]
    simp [tail]
  · rw [List.count_append, seg_bind_count qseg .unbind (by intro i j; simp [qseg, List.count_cons])]
    simp [tail]

theorem after_bind (c : Config) (i : Nat) : (after c).count (.bind i) = (passives c).count i ∧ (after c).count (.unbind i) = (passives c).count i := by
  rw [after_eq, List.count_append, List.count_append, (QF_bind _ i).1, (QF_bind _ i).2, List.count_replicate, List.count_replicate]
  simp

theorem PF_bind (c : Config) (js : List Nat) (i : Nat) :
    (PF c js).count (.bind i) = js.count i + (passives c).count i ∧ (PF c js).count (.unbind i) = js.count i + (passives c).count i := by
  unfold PF
  constructor
  · rw [List.count_append, seg_bind_count pseg .bind (by intro i j; simp [pseg, List.count_cons]), List.count_cons, (after_bind c i).1]
    simp
  · rw [List.count_append, seg_bind_count pseg .unbind (by intro i j; simp [pseg, List.count_cons]), List.count_cons, (after_bind c i).2]
    simp

theorem passives_nodup (c : Config) : (passives c).Nodup := List.nodup_range.filter _

theorem mem_passives (c : Config) (i : Nat) (hi : i < c.ifaces.length) : i ∈ passives c ↔ c.ifaces[i].passive = true := by
  unfold passives
  rw [List.mem_filter, List.mem_range, List.getElem?_eq_getElem hi]
  simp [hi]

theorem passives_lt (c : Config) (i : Nat) (h : i ∈ passives c) : i < c.ifaces.length := by
  unfold passives at h
  exact List.mem_range.mp (List.mem_filter.mp h).1

/-! ## Who holds the scheduling context -/

/-- The thread that the scheduling context is taken from next. -/
def holder : List Instr → Option Nat
  | [] => none
  | .bind _ :: _ => none
  | .unbind i :: _ => some i
  | _ :: l => holder l

theorem holder_QF (js : List Nat) : holder (QF js) = none := by
  cases js <;> rfl

theorem holder_replicate (k : Nat) (m : Sem) (l : List Instr) : holder (List.replicate k (.post m) ++ l) = holder l := by
  induction k with
  | zero => rfl
  | succ k ih => rw [List.replicate_succ]; exact ih

theorem holder_replicate' (k : Nat) (m : Sem) (l : List Instr) : holder (List.replicate k (.wait m) ++ l) = holder l := by
  induction k with
  | zero => rfl
  | succ k ih => rw [List.replicate_succ]; exact ih

theorem holder_PF (c : Config) (js : List Nat) : holder (PF c js) = none := by
  cases js with
  | nil => show holder (after c) = none; rw [after_eq, holder_replicate, holder_QF]
  | cons a js => rfl

theorem holder_start (c : Config) : holder (program c 0) = none := by
  rw [control_eq]
  show holder (List.replicate _ _ ++ _) = none
  rw [holder_replicate, holder_replicate', holder_PF]

theorem iface_no_bind (c : Config) (k : Nat) (i : Nat) : .bind i ∉ program c (k + 1) ∧ .unbind i ∉ program c (k + 1) ∧ .await ∉ program c (k + 1) := by
  rw [program]
  split
  · unfold ifaceProgram servePart
    split <;> simp
  · split
    · unfold faultProgram; split <;> simp
    · simp

theorem exec_bound {s s' : State} {x : Instr} (h : exec s x = some s') :
    (∃ i, x = .bind i ∧ s.bound = none ∧ s'.bound = some i) ∨ (∃ i, x = .unbind i ∧ s'.bound = none) ∨
    ((∀ i, x ≠ .bind i) ∧ (∀ i, x ≠ .unbind i) ∧ s'.bound = s.bound) := by
  cases x <;> simp only [exec] at h
  · split at h <;> cases h; simp
  · cases h; simp
  · cases h; simp
  · split at h <;> cases h; simp
  · split at h
    · rename_i hb
      cases h; left; exact ⟨_, rfl, hb, rfl⟩
    · cases h
  · cases h; simp
  · cases h; simp

theorem exec_ntfn {s s' : State} {x : Instr} (h : exec s x = some s') :
    (x = .signal ∧ s'.ntfn = true) ∨ (x = .await ∧ s.ntfn = true ∧ s'.ntfn = false) ∨ (x ≠ .signal ∧ x ≠ .await ∧ s'.ntfn = s.ntfn) := by
  cases x <;> simp only [exec] at h
  · split at h <;> cases h; simp
  · cases h; simp
  · cases h; simp
  · split at h
    · rename_i hb
      cases h; simp [hb]
    · cases h
  · split at h <;> cases h; simp
  · cases h; simp
  · cases h; simp

/-- The scheduling context is bound to the thread that it will be taken from. -/
theorem reach_bound {c : Config} {s : State} (h : Reach c s) : s.bound = holder (s.rest 0) := by
  induction h with
  | start => exact (holder_start c).symm
  | @step s s' k hr hs ih =>
    obtain ⟨x, r, h1, _, h2, h3⟩ := step_some hs
    have hb := exec_bound h3
    cases k with
    | succ k =>
      have : s'.rest 0 = s.rest 0 := by rw [h2]; simp
      rw [this, ← ih]
      have hm : x ∈ program c (k + 1) := (reach_suffix hr (k + 1)).subset (h1 ▸ List.mem_cons_self)
      rcases hb with ⟨i, rfl, _⟩ | ⟨i, rfl, _⟩ | ⟨_, _, hb⟩
      · exact absurd hm (iface_no_bind c k i).1
      · exact absurd hm (iface_no_bind c k i).2.1
      · exact hb
    | zero =>
      have hr0 : s'.rest 0 = r := by rw [h2]; simp
      rw [hr0]
      have hp := place hr
      rcases hb with ⟨i, rfl, _, hb⟩ | ⟨i, rfl, hb⟩ | ⟨g1, g2, hb⟩
      · rw [hb]
        rw [h1] at hp
        generalize hl : (Instr.bind i :: r) = l at hp
        cases hp with
        | start => rw [control_eq] at hl; cases hl
        | posting k => cases hl
        | waiting k _ => cases hl
        | pbind d j js _ => cases hl; rfl
        | ppost => cases hl
        | pwait => cases hl
        | punbind => cases hl
        | postInit => cases hl
        | letting k _ => cases hl
        | qbind => cases hl; rfl
        | qwait => cases hl
        | qunbind => cases hl
        | control => cases hl
        | ended => cases hl
        | escaping => cases hl
        | empty => cases hl
      · rw [hb]
        rw [h1] at hp
        generalize hl : (Instr.unbind i :: r) = l at hp
        cases hp with
        | start => rw [control_eq] at hl; cases hl
        | posting k => cases hl
        | waiting k _ => cases hl
        | pbind d j js _ => cases hl
        | ppost => cases hl
        | pwait => cases hl
        | punbind d j js _ => cases hl; exact (holder_PF c js).symm
        | postInit => cases hl
        | letting k _ => cases hl
        | qbind => cases hl
        | qwait => cases hl
        | qunbind d j js _ => cases hl; exact (holder_QF js).symm
        | control => cases hl
        | ended => cases hl
        | escaping => cases hl
        | empty => cases hl
      · rw [hb]
        have ih' : s.bound = holder (x :: r) := h1 ▸ ih
        rw [show ({ s with rest := fun j => if j = 0 then r else s.rest j } : State).bound = s.bound from rfl, ih']
        cases x with
        | bind i => exact absurd rfl (g1 i)
        | unbind i => exact absurd rfl (g2 i)
        | _ => rfl


/-- Where the control thread is while an interface holds the scheduling context. -/
theorem holding {c : Config} {s : State} (h : Reach c s) {i : Nat} (hb : s.bound = some i) :
    ∃ d js, passives c = d ++ i :: js ∧
      ((s.rest 0 = .post .pre :: .wait .ini :: .unbind i :: PF c js ∨ s.rest 0 = .wait .ini :: .unbind i :: PF c js ∨ s.rest 0 = .unbind i :: PF c js) ∨
       (s.rest 0 = .await :: .unbind i :: QF js ∨ s.rest 0 = .unbind i :: QF js)) := by
  rw [reach_bound h] at hb
  have hp := place h
  generalize hl : s.rest 0 = l at hb hp
  cases hp with
  | start => rw [holder_start] at hb; cases hb
  | posting k => rw [holder_replicate, holder_replicate', holder_PF] at hb; cases hb
  | waiting k _ => rw [holder_replicate', holder_PF] at hb; cases hb
  | pbind d j js _ => cases hb
  | ppost d j js hj => cases hb; exact ⟨d, js, hj, .inl (.inl rfl)⟩
  | pwait d j js hj => cases hb; exact ⟨d, js, hj, .inl (.inr (.inl rfl))⟩
  | punbind d j js hj => cases hb; exact ⟨d, js, hj, .inl (.inr (.inr rfl))⟩
  | postInit =>
    have : holder (Instr.act .postInit :: after c) = none := holder_PF c []
    rw [this] at hb; cases hb
  | letting k _ => rw [holder_replicate, holder_QF] at hb; cases hb
  | qbind => cases hb
  | qwait d j js hj => cases hb; exact ⟨d, js, hj, .inr (.inl rfl)⟩
  | qunbind d j js hj => cases hb; exact ⟨d, js, hj, .inr (.inr rfl)⟩
  | control => cases hb
  | ended => cases hb
  | escaping => cases hb
  | empty => cases hb

theorem split_facts {c : Config} {d js : List Nat} {i : Nat} (h : passives c = d ++ i :: js) :
    i ∈ passives c ∧ js.count i = 0 ∧ (passives c).count i = 1 ∧ (i :: js).Nodup ∧ ∀ j ∈ js, j ∈ passives c := by
  have hn := passives_nodup c
  have hm : i ∈ passives c := by rw [h]; simp
  have h2 : (i :: js).Nodup := by rw [h] at hn; exact hn.sublist (List.sublist_append_right _ _)
  refine ⟨hm, List.count_eq_zero.mpr (List.nodup_cons.mp h2).1, List.count_eq_one_of_mem hn hm, h2, fun j hj => ?_⟩
  rw [h]; simp [hj]

theorem holding_bind {c : Config} {s : State} (h : Reach c s) {i : Nat} (hb : s.bound = some i) :
    (s.rest 0).count (.bind i) ≤ 1 ∧ (.act .postInit ∉ s.rest 0 → (s.rest 0).count (.bind i) = 0) := by
  obtain ⟨d, js, h1, h2⟩ := holding h hb
  obtain ⟨g1, g2, g3, _⟩ := split_facts h1
  have hpf := (PF_bind c js i).1
  have hqf := (QF_bind js i).1
  rw [g2, g3] at hpf
  rw [g2] at hqf
  rcases h2 with (h2 | h2 | h2) | (h2 | h2) <;> rw [h2] <;> simp only [List.count_cons, hpf, hqf] <;> simp [PF]

theorem canRun_passive {c : Config} {s : State} {i : Nat} (hi : i ∈ passives c) (h : canRun c s (i + 1) = true) : s.bound = some i := by
  have hlt := passives_lt c i hi
  have hp := (mem_passives c i hlt).mp hi
  simp only [canRun] at h
  rw [List.getElem?_eq_getElem hlt] at h
  simpa [hp] using h

/-- A passive interface does not move before it is given the scheduling context. -/
theorem untouched {c : Config} {s : State} (h : Reach c s) (i : Nat) (hi : i ∈ passives c) :
    s.rest (i + 1) = program c (i + 1) ∨ (s.rest 0).count (.bind i) ≤ 1 := by
  induction h with
  | start => exact .inl rfl
  | @step s s' k hr hs ih =>
    obtain ⟨x, r, h1, hc, h2, h3⟩ := step_some hs
    have hle : (s'.rest 0).count (.bind i) ≤ (s.rest 0).count (.bind i) := by
      rw [h2]
      beta_reduce
      split
      · rename_i h0; subst h0; rw [h1, List.count_cons]; omega
      · exact le_refl _
    by_cases hk : k = i + 1
    · subst hk
      right
      exact hle.trans (holding_bind hr (canRun_passive hi hc)).1
    · rcases ih with ih | ih
      · left; rw [h2]; beta_reduce; rw [if_neg (fun e => hk e.symm)]; exact ih
      · right; exact hle.trans ih

/-- The passive path is taken by the passive interfaces. -/
def Right (c : Config) : Prop := ∀ i (hi : i < c.ifaces.length), takesPassive c c.ifaces[i] = c.ifaces[i].passive

theorem signal_count {c : Config} (hR : Right c) (i : Nat) (hi : i < c.ifaces.length) :
    (program c (i + 1)).count .signal = if c.ifaces[i].passive then 1 else 0 := by
  rw [program_iface c i hi, ifaceProgram, servePart, hR i hi]
  cases c.ifaces[i].passive <;> simp [List.count_cons]

/-- A passive interface tells that it is ready only when it is waited for. -/
theorem signalled {c : Config} (hR : Right c) {s : State} (h : Reach c s) (i : Nat) (hi : i ∈ passives c) :
    .signal ∈ s.rest (i + 1) ∨ (s.rest 0).count (.bind i) = 0 := by
  have hlt := passives_lt c i hi
  induction h with
  | start =>
    left
    show Instr.signal ∈ program c (i + 1)
    have := signal_count hR i hlt
    rw [if_pos ((mem_passives c i hlt).mp hi)] at this
    exact List.count_pos_iff.mp (by omega)
  | @step s s' k hr hs ih =>
    obtain ⟨x, r, h1, hc, h2, h3⟩ := step_some hs
    have hle : (s'.rest 0).count (.bind i) ≤ (s.rest 0).count (.bind i) := by
      rw [h2]
      beta_reduce
      split
      · rename_i h0; subst h0; rw [h1, List.count_cons]; omega
      · exact le_refl _
    rcases ih with ih | ih
    · by_cases hk : k = i + 1
      · subst hk
        by_cases hx : x = .signal
        · subst hx
          right
          have hb := canRun_passive hi hc
          have hd : (s.rest (i + 1)).count (.wait .post) = 0 := by
            have hsfx := reach_suffix hr (i + 1)
            rw [program_iface c i hlt] at hsfx
            rcases iface_cases c i _ hsfx with g | g | g | g | ⟨p, y, hp, g⟩ | g | g | g
            · rw [h1] at g; cases g
            · rw [h1] at g; cases g
            · rw [h1] at g; cases g
            · rw [h1] at g; cases g
            · rw [g, List.count_append]
              have := hp.sublist.count_le (.wait .post)
              rw [serve_count c i _ _ (by simp) (by simp) (by simp)] at this
              have e : ([.wait .pre, .act (.escape i)] : List Instr).count (.wait .post) = 0 := by simp
              omega
            · rw [h1] at g; cases g
            · rw [h1] at g; cases g
            · rw [h1] at g; cases g
          have := (holding_bind hr hb).2 (ran_past hr i hlt hd)
          omega
        · left
          rw [h2]; beta_reduce; rw [if_pos rfl]
          rw [h1, List.mem_cons] at ih
          rcases ih with ih | ih
          · exact absurd ih.symm hx
          · exact ih
      · left; rw [h2]; beta_reduce; rw [if_neg (fun e => hk e.symm)]; exact ih
    · right; omega

theorem sum_indicator (n : Nat) (p : Nat → Bool) : ∑ i ∈ Finset.range n, (if p i then 1 else 0) = ((List.range n).filter p).length := by
  induction n with
  | zero => rfl
  | succ n ih =>
    rw [Finset.sum_range_succ, ih, List.range_succ, List.filter_append, List.length_append]
    cases h : p n <;> simp [h]

/-- A list of different threads that count at least once. -/
theorem length_le_sum {n : Nat} {f : Nat → Nat} {L : List Nat} (hn : L.Nodup) (hL : ∀ j ∈ L, j < n ∧ 1 ≤ f j) : L.length ≤ ∑ i ∈ Finset.range n, f i := by
  have h1 : L.length = ∑ i ∈ L.toFinset, 1 := by simp [List.toFinset_card_of_nodup hn]
  rw [h1]
  refine (Finset.sum_le_sum (g := f) fun i hi => (hL i (List.mem_toFinset.mp hi)).2).trans ?_
  exact Finset.sum_le_sum_of_subset fun i hi => Finset.mem_range.mpr (hL i (List.mem_toFinset.mp hi)).1

/-- If the sum is no more than the number of the threads in the list, the others count nothing. -/
theorem zero_outside {n : Nat} {f : Nat → Nat} {L : List Nat} (hn : L.Nodup) (hL : ∀ j ∈ L, j < n ∧ 1 ≤ f j)
    (hs : ∑ i ∈ Finset.range n, f i ≤ L.length) {i : Nat} (hi : i < n) (hm : i ∉ L) : f i = 0 := by
  by_contra h0
  have := length_le_sum (L := i :: L) (List.nodup_cons.mpr ⟨hm, hn⟩) (f := f) (n := n) (by
    intro j hj
    rcases List.mem_cons.mp hj with rfl | hj
    · exact ⟨hi, by omega⟩
    · exact hL j hj)
  rw [List.length_cons] at this
  omega

/-- Passive interfaces that are still to be given the scheduling context for the last time are to signal. -/
theorem sig_js {c : Config} (hR : Right c) {s : State} (h : Reach c s) {js : List Nat} (hjs : ∀ j ∈ js, j ∈ passives c)
    (hq : ∀ j ∈ js, 1 ≤ (s.rest 0).count (.bind j)) : ∀ j ∈ js, j < c.ifaces.length ∧ 1 ≤ (s.rest (j + 1)).count .signal := by
  intro j hj
  refine ⟨passives_lt c j (hjs j hj), ?_⟩
  rcases signalled hR h j (hjs j hj) with h1 | h1
  · exact List.count_pos_iff.mpr h1
  · have := hq j hj; omega

/-- Signals are neither lost nor merged. -/
theorem eq_ntfn {c : Config} (hR : Right c) {s : State} (h : Reach c s) :
    (if s.ntfn then 1 else 0) + ∑ i ∈ Finset.range c.ifaces.length, (s.rest (i + 1)).count .signal = (s.rest 0).count .await := by
  induction h with
  | start =>
    simp only [start]
    rw [control_eq, List.count_cons, List.count_append, List.count_append, List.count_replicate, List.count_replicate, (PF_counts c _).2.2]
    have : ∑ i ∈ Finset.range c.ifaces.length, (program c (i + 1)).count .signal =
        ∑ i ∈ Finset.range c.ifaces.length, (if (c.ifaces[i]?.any (·.passive)) = true then 1 else 0) := by
      refine Finset.sum_congr rfl fun i hi => ?_
      rw [signal_count hR i (Finset.mem_range.mp hi), List.getElem?_eq_getElem (Finset.mem_range.mp hi)]
      rfl
    rw [this, sum_indicator]
    simp [passives]
  | @step s s' k hr hs ih =>
    obtain ⟨x, r, h1, hc, h2, h3⟩ := step_some hs
    have hk := step_lt hr hs
    have e1 := total_step c s.rest k hk x r h1 .signal
    have e2 := total_step c s.rest k hk x r h1 .await
    rw [← h2, total_split, total_split] at e1 e2
    have hz : ∀ t : State, Reach c t → (t.rest 0).count .signal = 0 ∧ (t.rest (c.ifaces.length + 1)).count .signal = 0 ∧
        (t.rest (c.ifaces.length + 1)).count .await = 0 ∧ ∑ i ∈ Finset.range c.ifaces.length, (t.rest (i + 1)).count .await = 0 := by
      intro t ht
      refine ⟨?_, ?_, ?_, ?_⟩
      · rw [List.count_eq_zero]
        intro hm
        have := (reach_suffix ht 0).subset hm
        simp [program, controlProgram, preSync, postSync] at this
      · rw [List.count_eq_zero]
        intro hm
        have := (reach_suffix ht _).subset hm
        rw [program_fault, faultProgram] at this
        split at this <;> simp at this
      · rw [List.count_eq_zero]
        intro hm
        exact (iface_no_bind c _ 0).2.2 ((reach_suffix ht _).subset hm)
      · apply sum_zero
        intro i _
        rw [List.count_eq_zero]
        intro hm
        exact (iface_no_bind c _ 0).2.2 ((reach_suffix ht _).subset hm)
    obtain ⟨z1, z2, z3, z4⟩ := hz s hr
    obtain ⟨y1, y2, y3, y4⟩ := hz s' (.step k hr hs)
    rcases exec_ntfn h3 with ⟨rfl, hn⟩ | ⟨rfl, hn1, hn2⟩ | ⟨hx1, hx2, hn⟩
    · rw [hn]
      simp only [if_true, reduceCtorEq, if_false] at e1 e2 ⊢
      -- the flag was down
      suffices hflag : s.ntfn = false by
        rw [hflag] at ih
        simp only [Bool.false_eq_true, if_false] at ih
        omega
      cases hf : s.ntfn with
      | false => rfl
      | true =>
        exfalso
        rw [hf] at ih
        simp only [if_true] at ih
        obtain ⟨i, rfl⟩ : ∃ i, k = i + 1 := by
          cases k with
          | zero => exact absurd (h1 ▸ List.mem_cons_self) (List.count_eq_zero.mp z1)
          | succ i => exact ⟨i, rfl⟩
        have hi : i < c.ifaces.length := by
          by_contra hge
          have : i = c.ifaces.length := by unfold size at hk; omega
          subst this
          exact absurd (h1 ▸ List.mem_cons_self) (List.count_eq_zero.mp z2)
        have hpas : i ∈ passives c := by
          rw [mem_passives c i hi]
          by_contra hnp
          have := signal_count hR i hi
          rw [if_neg hnp] at this
          exact absurd ((reach_suffix hr _).subset (h1 ▸ List.mem_cons_self)) (List.count_eq_zero.mp this)
        have hb := canRun_passive hpas hc
        obtain ⟨d, js, g1, g2⟩ := holding hr hb
        obtain ⟨q1, q2, q3, q4, q5⟩ := split_facts g1
        have hd : .act .postInit ∉ s.rest 0 := by
          apply ran_past hr i hi
          have hsfx := reach_suffix hr (i + 1)
          rw [program_iface c i hi] at hsfx
          rcases iface_cases c i _ hsfx with g | g | g | g | ⟨p, y, hp, g⟩ | g | g | g
          · rw [h1] at g; cases g
          · rw [h1] at g; cases g
          · rw [h1] at g; cases g
          · rw [h1] at g; cases g
          · rw [g, List.count_append]
            have := hp.sublist.count_le (.wait .post)
            rw [serve_count c i _ _ (by simp) (by simp) (by simp)] at this
            have e : ([.wait .pre, .act (.escape i)] : List Instr).count (.wait .post) = 0 := by simp
            omega
          · rw [h1] at g; cases g
          · rw [h1] at g; cases g
          · rw [h1] at g; cases g
        have hjs : ∀ j ∈ js, 1 ≤ (s.rest 0).count (.bind j) := by
          intro j hj
          have hqf := (QF_bind js j).1
          have hpf := (PF_bind c js j).1
          have : 1 ≤ js.count j := List.count_pos_iff.mpr hj
          rcases g2 with (g2 | g2 | g2) | (g2 | g2) <;> rw [g2] <;> simp only [List.count_cons, hqf, hpf] <;> omega
        have hl := length_le_sum (n := c.ifaces.length) (f := fun i => (s.rest (i + 1)).count .signal) q4 (by
          intro j hj
          rcases List.mem_cons.mp hj with rfl | hj
          · exact ⟨hi, by rw [h1, List.count_cons_self]; omega⟩
          · exact sig_js hR hr q5 hjs j hj)
        have hqa := (QF_counts js).1
        rw [List.length_cons] at hl
        rcases g2 with (g2 | g2 | g2) | (g2 | g2)
        · exact hd (by rw [g2]; simp [PF])
        · exact hd (by rw [g2]; simp [PF])
        · exact hd (by rw [g2]; simp [PF])
        · rw [g2] at ih; simp only [List.count_cons, hqa] at ih; simp at ih; omega
        · rw [g2] at ih; simp only [List.count_cons, hqa] at ih; simp at ih; omega
    · rw [hn2]
      rw [show s.ntfn = true from hn1] at ih
      simp only [if_true, reduceCtorEq, if_false, Bool.false_eq_true] at e1 e2 ih ⊢
      omega
    · rw [hn]
      rw [if_neg hx1] at e1
      rw [if_neg hx2] at e2
      simp only
      omega

end Verif.Startup
