import Verif.Process.Spec
import Mathlib.Tactic.SplitIfs
import Mathlib.Tactic.ByContra
import Mathlib.Tactic.Ring

/-!
# Lemmas on storage
-/

namespace Verif.Process

theorem upd_same {α} (f : Nat → α) (k : Nat) (v : α) : upd f k v k = v := by simp [upd]

theorem upd_other {α} (f : Nat → α) (k : Nat) (v : α) (x : Nat) (h : x ≠ k) : upd f k v x = f x := by simp [upd, h]

theorem camkesPid_cons (i : Nat) (is : List Nat) (me : Nat) :
    camkesPid (i :: is) me = if i = me then some 2 else (camkesPid is me).map (· + 1) := rfl

theorem camkesPid_ge : ∀ (is : List Nat) (me p : Nat), camkesPid is me = some p → 2 ≤ p
  | [], me, p, h => by simp [camkesPid] at h
  | i :: is, me, p, h => by
    rw [camkesPid_cons] at h
    by_cases hi : i = me
    · rw [if_pos hi] at h; simp at h; omega
    · rw [if_neg hi] at h
      cases hq : camkesPid is me with
      | none => rw [hq] at h; simp at h
      | some q =>
        rw [hq] at h; simp at h
        have := camkesPid_ge is me q hq
        omega

theorem camkesPid_inj : ∀ (is : List Nat) (a b p : Nat), camkesPid is a = some p → camkesPid is b = some p → a = b
  | [], a, b, p, h, _ => by simp [camkesPid] at h
  | i :: is, a, b, p, ha, hb => by
    rw [camkesPid_cons] at ha hb
    by_cases hia : i = a
    · by_cases hib : i = b
      · exact hia.symm.trans hib
      · rw [if_pos hia] at ha; rw [if_neg hib] at hb
        cases hq : camkesPid is b with
        | none => rw [hq] at hb; simp at hb
        | some q =>
          have := camkesPid_ge is b q hq
          rw [hq] at hb; simp at ha hb; omega
    · rw [if_neg hia] at ha
      cases hr : camkesPid is a with
      | none => rw [hr] at ha; simp at ha
      | some r =>
        have hr2 := camkesPid_ge is a r hr
        rw [hr] at ha; simp at ha
        by_cases hib : i = b
        · rw [if_pos hib] at hb; simp at hb; omega
        · rw [if_neg hib] at hb
          cases hq : camkesPid is b with
          | none => rw [hq] at hb; simp at hb
          | some q =>
            rw [hq] at hb; simp at hb
            have : q = r := by omega
            exact camkesPid_inj is a b r hr (this ▸ hq)

theorem camkesPid_mem : ∀ (is : List Nat) (me : Nat), me ∈ is → ∃ p, camkesPid is me = some p
  | i :: is, me, h => by
    rw [camkesPid_cons]
    by_cases hi : i = me
    · exact ⟨2, if_pos hi⟩
    · rw [if_neg hi]
      have hm : me ∈ is := by
        rcases List.mem_cons.mp h with h | h
        · exact absurd h.symm hi
        · exact h
      obtain ⟨p, hp⟩ := camkesPid_mem is me hm
      exact ⟨p + 1, by rw [hp]; rfl⟩

/-! ## Storage -/

/-- Where the storage of the threads other than the control thread is. -/
def region (cfg : Cfg) (k : Nat) : Nat :=
  if cfg.size < cfg.static_ then cfg.staticBase + k * cfg.static_ else cfg.malloc k

theorem regionLoop_succ (cfg : Cfg) (n : Nat) (r : Nat → Nat) :
    regionLoop cfg (n + 1) r =
      match regionLoop cfg n r with
      | none => none
      | some r =>
        if cfg.size < cfg.static_ then some (upd r n (cfg.staticBase + n * cfg.static_))
        else if cfg.malloc n = 0 then none
        else some (upd r n (cfg.malloc n)) := rfl

theorem regionLoop_some (cfg : Cfg) (hb : cfg.staticBase ≠ 0) : ∀ (n : Nat) (r r' : Nat → Nat), regionLoop cfg n r = some r' →
    ∀ k, k < n → r' k = region cfg k ∧ region cfg k ≠ 0
  | 0, r, r', _, k, hk => by omega
  | n + 1, r, r', h, k, hk => by
    rw [regionLoop_succ] at h
    cases hq : regionLoop cfg n r with
    | none => rw [hq] at h; simp at h
    | some q =>
      rw [hq] at h
      have ih := regionLoop_some cfg hb n r q hq
      simp only at h
      by_cases hs : cfg.size < cfg.static_
      · rw [if_pos hs] at h
        obtain rfl := Option.some.inj h
        by_cases hkn : k = n
        · subst hkn
          rw [upd_same]
          unfold region
          rw [if_pos hs]
          exact ⟨rfl, by omega⟩
        · rw [upd_other _ _ _ _ hkn]
          exact ih k (by omega)
      · rw [if_neg hs] at h
        by_cases hm : cfg.malloc n = 0
        · rw [if_pos hm] at h; simp at h
        · rw [if_neg hm] at h
          obtain rfl := Option.some.inj h
          by_cases hkn : k = n
          · subst hkn
            rw [upd_same]
            unfold region
            rw [if_neg hs]
            exact ⟨rfl, hm⟩
          · rw [upd_other _ _ _ _ hkn]
            exact ih k (by omega)

theorem regionLoop_none (cfg : Cfg) : ∀ (n : Nat) (r : Nat → Nat), regionLoop cfg n r = none →
    cfg.static_ ≤ cfg.size ∧ ∃ k, k < n ∧ cfg.malloc k = 0
  | 0, r, h => by simp [regionLoop] at h
  | n + 1, r, h => by
    rw [regionLoop_succ] at h
    cases hq : regionLoop cfg n r with
    | none =>
      obtain ⟨h1, k, h2, h3⟩ := regionLoop_none cfg n r hq
      exact ⟨h1, k, by omega, h3⟩
    | some q =>
      rw [hq] at h
      simp only at h
      by_cases hs : cfg.size < cfg.static_
      · rw [if_pos hs] at h; simp at h
      · rw [if_neg hs] at h
        by_cases hm : cfg.malloc n = 0
        · exact ⟨by omega, n, by omega, hm⟩
        · rw [if_neg hm] at h; simp at h

/-- Where the storage of thread `j` is. -/
def place (cfg : Cfg) (j : Nat) : Nat := if j = 0 then cfg.initial else region cfg (j - 1)

theorem region_apart {cfg : Cfg} (hs : Sound cfg) {i j : Nat} (hij : i < j) (hj : j < cfg.threads.length - 1)
    (hi0 : region cfg i ≠ 0) (hj0 : region cfg j ≠ 0) : Apart (region cfg i) (region cfg j) cfg.size := by
  unfold region at *
  by_cases h : cfg.size < cfg.static_
  · rw [if_pos h, if_pos h]
    left
    have h1 : (i + 1) * cfg.static_ ≤ j * cfg.static_ := Nat.mul_le_mul_right _ hij
    have h2 : (i + 1) * cfg.static_ = i * cfg.static_ + cfg.static_ := by ring
    omega
  · rw [if_neg h] at hi0 hj0 ⊢
    rw [if_neg h]
    exact hs.blocks i j hij hj hi0 hj0

theorem initial_apart {cfg : Cfg} (hs : Sound cfg) {i : Nat} (hi : i < cfg.threads.length - 1) (hi0 : region cfg i ≠ 0) :
    Apart cfg.initial (region cfg i) cfg.size := by
  unfold region at *
  by_cases h : cfg.size < cfg.static_
  · rw [if_pos h]
    have h1 : (i + 1) * cfg.static_ ≤ (cfg.threads.length - 1) * cfg.static_ := Nat.mul_le_mul_right _ hi
    have h2 : (i + 1) * cfg.static_ = i * cfg.static_ + cfg.static_ := by ring
    rcases hs.arrayApart with ha | ha
    · left; omega
    · right; omega
  · rw [if_neg h] at hi0 ⊢
    exact hs.blocksApart i hi hi0

theorem Apart.symm {a b n : Nat} (h : Apart a b n) : Apart b a n := Or.symm h

/-- The places of two threads do not overlap. -/
theorem place_apart {cfg : Cfg} (hs : Sound cfg) (hr : ∀ k, k < cfg.threads.length - 1 → region cfg k ≠ 0) {i j : Nat} (hij : i ≠ j)
    (hi : i < cfg.threads.length) (hj : j < cfg.threads.length) : Apart (place cfg i) (place cfg j) cfg.size := by
  unfold place
  by_cases hi0 : i = 0
  · rw [if_pos hi0, if_neg (by omega)]
    exact initial_apart hs (by omega) (hr _ (by omega))
  · rw [if_neg hi0]
    by_cases hj0 : j = 0
    · rw [if_pos hj0]
      exact (initial_apart hs (by omega) (hr _ (by omega))).symm
    · rw [if_neg hj0]
      rcases Nat.lt_or_gt_of_ne hij with h | h
      · exact region_apart hs (by omega) (by omega) (hr _ (by omega)) (hr _ (by omega))
      · exact (region_apart hs (by omega) (by omega) (hr _ (by omega)) (hr _ (by omega))).symm

theorem caseOf_cons (t : Thread) (ts : List Thread) (id : Nat) :
    caseOf (t :: ts) id = if t.tcb = id then some 0 else (caseOf ts id).map (· + 1) := rfl

/-- The case of a thread is that of its place. -/
theorem caseOf_get : ∀ (ts : List Thread) (j : Nat) (t : Thread), ts[j]? = some t →
    (∀ (i : Nat) (ti : Thread), ts[i]? = some ti → ti.tcb = t.tcb → i = j) → caseOf ts t.tcb = some j
  | [], j, t, h, _ => by simp at h
  | u :: us, 0, t, h, hu => by
    have hut : u = t := by simpa using h
    rw [caseOf_cons, if_pos (by rw [hut])]
  | u :: us, j + 1, t, h, hu => by
    rw [caseOf_cons, if_neg]
    · rw [caseOf_get us j t (by simpa using h)]
      · rfl
      · intro i ti hi he
        have := hu (i + 1) ti (by simpa using hi) he
        omega
    · intro he
      have := hu 0 u (by simp) he
      omega

/-- The invariant. -/
structure Inv (cfg : Cfg) (s : St) : Prop where
  base0 : s.base 0 = cfg.initial
  zero : ∀ j, s.inited j = true → s.inited 0 = true
  bases : ∀ j, s.inited j = true → s.base j = place cfg j ∧ j < cfg.threads.length
  regs : s.inited 0 = true → ∀ k, k < cfg.threads.length - 1 → s.regions k = region cfg k ∧ region cfg k ≠ 0

theorem inv_boot (cfg : Cfg) : Inv cfg (boot cfg) where
  base0 := by simp [boot, upd]
  zero := by simp [boot]
  bases := by simp [boot]
  regs := by simp [boot]

/-- `tlsInit` of the control thread. -/
theorem tlsInit_zero {cfg : Cfg} (hs : Sound cfg) (s : St) (t : Thread) (ht : cfg.threads[0]? = some t) :
    tlsInit cfg s 0 t.tcb =
      { s with mem := upd (upd s.mem (s.base 0 + cfg.tcbOff) t.tcb) (s.base 0 + cfg.indexOff) 1 } := by
  unfold tlsInit
  rw [caseOf_get cfg.threads 0 t ht (fun i ti hi he => hs.tcbs i 0 ti t hi ht he)]
  simp

/-- `tlsInit` of another thread. -/
theorem tlsInit_pos {cfg : Cfg} (hs : Sound cfg) {s : St} (hi : Inv cfg s) (h0 : s.inited 0 = true) {j : Nat} (hj : j ≠ 0) (t : Thread)
    (ht : cfg.threads[j]? = some t) :
    tlsInit cfg s j t.tcb =
      { s with base := upd s.base j (place cfg j)
               mem := upd (upd (writeImage cfg s.mem (place cfg j)) (place cfg j + cfg.tcbOff) t.tcb) (place cfg j + cfg.indexOff) (j + 1) } := by
  have hlt : j < cfg.threads.length := by
    by_contra h
    rw [List.getElem?_eq_none (by omega)] at ht
    simp at ht
  have hr := hi.regs h0 (j - 1) (by omega)
  unfold tlsInit
  rw [caseOf_get cfg.threads j t ht (fun i ti hi he => hs.tcbs i j ti t hi ht he)]
  simp only [hj, if_false, hr.1, hr.2]
  have hp : place cfg j = region cfg (j - 1) := by unfold place; rw [if_neg hj]
  rw [hp]

theorem doStart_zero {cfg : Cfg} (hs : Sound cfg) (s : St) (t : Thread) (ht : cfg.threads[0]? = some t) (h0 : s.inited 0 = false) :
    doStart cfg s 0 =
      match regionLoop cfg (cfg.threads.length - 1) s.regions with
      | none => { s with mem := upd (upd s.mem (s.base 0 + cfg.tcbOff) t.tcb) (s.base 0 + cfg.indexOff) 1, dead := true }
      | some r => { s with mem := upd (upd s.mem (s.base 0 + cfg.tcbOff) t.tcb) (s.base 0 + cfg.indexOff) 1, regions := r,
                           inited := upd s.inited 0 true } := by
  unfold doStart
  rw [ht]
  simp only [h0, tlsInit_zero hs s t ht]
  cases hq : regionLoop cfg (cfg.threads.length - 1) s.regions <;> simp [hq]

theorem doStart_pos {cfg : Cfg} (hs : Sound cfg) {s : St} (hi : Inv cfg s) (h0 : s.inited 0 = true) {j : Nat} (hj : j ≠ 0) (t : Thread)
    (ht : cfg.threads[j]? = some t) (hn : s.inited j = false) :
    doStart cfg s j =
      { s with base := upd s.base j (place cfg j)
               mem := upd (upd (writeImage cfg s.mem (place cfg j)) (place cfg j + cfg.tcbOff) t.tcb) (place cfg j + cfg.indexOff) (j + 1)
               inited := upd s.inited j true } := by
  unfold doStart
  rw [ht]
  simp only [hn, h0, hj, tlsInit_pos hs hi h0 hj t ht]
  simp

/-- The ways in which a step changes the state. -/
inductive Moves (cfg : Cfg) (s : St) (e : Step) : St → Prop
  | stay : Moves cfg s e s
  | dies (m : Nat → Nat) (k : Nat) : s.inited 0 = false → cfg.static_ ≤ cfg.size → k < cfg.threads.length - 1 → cfg.malloc k = 0 →
      Moves cfg s e { s with mem := m, dead := true }
  | control (t : Thread) (r : Nat → Nat) : e.who = 0 → s.inited 0 = false → cfg.threads[0]? = some t → e = .start 0 →
      (∀ k, k < cfg.threads.length - 1 → r k = region cfg k ∧ region cfg k ≠ 0) →
      Moves cfg s e { s with mem := upd (upd s.mem (s.base 0 + cfg.tcbOff) t.tcb) (s.base 0 + cfg.indexOff) 1, regions := r,
                             inited := upd s.inited 0 true }
  | other (j : Nat) (t : Thread) : e = .start j → j ≠ 0 → s.inited 0 = true → s.inited j = false → cfg.threads[j]? = some t →
      Moves cfg s e { s with
        base := upd s.base j (place cfg j)
        mem := upd (upd (writeImage cfg s.mem (place cfg j)) (place cfg j + cfg.tcbOff) t.tcb) (place cfg j + cfg.indexOff) (j + 1)
        inited := upd s.inited j true }
  | store (j off v : Nat) : e = .store j off v → s.inited j = true → off < cfg.size →
      Moves cfg s e { s with mem := upd s.mem (s.base j + off) v }
  | quit (j : Nat) : e = .quit j → s.inited j = true →
      Moves cfg s e { s with runs := suspend cfg.threads 0 (s.mem (s.base j + cfg.tcbOff)) s.runs }

theorem moves {cfg : Cfg} (hs : Sound cfg) {s : St} (hi : Inv cfg s) (e : Step) : Moves cfg s e (step cfg s e) := by
  unfold step
  by_cases hd : (s.dead || !s.runs e.who) = true
  · rw [if_pos hd]; exact .stay
  rw [if_neg hd]
  cases e with
  | start j =>
    simp only
    cases ht : cfg.threads[j]? with
    | none =>
      have : doStart cfg s j = s := by unfold doStart; rw [ht]
      rw [this]; exact .stay
    | some t =>
      by_cases hn : s.inited j = true
      · have : doStart cfg s j = s := by unfold doStart; rw [ht]; simp [hn]
        rw [this]; exact .stay
      · have hn : s.inited j = false := by simpa using hn
        by_cases hj : j = 0
        · subst hj
          rw [doStart_zero hs s t ht hn]
          cases hr : regionLoop cfg (cfg.threads.length - 1) s.regions with
          | none =>
            obtain ⟨h1, k, h2, h3⟩ := regionLoop_none _ _ _ hr
            exact .dies _ k hn h1 h2 h3
          | some r => exact .control t r rfl hn ht rfl (regionLoop_some cfg hs.array _ _ _ hr)
        · by_cases h0 : s.inited 0 = true
          · rw [doStart_pos hs hi h0 hj t ht hn]
            exact .other j t rfl hj h0 hn ht
          · have : doStart cfg s j = s := by unfold doStart; rw [ht]; simp [hn, h0, hj]
            rw [this]; exact .stay
  | store j off v =>
    simp only
    by_cases h : (s.inited j && decide (off < cfg.size)) = true
    · rw [if_pos h]
      simp at h
      exact .store j off v rfl h.1 h.2
    · rw [if_neg h]; exact .stay
  | quit j =>
    simp only
    by_cases h : s.inited j = true
    · rw [if_pos h]; exact .quit j rfl h
    · rw [if_neg h]; exact .stay

theorem inv_step {cfg : Cfg} (hs : Sound cfg) {s : St} (hi : Inv cfg s) (e : Step) : Inv cfg (step cfg s e) := by
  have hm := moves hs hi e
  generalize step cfg s e = s' at hm
  cases hm with
  | stay => exact hi
  | dies m k h0 _ _ _ => exact ⟨hi.base0, hi.zero, hi.bases, hi.regs⟩
  | control t r _ h0 ht _ hr =>
    refine ⟨hi.base0, fun j _ => upd_same s.inited 0 true, fun j hj => ?_, fun _ => hr⟩
    by_cases hj0 : j = 0
    · subst hj0
      refine ⟨by rw [hi.base0]; simp [place], ?_⟩
      by_contra h
      rw [List.getElem?_eq_none (by omega)] at ht
      simp at ht
    · have hj' : s.inited j = true := by
        have : upd s.inited 0 true j = true := hj
        rwa [upd_other _ _ _ _ hj0] at this
      exact hi.bases j hj'
  | other j t _ hj h0 hn ht =>
    have hlt : j < cfg.threads.length := by
      by_contra h
      rw [List.getElem?_eq_none (by omega)] at ht
      simp at ht
    refine ⟨?_, fun k _ => ?_, fun k hk => ?_, fun _ => hi.regs h0⟩
    · show upd s.base j _ 0 = _
      rw [upd_other _ _ _ _ (Ne.symm hj)]
      exact hi.base0
    · show upd s.inited j true 0 = true
      rw [upd_other _ _ _ _ (Ne.symm hj)]
      exact h0
    · show upd s.base j (place cfg j) k = _ ∧ _
      by_cases hkj : k = j
      · subst hkj
        exact ⟨upd_same .., hlt⟩
      · have hk' : s.inited k = true := by
          have : upd s.inited j true k = true := hk
          rwa [upd_other _ _ _ _ hkj] at this
        rw [upd_other _ _ _ _ hkj]
        exact hi.bases k hk'
  | store j off v _ _ _ => exact ⟨hi.base0, hi.zero, hi.bases, hi.regs⟩
  | quit j _ _ => exact ⟨hi.base0, hi.zero, hi.bases, hi.regs⟩

theorem inv_run {cfg : Cfg} (hs : Sound cfg) : ∀ (es : List Step) (s : St), Inv cfg s → Inv cfg (run cfg s es)
  | [], _, h => h
  | e :: es, s, h => inv_run hs es (step cfg s e) (inv_step hs h e)

theorem inv_reachable {cfg : Cfg} (hs : Sound cfg) {s : St} (h : Reachable cfg s) : Inv cfg s := by
  obtain ⟨es, rfl⟩ := h
  exact inv_run hs es _ (inv_boot cfg)

/-- A step does not take a thread back. -/
theorem inited_step {cfg : Cfg} (hs : Sound cfg) {s : St} (hi : Inv cfg s) (e : Step) (j : Nat) (h : s.inited j = true) :
    (step cfg s e).inited j = true ∧ (step cfg s e).base j = s.base j := by
  have hb := hi.bases j h
  have hb' := (inv_step hs hi e).bases j
  have : (step cfg s e).inited j = true := by
    have hm := moves hs hi e
    generalize step cfg s e = s' at hm
    cases hm with
    | stay => exact h
    | dies => exact h
    | control t r _ h0 ht _ hr =>
      show upd s.inited 0 true j = true
      by_cases hj : j = 0
      · subst hj; exact upd_same ..
      · rw [upd_other _ _ _ _ hj]; exact h
    | other k t _ hk h0 hn ht =>
      show upd s.inited k true j = true
      by_cases hj : j = k
      · subst hj; exact upd_same ..
      · rw [upd_other _ _ _ _ hj]; exact h
    | store => exact h
    | quit => exact h
  exact ⟨this, by rw [(hb' this).1, hb.1]⟩

/-- Steps of other threads do not change what a thread has stored. -/
theorem get_other {cfg : Cfg} (hs : Sound cfg) {s : St} (hi : Inv cfg s) (e : Step) (j off : Nat) (h : s.inited j = true) (hw : e.who ≠ j)
    (ho : off < cfg.size) : (step cfg s e).get j off = s.get j off := by
  have hb := hi.bases j h
  have h0 := hi.zero j h
  have hr : ∀ k, k < cfg.threads.length - 1 → region cfg k ≠ 0 := fun k hk => (hi.regs h0 k hk).2
  have hbs := (inited_step hs hi e j h).2
  have hidx := hs.index
  have htcb := hs.tcb
  unfold St.get
  rw [hbs]
  clear hbs
  have hm := moves hs hi e
  generalize step cfg s e = s' at hm
  cases hm with
  | stay => rfl
  | dies m k hf _ _ _ => rw [h0] at hf; simp at hf
  | control t r _ hf _ _ _ => rw [h0] at hf; simp at hf
  | other k t hk hk0 _ hn ht =>
    have hkj : k ≠ j := by rw [hk] at hw; exact hw
    have hlt : k < cfg.threads.length := by
      by_contra h
      rw [List.getElem?_eq_none (by omega)] at ht
      simp at ht
    have ha := place_apart hs hr hkj hlt hb.2
    show upd (upd (writeImage cfg s.mem (place cfg k)) (place cfg k + cfg.tcbOff) t.tcb) (place cfg k + cfg.indexOff) (k + 1) (s.base j + off) = _
    rw [hb.1]
    unfold Apart at ha
    rw [upd_other _ _ _ _ (by omega), upd_other _ _ _ _ (by omega)]
    unfold writeImage
    rw [if_neg (by omega)]
  | store k o v hk hik ho' =>
    have hkj : k ≠ j := by rw [hk] at hw; exact hw
    have hbk := hi.bases k hik
    have ha := place_apart hs hr hkj hbk.2 hb.2
    show upd s.mem (s.base k + o) v (s.base j + off) = _
    rw [hb.1, hbk.1]
    unfold Apart at ha
    rw [upd_other _ _ _ _ (by omega)]
  | quit => rfl

/-- A thread's variable that it does not store itself keeps its value. -/
theorem get_keep {cfg : Cfg} (hs : Sound cfg) {s : St} (hi : Inv cfg s) (e : Step) (j off : Nat) (h : s.inited j = true) (ho : off < cfg.size)
    (hn : ∀ v, e ≠ .store j off v) : (step cfg s e).get j off = s.get j off := by
  by_cases hw : e.who = j
  · have hbs := (inited_step hs hi e j h).2
    have h0 := hi.zero j h
    unfold St.get
    rw [hbs]
    clear hbs
    have hm := moves hs hi e
    generalize step cfg s e = s' at hm
    cases hm with
    | stay => rfl
    | dies m k hf _ _ _ => rw [h0] at hf; simp at hf
    | control t r _ hf _ _ _ => rw [h0] at hf; simp at hf
    | other k t hk hk0 _ hf ht =>
      rw [hk] at hw
      have : k = j := hw
      rw [this, h] at hf; simp at hf
    | store k o v hk hik ho' =>
      have hkj : k = j := by rw [hk] at hw; exact hw
      subst hkj
      show upd s.mem (s.base k + o) v (s.base k + off) = _
      by_cases hoo : o = off
      · subst hoo; exact absurd hk (hn v)
      · rw [upd_other _ _ _ _ (by omega)]
    | quit => rfl
  · exact get_other hs hi e j off h hw ho

/-- At the end of its initialisation. -/
theorem get_new {cfg : Cfg} (hs : Sound cfg) {s : St} (hi : Inv cfg s) (e : Step) (j : Nat) (hn : s.inited j = false)
    (h : (step cfg s e).inited j = true) :
    ∃ t, cfg.threads[j]? = some t ∧ (step cfg s e).get j cfg.indexOff = j + 1 ∧ (step cfg s e).get j cfg.tcbOff = t.tcb ∧
      (j ≠ 0 → ∀ off, off < cfg.size → off ≠ cfg.indexOff → off ≠ cfg.tcbOff → (step cfg s e).get j off = cfg.image off) := by
  have hd := hs.differ
  have hm := moves hs hi e
  generalize step cfg s e = s' at hm h
  cases hm with
  | stay => rw [hn] at h; simp at h
  | dies => rw [show s.inited j = true from h] at hn; simp at hn
  | control t r _ h0 ht _ hr =>
    have hj : j = 0 := by
      by_contra hj
      have : upd s.inited 0 true j = true := h
      rw [upd_other _ _ _ _ hj, hn] at this; simp at this
    subst hj
    refine ⟨t, ht, ?_, ?_, fun h => absurd rfl h⟩
    · show upd _ _ _ _ = _
      exact upd_same ..
    · show upd (upd s.mem (s.base 0 + cfg.tcbOff) t.tcb) (s.base 0 + cfg.indexOff) 1 (s.base 0 + cfg.tcbOff) = _
      rw [upd_other _ _ _ _ (by omega)]
      exact upd_same ..
  | other k t _ hk h0 hnk ht =>
    have hj : j = k := by
      by_contra hj
      have : upd s.inited k true j = true := h
      rw [upd_other _ _ _ _ hj, hn] at this; simp at this
    subst hj
    refine ⟨t, ht, ?_, ?_, fun _ off ho h1 h2 => ?_⟩
    all_goals
      unfold St.get
      show upd (upd (writeImage cfg s.mem (place cfg j)) (place cfg j + cfg.tcbOff) t.tcb) (place cfg j + cfg.indexOff) (j + 1)
        (upd s.base j (place cfg j) j + _) = _
      rw [upd_same]
    · exact upd_same ..
    · rw [upd_other _ _ _ _ (by omega)]; exact upd_same ..
    · rw [upd_other _ _ _ _ (by omega), upd_other _ _ _ _ (by omega)]
      unfold writeImage
      rw [if_pos (by omega)]
      congr 1; omega
  | store => rw [show s.inited j = true from h] at hn; simp at hn
  | quit => rw [show s.inited j = true from h] at hn; simp at hn

theorem suspend_cons (t : Thread) (ts : List Thread) (n cap : Nat) (r : Nat → Bool) :
    suspend (t :: ts) n cap r = suspend ts (n + 1) cap (if t.tcb = cap then upd r n false else r) := rfl

theorem suspend_none : ∀ (ts : List Thread) (n cap : Nat) (r : Nat → Bool), (∀ (i : Nat) (t : Thread), ts[i]? = some t → t.tcb ≠ cap) → suspend ts n cap r = r
  | [], _, _, _, _ => rfl
  | t :: ts, n, cap, r, h => by
    rw [suspend_cons, if_neg (h 0 t (by simp))]
    exact suspend_none ts _ _ _ (fun i u hu => h (i + 1) u (by simpa using hu))

theorem suspend_get : ∀ (ts : List Thread) (n j cap : Nat) (r : Nat → Bool) (t : Thread), ts[j]? = some t → t.tcb = cap →
    (∀ (i : Nat) (u : Thread), ts[i]? = some u → u.tcb = cap → i = j) → suspend ts n cap r = upd r (n + j) false
  | [], _, j, _, _, t, h, _, _ => by simp at h
  | u :: us, n, 0, cap, r, t, h, hc, hu => by
    have hut : u = t := by simpa using h
    rw [suspend_cons, if_pos (by rw [hut]; exact hc)]
    exact suspend_none us _ _ _ (fun i w hw he => by
      have := hu (i + 1) w (by simpa using hw) he
      omega)
  | u :: us, n, j + 1, cap, r, t, h, hc, hu => by
    rw [suspend_cons, if_neg]
    · rw [suspend_get us (n + 1) j cap r t (by simpa using h) hc]
      · congr 1; omega
      · intro i w hw he
        have := hu (i + 1) w (by simpa using hw) he
        omega
    · intro he
      have := hu 0 u (by simp) he
      omega

end Verif.Process
