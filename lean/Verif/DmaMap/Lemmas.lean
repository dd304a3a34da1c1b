import Verif.DmaMap.Spec
import Verif.Context.Props
import Mathlib.Tactic.ByContra

/-!
# Lemmas about frames of DMA memory
-/

namespace Verif.DmaMap

open Verif.Context (Text St registerShared frameNames allocAll)

theorem lowBitAux_pow : ∀ (bits k : Nat), k < bits → lowBitAux bits (2 ^ k) = 2 ^ k := by
  intro bits
  induction bits with
  | zero => intro k h; omega
  | succ bits ih =>
    intro k h
    cases k with
    | zero => simp [lowBitAux]
    | succ k =>
      rw [lowBitAux, Nat.pow_succ, if_neg (by omega), Nat.mul_div_cancel _ (by omega), ih k (by omega)]
      omega

theorem lowBit_pow (k : Nat) : lowBit (2 ^ k) = 2 ^ k := lowBitAux_pow _ _ Nat.lt_two_pow_self

theorem allocAll_length : ∀ (names : List Text) (s : St), (allocAll s names).2.length = names.length := by
  intro names
  induction names with
  | nil => intro s; rfl
  | cons n ns ih => intro s; simp only [allocAll, List.length_cons]; rw [ih]

theorem frameNames_length (g : Text) (n : Nat) : (frameNames g n).length = n := by simp [frameNames]

/-- What `register` gives. -/
theorem register_spec (ps : List Nat) (s : St) (key : Text) (size page symbol : Nat) (paddr : Option Nat) (hp : 0 < page) :
    (∃ s' frames, register ps s key size page symbol paddr =
        if symbol ≤ size ∧ symbol % page = 0 then
          .ok (s', frames, paddr.map fun p => (List.range (size / page)).map fun i => p + i * page)
        else .error .compiler) ∧
    ∀ s' frames pa, register ps s key size page symbol paddr = .ok (s', frames, pa) → frames.length = size / page := by
  obtain ⟨k, rfl⟩ : ∃ k, page = k + 1 := ⟨page - 1, by omega⟩
  have h : registerShared ps s key size (some (k + 1)) paddr =
      .ok ((allocAll s (frameNames key (size / (k + 1)))).1, (allocAll s (frameNames key (size / (k + 1)))).2,
        List.replicate (size / (k + 1)) (k + 1), paddr.map fun p => (List.range (size / (k + 1))).map fun i => p + i * (k + 1)) := rfl
  constructor
  · refine ⟨(allocAll s (frameNames key (size / (k + 1)))).1, (allocAll s (frameNames key (size / (k + 1)))).2, ?_⟩
    rw [register, h]
  · intro s' frames pa hr
    rw [register, h] at hr
    simp only at hr
    split at hr
    · simp only [Except.ok.injEq, Prod.mk.injEq] at hr
      rw [← hr.2.1, allocAll_length, frameNames_length]
    · cases hr

theorem dvd_of_roundUp {x y : Nat} (hy : 0 < y) (h : x % y = 0) : roundUp x y = x := by
  obtain ⟨q, rfl⟩ := Nat.dvd_of_mod_eq_zero h
  rw [roundUp, show y * q + y - 1 = (y - 1) + y * q by omega, Nat.add_mul_div_left _ _ hy, Nat.div_eq_of_lt (by omega),
    Nat.zero_add, Nat.mul_comm]

theorem roundUp_mod (x y : Nat) : roundUp x y % y = 0 := by
  rw [roundUp]; exact Nat.mul_mod_left _ _

theorem le_roundUp (x y : Nat) (hy : 0 < y) : x ≤ roundUp x y := by
  have := Nat.lt_div_mul_add (a := x + y - 1) hy
  rw [roundUp]; omega

theorem roundUp_lt (x y : Nat) (hy : 0 < y) : roundUp x y < x + y := by
  have := Nat.div_mul_le_self (x + y - 1) y
  rw [roundUp]; omega

theorem poolPage_pow (ps : List Nat) (large : Bool) (pool : Nat) (hps : ∀ p ∈ ps, ∃ k, p = 2 ^ k) :
    ∃ k, poolPage ps large pool = 2 ^ k := by
  rw [poolPage]
  split
  · cases h : ps.reverse.find? (fun sz => decide (sz ≤ pool)) with
    | none => exact ⟨12, rfl⟩
    | some p => exact hps p (by simpa using List.mem_of_find?_eq_some h)
  · exact ⟨12, rfl⟩

/-- The form of a pool that a template made. -/
structure Form (slot : Nat → Nat) (m : Made) : Prop where
  pow : ∃ k, m.backing.frameSize = 2 ^ k
  bytes : m.backing.bytes = m.backing.frames.length * m.backing.frameSize
  start : m.pool.start = m.backing.base
  last : m.pool.last = m.backing.base + m.backing.bytes - 1
  frameSize : m.pool.frameSize = m.backing.frameSize
  frames : m.pool.frames = descs (m.backing.frames.map slot) m.backing.base m.backing.frameSize m.backing.cached

theorem component_form (ps : List Nat) (large : Bool) (s s' : St) (inst : Text) (set : Settings) (slot : Nat → Nat) (base : Nat)
    (m : Made) (hps : ∀ p ∈ ps, ∃ k, p = 2 ^ k) (h : componentPool ps large s inst set slot base = .ok (s', m)) :
    Form slot m ∧ m.backing.base = base ∧ m.backing.bytes = roundUp set.bytes 4096 ∧
      m.backing.frameSize = poolPage ps large (roundUp set.bytes 4096) ∧ m.backing.cached = set.cached ∧
      m.paddrs = set.paddr.map fun p => (List.range m.backing.frames.length).map fun i => p + i * m.backing.frameSize := by
  obtain ⟨k, hk⟩ := poolPage_pow ps large (roundUp set.bytes 4096) hps
  have hpos : 0 < poolPage ps large (roundUp set.bytes 4096) := by rw [hk]; exact Nat.pow_pos (by omega)
  rw [componentPool] at h
  obtain ⟨⟨s1, fr, hr⟩, hlen⟩ := register_spec ps s (inst ++ ['_', 'd', 'm', 'a'])
    (roundUp (roundUp set.bytes 4096) (poolPage ps large (roundUp set.bytes 4096)) / poolPage ps large (roundUp set.bytes 4096) *
      poolPage ps large (roundUp set.bytes 4096)) (poolPage ps large (roundUp set.bytes 4096)) (roundUp set.bytes 4096) set.paddr hpos
  rw [hr] at h hlen
  generalize poolPage ps large (roundUp set.bytes 4096) = page at *
  generalize roundUp set.bytes 4096 = pool at *
  split at h
  · cases h
  · rename_i s2 frames pa heq
    split at heq
    · rename_i hc
      have hmod := hc.2
      have e1 : roundUp pool page = pool := dvd_of_roundUp hpos hmod
      have e2 : pool / page * page = pool := Nat.div_mul_cancel (Nat.dvd_of_mod_eq_zero hmod)
      rw [if_pos hc] at hlen
      have hl := hlen s2 frames pa heq
      simp only [Except.ok.injEq, Prod.mk.injEq] at heq
      obtain ⟨rfl, rfl, rfl⟩ := heq
      rw [e1, e2] at hl
      split at h
      · cases h
      · simp only [Except.ok.injEq, Prod.mk.injEq] at h
        obtain ⟨rfl, rfl⟩ := h
        refine ⟨⟨⟨k, hk⟩, ?_, rfl, ?_, rfl, rfl⟩, rfl, rfl, rfl, rfl, ?_⟩
        · simp only [hl, e2]
        · simp only [e1]; rw [Nat.mul_comm, e2]
        · simp only [hl, e1, e2]
    · cases heq

theorem connection_form (ps : List Nat) (s s' : St) (conn : Text) (set : Settings) (slot : Nat → Nat) (base : Nat)
    (m : Made) (h : connectionPool ps s conn set slot base = .ok (s', m)) :
    Form slot m ∧ m.backing.base = base ∧ m.backing.bytes = set.bytes ∧ m.backing.frameSize = 4096 ∧ m.backing.cached = set.cached ∧
      m.paddrs = set.paddr.map fun p => (List.range m.backing.frames.length).map fun i => p + i * m.backing.frameSize := by
  rw [connectionPool] at h
  obtain ⟨⟨s1, fr, hr⟩, hlen⟩ := register_spec ps s (conn ++ ['_', 'd', 'a', 't', 'a']) set.bytes 4096 (roundUp set.bytes 4096)
    set.paddr (by omega)
  rw [hr] at h hlen
  split at h
  · cases h
  · rename_i s2 frames pa heq
    split at heq
    · rename_i hc
      rw [if_pos hc] at hlen
      have hl := hlen s2 frames pa heq
      simp only [Except.ok.injEq, Prod.mk.injEq] at heq
      obtain ⟨rfl, rfl, rfl⟩ := heq
      have hle := le_roundUp set.bytes 4096 (by omega)
      have e1 : roundUp set.bytes 4096 = set.bytes := by omega
      have e2 : set.bytes / 4096 * 4096 = set.bytes := Nat.div_mul_cancel (Nat.dvd_of_mod_eq_zero (e1 ▸ hc.2))
      simp only [Except.ok.injEq, Prod.mk.injEq] at h
      obtain ⟨rfl, rfl⟩ := h
      refine ⟨⟨⟨12, rfl⟩, ?_, rfl, ?_, rfl, rfl⟩, rfl, e1, rfl, rfl, ?_⟩
      · simp only [hl, e1, e2]
      · simp only [e1]
      · simp only [hl]
    · cases heq

theorem template_form {slot : Nat → Nat} {m : Made} (h : Template slot m) : Form slot m := by
  cases h with
  | component ps large s s' inst set base m hps h => exact (component_form ps large s s' inst set slot base _ hps h).1
  | connection ps s s' conn set base m h => exact (connection_form ps s s' conn set slot base _ h).1

/-! ## Looking up -/

theorem look_at (ptr : Nat) : ∀ (w : List PoolD) (i i0 : Nat) (p : PoolD), w[i]? = some p → (p.start ≤ ptr ∧ ptr ≤ p.last) →
    (∀ j < i, ∀ q, w[j]? = some q → ¬ (q.start ≤ ptr ∧ ptr ≤ q.last)) →
    look ptr i0 w =
      if ptr / lowBit p.frameSize * lowBit p.frameSize < p.start ∨
          p.frames.length ≤ (ptr / lowBit p.frameSize * lowBit p.frameSize - p.start) / p.frameSize then .wild
      else .desc (i0 + i) ((ptr / lowBit p.frameSize * lowBit p.frameSize - p.start) / p.frameSize) := by
  intro w
  induction w with
  | nil => intro i i0 p h; simp at h
  | cons q w ih =>
    intro i i0 p h hin hout
    cases i with
    | zero =>
      simp only [List.getElem?_cons_zero, Option.some.injEq] at h
      subst h
      rw [look, if_pos hin]
      rfl
    | succ i =>
      rw [look, if_neg (hout 0 (by omega) q rfl), ih i (i0 + 1) p (by simpa using h) hin
        (fun j hj q' hq => hout (j + 1) (by omega) q' (by simpa using hq)), show i0 + 1 + i = i0 + (i + 1) by omega]

theorem look_null (ptr : Nat) : ∀ (w : List PoolD) (i0 : Nat), (∀ q ∈ w, ¬ (q.start ≤ ptr ∧ ptr ≤ q.last)) → look ptr i0 w = .null := by
  intro w
  induction w with
  | nil => intro i0 _; rfl
  | cons q w ih =>
    intro i0 h
    rw [look, if_neg (h q (by simp)), ih _ (fun q' hq => h q' (by simp [hq]))]

/-- A pool in a history: as it was made, but for the physical addresses. -/
structure Shape (slot phys : Nat → Nat) (m : Made) (p : PoolD) : Prop where
  start : p.start = m.backing.base
  last : p.last = m.backing.base + m.backing.bytes - 1
  frameSize : p.frameSize = m.backing.frameSize
  length : p.frames.length = m.backing.frames.length
  frames : ∀ (j : Nat) f, m.backing.frames[j]? = some f → ∃ x, p.frames[j]? =
    some (⟨slot f, m.backing.frameSize, m.backing.base + j * m.backing.frameSize, x, m.backing.cached⟩ : FrameD) ∧ (x = 0 ∨ x = phys f)

/-- All the pools in a history. -/
structure Good (slot phys : Nat → Nat) (ms : List Made) (w : List PoolD) : Prop where
  length : w.length = ms.length
  shape : ∀ (i : Nat) m, ms[i]? = some m → ∃ p, w[i]? = some p ∧ Shape slot phys m p

theorem shape_start {slot : Nat → Nat} (phys : Nat → Nat) {m : Made} (h : Form slot m) : Shape slot phys m m.pool := by
  refine ⟨h.start, h.last, h.frameSize, ?_, ?_⟩
  · rw [h.frames]; simp [descs]
  · intro j f hf
    refine ⟨0, ?_, .inl rfl⟩
    rw [h.frames, descs]
    simp [hf]

/-- Looking up an address of a symbol. -/
theorem look_inside {slot phys : Nat → Nat} {ms : List Made} {w : List PoolD} (hms : ∀ m ∈ ms, Form slot m) (hl : Linked ms)
    (hw : Good slot phys ms w) {i : Nat} {m : Made} (hm : ms[i]? = some m) {v : Nat} (hv : Inside m.backing v) :
    look v 0 w = .desc i ((v - m.backing.base) / m.backing.frameSize) ∧
      (v - m.backing.base) / m.backing.frameSize < m.backing.frames.length := by
  obtain ⟨p, hp, hs⟩ := hw.shape i m hm
  have hmem : m ∈ ms := List.mem_of_getElem? hm
  have hf := hms m hmem
  obtain ⟨k, hk⟩ := hf.pow
  have hpos := hl.positive m hmem
  obtain ⟨v1, v2⟩ := hv
  have hfs : 0 < m.backing.frameSize := by rw [hk]; exact Nat.pow_pos (by omega)
  have hlt : (v - m.backing.base) / m.backing.frameSize < m.backing.frames.length := by
    rw [Nat.div_lt_iff_lt_mul hfs, ← hf.bytes]; omega
  refine ⟨?_, hlt⟩
  rw [look_at v w i 0 p hp ⟨by rw [hs.start]; exact v1, by rw [hs.last]; omega⟩ ?_]
  · rw [hs.start, hs.frameSize, hs.length, hk, lowBit_pow, ← hk]
    obtain ⟨q, hq⟩ := hl.aligned m hmem
    obtain ⟨d, rfl⟩ : ∃ d, v = m.backing.base + d := ⟨v - m.backing.base, by omega⟩
    have e : (m.backing.base + d) / m.backing.frameSize * m.backing.frameSize =
        m.backing.base + d / m.backing.frameSize * m.backing.frameSize := by
      rw [hq, Nat.mul_add_div hfs, Nat.add_mul, Nat.mul_comm q]
    rw [Nat.add_sub_cancel_left] at hlt ⊢
    rw [e, Nat.add_sub_cancel_left, Nat.mul_div_cancel _ hfs, if_neg (by omega), Nat.zero_add]
  · intro j hj q hq hin
    have hjl : j < ms.length := by
      have := (List.getElem?_eq_some_iff.mp hq).1
      rw [hw.length] at this; exact this
    obtain ⟨q', hq', hsq⟩ := hw.shape j ms[j] (List.getElem?_eq_getElem hjl)
    rw [hq] at hq'
    simp only [Option.some.injEq] at hq'
    subst hq'
    rw [hsq.start, hsq.last] at hin
    obtain ⟨hil, him⟩ := List.getElem?_eq_some_iff.mp hm
    have hap := List.pairwise_iff_getElem.mp hl.apart j i hjl hil hj v
    have hpj := hl.positive ms[j] (List.getElem_mem hjl)
    apply hap
    refine ⟨⟨hin.1, by omega⟩, ?_⟩
    rw [him]
    exact ⟨v1, v2⟩

theorem look_outside {slot phys : Nat → Nat} {ms : List Made} {w : List PoolD} (hl : Linked ms) (hw : Good slot phys ms w) {v : Nat}
    (hv : ∀ m ∈ ms, ¬ Inside m.backing v) : look v 0 w = .null := by
  apply look_null
  intro q hq hin
  obtain ⟨j, hj, rfl⟩ := List.getElem_of_mem hq
  have hjl : j < ms.length := by rw [← hw.length]; exact hj
  obtain ⟨q', hq', hsq⟩ := hw.shape j ms[j] (List.getElem?_eq_getElem hjl)
  rw [List.getElem?_eq_getElem hj] at hq'
  simp only [Option.some.injEq] at hq'
  rw [hq', hsq.start, hsq.last] at hin
  have hpj := hl.positive ms[j] (List.getElem_mem hjl)
  exact hv ms[j] (List.getElem_mem hjl) ⟨hin.1, by omega⟩

/-- The descriptor that is found. -/
theorem desc_inside {slot phys : Nat → Nat} {ms : List Made} {w : List PoolD}
    (hw : Good slot phys ms w) {i j f : Nat} {m : Made} (hm : ms[i]? = some m) (hf : m.backing.frames[j]? = some f) :
    ∃ x, descAt w i j = some (⟨slot f, m.backing.frameSize, m.backing.base + j * m.backing.frameSize, x, m.backing.cached⟩ : FrameD) ∧
      (x = 0 ∨ x = phys f) := by
  obtain ⟨p, hp, hs⟩ := hw.shape i m hm
  obtain ⟨x, hx, hx'⟩ := hs.frames j f hf
  exact ⟨x, by rw [descAt, hp]; exact hx, hx'⟩

/-- Every result of a lookup in a history is a frame of a symbol, or null. -/
theorem look_cases {slot phys : Nat → Nat} {ms : List Made} {w : List PoolD} (hms : ∀ m ∈ ms, Form slot m) (hl : Linked ms)
    (hw : Good slot phys ms w) (v : Nat) :
    ((∀ m ∈ ms, ¬ Inside m.backing v) ∧ look v 0 w = .null) ∨
    ∃ i m f, ms[i]? = some m ∧ Inside m.backing v ∧ look v 0 w = .desc i ((v - m.backing.base) / m.backing.frameSize) ∧
      m.backing.frames[(v - m.backing.base) / m.backing.frameSize]? = some f := by
  by_cases h : ∀ m ∈ ms, ¬ Inside m.backing v
  · exact .inl ⟨h, look_outside hl hw h⟩
  · right
    simp only [not_forall, not_not] at h
    obtain ⟨m, hm, hv⟩ := h
    obtain ⟨i, hi, rfl⟩ := List.getElem_of_mem hm
    obtain ⟨h1, h2⟩ := look_inside hms hl hw (List.getElem?_eq_getElem hi) hv
    exact ⟨i, ms[i], _, List.getElem?_eq_getElem hi, hv, h1, List.getElem?_eq_getElem h2⟩

theorem good_set {slot phys : Nat → Nat} {ms : List Made} {w : List PoolD} (hw : Good slot phys ms w) {i j f : Nat} {m : Made}
    (hm : ms[i]? = some m) (hf : m.backing.frames[j]? = some f) : Good slot phys ms (setPaddr w i j (phys f)) := by
  refine ⟨by rw [setPaddr, List.length_modify]; exact hw.length, ?_⟩
  intro i' m' hm'
  obtain ⟨p, hp, hs⟩ := hw.shape i' m' hm'
  by_cases hi : i = i'
  · subst hi
    rw [hm] at hm'
    simp only [Option.some.injEq] at hm'
    subst hm'
    refine ⟨{ p with frames := p.frames.modify j fun f' => { f' with paddr := phys f } }, ?_, hs.start, hs.last, hs.frameSize, ?_, ?_⟩
    · rw [setPaddr, List.getElem?_modify, hp]; simp
    · simp only [List.length_modify]; exact hs.length
    · intro j' f' hf'
      obtain ⟨x, hx, hx'⟩ := hs.frames j' f' hf'
      by_cases hj : j = j'
      · subst hj
        rw [hf] at hf'
        simp only [Option.some.injEq] at hf'
        subst hf'
        exact ⟨phys f, by simp only [List.getElem?_modify, hx]; simp, .inr rfl⟩
      · exact ⟨x, by simp only [List.getElem?_modify, hx]; simp [hj], hx'⟩
  · exact ⟨p, by rw [setPaddr, List.getElem?_modify, hp]; simp [hi], hs⟩

/-- What `camkes_dma_get_paddr` does in a history. -/
theorem getPaddr_spec {slot phys : Nat → Nat} {kernel : Nat → Option Nat} {ms : List Made} {w : List PoolD}
    (hms : ∀ m ∈ ms, Form slot m) (hl : Linked ms) (hk : Tells kernel slot phys ms) (hw : Good slot phys ms w) (v : Nat) :
    Good slot phys ms (getPaddr kernel w v).1 ∧
    ((∀ m ∈ ms, ¬ Inside m.backing v) → getPaddr kernel w v = (w, .crash)) ∧
    (∀ m ∈ ms, Inside m.backing v → ∃ f, m.backing.frames[(v - m.backing.base) / m.backing.frameSize]? = some f ∧
      (getPaddr kernel w v).2 = .val (phys f + (v - m.backing.base) % m.backing.frameSize)) := by
  have hmod : ∀ m ∈ ms, Inside m.backing v → v % lowBit m.backing.frameSize = (v - m.backing.base) % m.backing.frameSize := by
    intro m hm hv
    obtain ⟨k, hk⟩ := (hms m hm).pow
    obtain ⟨q, hq⟩ := hl.aligned m hm
    obtain ⟨d, rfl⟩ : ∃ d, v = m.backing.base + d := ⟨v - m.backing.base, by have := hv.1; omega⟩
    rw [hk, lowBit_pow, ← hk, Nat.add_sub_cancel_left, hq, Nat.mul_add_mod]
  refine ⟨?_, ?_, ?_⟩
  · rcases look_cases hms hl hw v with ⟨_, h⟩ | ⟨i, m, f, hm, hv, h, hf⟩
    · rw [getPaddr, h]; exact hw
    · obtain ⟨x, hd, hx⟩ := desc_inside hw hm hf
      rw [getPaddr, h]
      simp only [hd]
      split
      · exact hw
      · rw [hk m (List.mem_of_getElem? hm) f (List.mem_of_getElem? hf)]
        exact good_set hw hm hf
  · intro h
    rw [getPaddr, look_outside hl hw h]
  · intro m hm hv
    obtain ⟨i, hi, rfl⟩ := List.getElem_of_mem hm
    obtain ⟨h1, h2⟩ := look_inside hms hl hw (List.getElem?_eq_getElem hi) hv
    have hf := List.getElem?_eq_getElem h2
    refine ⟨_, hf, ?_⟩
    obtain ⟨x, hd, hx⟩ := desc_inside hw (List.getElem?_eq_getElem hi) hf
    rw [getPaddr, h1]
    simp only [hd]
    split
    · rename_i hne
      rcases hx with rfl | rfl
      · exact absurd rfl hne
      · rw [hmod _ hm hv]
    · rw [hk _ hm _ (List.getElem_mem h2)]
      simp only [hmod _ hm hv]

theorem initPages_spec {slot phys : Nat → Nat} {kernel : Nat → Option Nat} {ms : List Made}
    (hms : ∀ m ∈ ms, Form slot m) (hl : Linked ms) (hk : Tells kernel slot phys ms) (page : Nat) :
    ∀ (n base : Nat) (w : List PoolD), Good slot phys ms w → ∃ w', initPages kernel page n base w = some w' ∧ Good slot phys ms w' := by
  intro n
  induction n with
  | zero => intro base w hw; exact ⟨w, rfl, hw⟩
  | succ n ih =>
    intro base w hw
    rcases look_cases hms hl hw base with ⟨_, h⟩ | ⟨i, m, f, hm, hv, h, hf⟩
    · rw [initPages, h]
      exact ih _ w hw
    · obtain ⟨x, hd, hx⟩ := desc_inside hw hm hf
      rw [initPages, h]
      simp only [hd, hk m (List.mem_of_getElem? hm) f (List.mem_of_getElem? hf)]
      exact ih _ _ (good_set hw hm hf)

theorem run_good {slot phys : Nat → Nat} {kernel : Nat → Option Nat} {ms : List Made}
    (hms : ∀ m ∈ ms, Form slot m) (hl : Linked ms) (hk : Tells kernel slot phys ms) {w : List PoolD} (h : Run kernel ms w) :
    Good slot phys ms w := by
  induction h with
  | start =>
    refine ⟨by simp, ?_⟩
    intro i m hm
    exact ⟨m.pool, by simp [hm], shape_start phys (hms m (List.mem_of_getElem? hm))⟩
  | paddr w ptr _ ih => exact (getPaddr_spec hms hl hk ih ptr).1
  | init w w' page n base _ hi ih =>
    obtain ⟨w'', h1, h2⟩ := initPages_spec hms hl hk page n base w ih
    rw [hi] at h1
    simp only [Option.some.injEq] at h1
    subst h1
    exact h2

end Verif.DmaMap
