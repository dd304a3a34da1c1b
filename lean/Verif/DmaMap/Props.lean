import Verif.DmaMap.Lemmas
import Verif.Dma.Spec

/-!
# Frames, addresses and caches of DMA memory (C89)
-/

namespace Verif.DmaMap

open Verif.Context (Text St)

variable {slot phys : Nat → Nat} {kernel : Nat → Option Nat} {ms : List Made}

/-- C89: in every history, each address of each pool has a frame behind it, and the physical address and the
capability that the functions return are those of that frame. -/
theorem address_partial (hms : ∀ m ∈ ms, Template slot m) (hl : Linked ms) (hk : Tells kernel slot phys ms) {w : List PoolD}
    (hw : Run kernel ms w) (m : Made) (hm : m ∈ ms) (v : Nat) (hv : Inside m.backing v) :
    ∃ f off, Behind m.backing v f off ∧ (getPaddr kernel w v).2 = .val (phys f + off) ∧ getCptr w v = .val (slot f) := by
  have hms' : ∀ m ∈ ms, Form slot m := fun m hm => template_form (hms m hm)
  have hg := run_good hms' hl hk hw
  obtain ⟨f, hf, hr⟩ := (getPaddr_spec hms' hl hk hg v).2.2 m hm hv
  refine ⟨f, _, ⟨hv.1, hv.2, hf, rfl⟩, hr, ?_⟩
  obtain ⟨i, hi, rfl⟩ := List.getElem_of_mem hm
  obtain ⟨h1, h2⟩ := look_inside hms' hl hg (List.getElem?_eq_getElem hi) hv
  obtain ⟨x, hd, _⟩ := desc_inside hg (List.getElem?_eq_getElem hi) hf
  rw [getCptr, h1]
  simp only [hd]

/-- C89: in every history, an address outside of the pools has the null capability, and maintaining its cache does
nothing. -/
theorem outside_null (hms : ∀ m ∈ ms, Template slot m) (hl : Linked ms) (hk : Tells kernel slot phys ms) {w : List PoolD}
    (hw : Run kernel ms w) (v : Nat) (hv : ∀ m ∈ ms, ¬ Inside m.backing v) (size : Nat) (op : Op) :
    getCptr w v = .val 0 ∧ cacheOp w v size op = some [] := by
  have hg := run_good (fun m hm => template_form (hms m hm)) hl hk hw
  rw [getCptr, cacheOp, look_outside hl hg hv]
  exact ⟨rfl, rfl⟩

/-- **Disagreement with C89.** In every history, asking for the physical address of an address outside of the pools
crashes; it is documented to return a null address. -/
theorem outside_crashes (hms : ∀ m ∈ ms, Template slot m) (hl : Linked ms) (hk : Tells kernel slot phys ms) {w : List PoolD}
    (hw : Run kernel ms w) (v : Nat) (hv : ∀ m ∈ ms, ¬ Inside m.backing v) : (getPaddr kernel w v).2 = .crash := by
  have hms' : ∀ m ∈ ms, Form slot m := fun m hm => template_form (hms m hm)
  rw [(getPaddr_spec hms' hl hk (run_good hms' hl hk hw) v).2.1 hv]

/-- C89: initialising memory never fails, whatever the pages. -/
theorem init_ok (hms : ∀ m ∈ ms, Template slot m) (hl : Linked ms) (hk : Tells kernel slot phys ms) {w : List PoolD}
    (hw : Run kernel ms w) (page n base : Nat) : ∃ w', initPages kernel page n base w = some w' := by
  have hms' : ∀ m ∈ ms, Form slot m := fun m hm => template_form (hms m hm)
  obtain ⟨w', h, _⟩ := initPages_spec hms' hl hk page n base w (run_good hms' hl hk hw)
  exact ⟨w', h⟩

/-- C89: if the settings of a pool of a component give a physical address, and the loader follows it, then the pool is
contiguous from that address; the pool is as large as asked for, in whole pages, and cached as asked for. -/
theorem component_address (ps : List Nat) (large : Bool) (s s' : St) (inst : Text) (set : Settings) (base : Nat) (m : Made)
    (hps : ∀ p ∈ ps, ∃ k, p = 2 ^ k) (h : componentPool ps large s inst set slot base = .ok (s', m)) :
    m.backing.base = base ∧ m.backing.cached = set.cached ∧
    (set.bytes ≤ m.backing.bytes ∧ m.backing.bytes < set.bytes + 4096 ∧ 4096 ∣ m.backing.bytes) ∧
    (m.paddrs.isSome = set.paddr.isSome) ∧
    ∀ P addrs, set.paddr = some P → m.paddrs = some addrs → m.backing.frames.map phys = addrs →
      ∀ v f off, Behind m.backing v f off → phys f + off = P + (v - base) := by
  obtain ⟨hf, hb, hby, hfs, hc, hpa⟩ := component_form ps large s s' inst set slot base m hps h
  refine ⟨hb, hc, ⟨?_, ?_, ?_⟩, by rw [hpa]; simp, ?_⟩
  · rw [hby]; exact le_roundUp _ _ (by omega)
  · rw [hby]; exact roundUp_lt _ _ (by omega)
  · rw [hby]; exact Nat.dvd_of_mod_eq_zero (roundUp_mod _ _)
  · intro P addrs hP haddrs hphys v f off ⟨h1, h2, h3, h4⟩
    rw [hpa, hP] at haddrs
    simp only [Option.map_some, Option.some.injEq] at haddrs
    rw [← haddrs] at hphys
    have := congrArg (fun l => l[(v - m.backing.base) / m.backing.frameSize]?) hphys
    obtain ⟨hlt, hfr⟩ := List.getElem?_eq_some_iff.mp h3
    simp only [List.getElem?_map, h3, Option.map_some, List.getElem?_range hlt, Option.some.injEq] at this
    rw [this, h4, hb, Nat.add_assoc, Nat.div_add_mod']

/-- C89: the same for the pool of a connection; its size is exactly as asked for. -/
theorem connection_address (ps : List Nat) (s s' : St) (conn : Text) (set : Settings) (base : Nat) (m : Made)
    (h : connectionPool ps s conn set slot base = .ok (s', m)) :
    m.backing.base = base ∧ m.backing.cached = set.cached ∧ m.backing.bytes = set.bytes ∧
    (m.paddrs.isSome = set.paddr.isSome) ∧
    ∀ P addrs, set.paddr = some P → m.paddrs = some addrs → m.backing.frames.map phys = addrs →
      ∀ v f off, Behind m.backing v f off → phys f + off = P + (v - base) := by
  obtain ⟨hf, hb, hby, hfs, hc, hpa⟩ := connection_form ps s s' conn set slot base m h
  refine ⟨hb, hc, hby, by rw [hpa]; simp, ?_⟩
  intro P addrs hP haddrs hphys v f off ⟨h1, h2, h3, h4⟩
  rw [hpa, hP] at haddrs
  simp only [Option.map_some, Option.some.injEq] at haddrs
  rw [← haddrs] at hphys
  have := congrArg (fun l => l[(v - m.backing.base) / m.backing.frameSize]?) hphys
  obtain ⟨hlt, hfr⟩ := List.getElem?_eq_some_iff.mp h3
  simp only [List.getElem?_map, h3, Option.map_some, List.getElem?_range hlt, Option.some.injEq] at this
  rw [this, h4, hb, Nat.add_assoc, Nat.div_add_mod']

/-! ### Which pools are accepted -/

theorem component_ok_iff (ps : List Nat) (large : Bool) (s : St) (inst : Text) (set : Settings) (base : Nat)
    (hps : ∀ p ∈ ps, ∃ k, p = 2 ^ k) :
    (∃ r, componentPool ps large s inst set slot base = .ok r) ↔
      roundUp set.bytes 4096 % poolPage ps large (roundUp set.bytes 4096) = 0 ∧ (set.bytes = 0 ∨ '.' ∉ inst) := by
  obtain ⟨k, hk⟩ := poolPage_pow ps large (roundUp set.bytes 4096) hps
  have hpos : 0 < poolPage ps large (roundUp set.bytes 4096) := by rw [hk]; exact Nat.pow_pos (by omega)
  have hz : roundUp set.bytes 4096 = 0 ↔ set.bytes = 0 := by
    have h1 := le_roundUp set.bytes 4096 (by omega)
    constructor
    · omega
    · intro h; rw [h]; rfl
  rw [componentPool]
  obtain ⟨⟨s1, fr, hr⟩, hlen⟩ := register_spec ps s (inst ++ ['_', 'd', 'm', 'a'])
    (roundUp (roundUp set.bytes 4096) (poolPage ps large (roundUp set.bytes 4096)) / poolPage ps large (roundUp set.bytes 4096) *
      poolPage ps large (roundUp set.bytes 4096)) (poolPage ps large (roundUp set.bytes 4096)) (roundUp set.bytes 4096) set.paddr hpos
  rw [hr] at hlen
  simp only [hr]
  generalize poolPage ps large (roundUp set.bytes 4096) = page at *
  generalize roundUp set.bytes 4096 = pool at *
  by_cases hmod : pool % page = 0
  · have e1 : roundUp pool page = pool := dvd_of_roundUp hpos hmod
    have e2 : pool / page * page = pool := Nat.div_mul_cancel (Nat.dvd_of_mod_eq_zero hmod)
    rw [e1, e2] at hlen
    rw [if_pos ⟨Nat.le_refl _, hmod⟩] at hlen
    have hl := hlen _ _ _ rfl
    rw [e1, e2, if_pos ⟨Nat.le_refl _, hmod⟩]
    have hnil : fr = [] ↔ set.bytes = 0 := by
      rw [← List.length_eq_zero_iff, hl, ← hz]
      constructor
      · intro h; rw [h] at e2; omega
      · intro h; rw [h]; simp
    by_cases hd : fr ≠ [] ∧ '.' ∈ inst
    · simp only [if_pos hd]
      constructor
      · rintro ⟨r, h⟩; cases h
      · rintro ⟨_, h | h⟩
        · exact absurd (hnil.mpr h) hd.1
        · exact absurd hd.2 h
    · simp only [if_neg hd]
      refine ⟨fun _ => ⟨hmod, ?_⟩, fun _ => ⟨_, rfl⟩⟩
      by_cases hn : fr = []
      · exact .inl (hnil.mp hn)
      · exact .inr fun h => hd ⟨hn, h⟩
  · rw [if_neg (fun h => hmod h.2)]
    constructor
    · rintro ⟨r, h⟩; cases h
    · exact fun h => absurd h.1 hmod

/-- C89: without large frames, the pool of a component that is not in another one is accepted, whatever its size;
an empty pool is always accepted. -/
theorem pool_accepted_partial (ps : List Nat) (s : St) (inst : Text) (set : Settings) (base : Nat)
    (hps : ∀ p ∈ ps, ∃ k, p = 2 ^ k) (h : set.bytes = 0 ∨ '.' ∉ inst) :
    ∃ r, componentPool ps false s inst set slot base = .ok r :=
  (component_ok_iff ps false s inst set base hps).mpr ⟨roundUp_mod _ _, h⟩

/-- C89: with large frames, the frames are the largest ones that are not larger than the pool; the pool is accepted
exactly if it is a multiple of them. -/
theorem large_pool_accepted_iff (ps : List Nat) (hsort : ps.Pairwise (· < ·)) (s : St) (inst : Text) (set : Settings)
    (base : Nat) (hps : ∀ p ∈ ps, ∃ k, p = 2 ^ k) (hdot : '.' ∉ inst) (page : Nat) (hpage : page ∈ ps) (pool : Nat)
    (h4 : 4096 ∣ pool) (hlo : set.bytes ≤ pool) (hhi : pool < set.bytes + 4096)
    (hfit : page ≤ pool) (hbest : ∀ p ∈ ps, p ≤ pool → p ≤ page) :
    (∃ r, componentPool ps true s inst set slot base = .ok r) ↔ page ∣ pool := by
  have e : roundUp set.bytes 4096 = pool := by
    have h1 := le_roundUp set.bytes 4096 (by omega)
    have h2 := roundUp_lt set.bytes 4096 (by omega)
    have h3 := roundUp_mod set.bytes 4096
    omega
  have hp : poolPage ps true pool = page := by
    have hsome : (ps.reverse.find? (fun sz => decide (sz ≤ pool))).isSome := by
      rw [List.find?_isSome]
      exact ⟨page, by simpa using hpage, by simpa using hfit⟩
    obtain ⟨p, hp⟩ := Option.isSome_iff_exists.mp hsome
    have h1 := List.mem_of_find?_eq_some hp
    have h2 := List.find?_some hp
    obtain ⟨as, bs, hab, hall⟩ := (List.find?_eq_some_iff_append.mp hp).2
    have hle : p ≤ page := hbest p (by simpa using h1) (by simpa using h2)
    rw [poolPage, if_pos rfl, hp]
    simp only [Option.getD_some]
    have hrev : ps.reverse.Pairwise (· > ·) := by
      rw [List.pairwise_reverse]; exact hsort
    rw [hab] at hrev
    have hin : page ∈ as ++ p :: bs := by rw [← hab]; simpa using hpage
    rcases List.mem_append.mp hin with h | h
    · have := hall page h
      simp only [Bool.not_eq_eq_eq_not, Bool.not_true, decide_eq_false_iff_not] at this
      exact absurd hfit this
    · rcases List.mem_cons.mp h with rfl | h
      · rfl
      · have := (List.pairwise_cons.mp (List.pairwise_append.mp hrev).2.1).1 page h
        omega
  rw [component_ok_iff ps true s inst set base hps, e, hp]
  constructor
  · exact fun h => Nat.dvd_of_mod_eq_zero h.1
  · exact fun h => ⟨Nat.mod_eq_zero_of_dvd h, .inr hdot⟩

/-- **Disagreement with C89.** With large frames, a pool that is not a multiple of them is refused by the compiler;
it is documented to be rounded up. -/
theorem large_pool_refused : ¬ ∃ r, componentPool [4096, 2097152] true Verif.Context.start ['c'] ⟨2097153, false, none⟩ id 4194304 = .ok r := by
  rw [large_pool_accepted_iff [4096, 2097152] (by decide) _ _ _ _ (by
    intro p hp
    simp only [List.mem_cons, List.not_mem_nil, or_false] at hp
    rcases hp with rfl | rfl
    · exact ⟨12, rfl⟩
    · exact ⟨21, rfl⟩) (by decide) 2097152 (by decide) 2101248 (by decide) (by decide) (by decide) (by decide) (by decide)]
  decide

/-- **Disagreement with C89.** The pool of a component inside another component is always refused by the compiler. -/
theorem nested_pool_refused (ps : List Nat) (large : Bool) (s : St) (outer inner : Text) (set : Settings) (base : Nat)
    (hps : ∀ p ∈ ps, ∃ k, p = 2 ^ k) (h : set.bytes ≠ 0) :
    ¬ ∃ r, componentPool ps large s (outer ++ ['.'] ++ inner) set slot base = .ok r := by
  rw [component_ok_iff ps large s _ set base hps]
  rintro ⟨_, h' | h'⟩
  · exact h h'
  · exact h' (by simp)

/-- C89: the pool of a connection is accepted exactly if it is made of whole pages. -/
theorem connection_accepted_iff (ps : List Nat) (s : St) (conn : Text) (set : Settings) (base : Nat) :
    (∃ r, connectionPool ps s conn set slot base = .ok r) ↔ 4096 ∣ set.bytes := by
  rw [connectionPool]
  obtain ⟨⟨s1, fr, hr⟩, -⟩ := register_spec ps s (conn ++ ['_', 'd', 'a', 't', 'a']) set.bytes 4096 (roundUp set.bytes 4096)
    set.paddr (by omega)
  rw [hr]
  have h1 := le_roundUp set.bytes 4096 (by omega)
  have h3 := roundUp_mod set.bytes 4096
  by_cases h : 4096 ∣ set.bytes
  · rw [dvd_of_roundUp (by omega) (Nat.mod_eq_zero_of_dvd h), if_pos ⟨Nat.le_refl _, Nat.mod_eq_zero_of_dvd h⟩]
    exact ⟨fun _ => h, fun _ => ⟨_, rfl⟩⟩
  · rw [if_neg (by intro hc; exact h (Nat.dvd_of_mod_eq_zero (by omega)))]
    refine ⟨?_, fun h' => absurd h' h⟩
    rintro ⟨r, h'⟩; cases h'

/-! ### Cache maintenance -/

theorem cacheOp_inside (hms : ∀ m ∈ ms, Template slot m) (hl : Linked ms) (hk : Tells kernel slot phys ms) {w : List PoolD}
    (hw : Run kernel ms w) (m : Made) (hm : m ∈ ms) (addr f off : Nat) (hb : Behind m.backing addr f off) (hslot : slot f ≠ 0)
    (size : Nat) (op : Op) :
    cacheOp w addr size op = some (if m.backing.cached = true ∧ off + size ≤ m.backing.frameSize
      then [⟨op, slot f, off, off + size⟩] else []) := by
  have hms' : ∀ m ∈ ms, Form slot m := fun m hm => template_form (hms m hm)
  have hg := run_good hms' hl hk hw
  obtain ⟨b1, b2, b3, b4⟩ := hb
  obtain ⟨q, hq⟩ := hl.aligned m hm
  obtain ⟨i, hi, rfl⟩ := List.getElem_of_mem hm
  obtain ⟨h1, h2⟩ := look_inside hms' hl hg (List.getElem?_eq_getElem hi) ⟨b1, b2⟩
  obtain ⟨x, hd, _⟩ := desc_inside hg (List.getElem?_eq_getElem hi) b3
  have hmod : addr % ms[i].backing.frameSize = off := by
    obtain ⟨d, rfl⟩ : ∃ d, addr = ms[i].backing.base + d := ⟨addr - ms[i].backing.base, by omega⟩
    rw [b4, Nat.add_sub_cancel_left, hq, Nat.mul_add_mod]
  rw [cacheOp, h1]
  simp only [hd, hmod]
  cases hc : ms[i].backing.cached
  · simp
  · simp only [if_neg hslot, true_and]
    by_cases hle : off + size ≤ ms[i].backing.frameSize
    · rw [if_neg (by simp), if_neg (by omega), if_pos hle]
    · rw [if_neg (by simp), if_pos (by omega), if_neg hle]

/-- C89: in every history, maintaining the cache of a buffer that lies in one frame of a cached pool maintains the bytes
of the buffer and no others; in an uncached pool nothing is done. The slots of frames are different and not null. -/
theorem cache_partial (hms : ∀ m ∈ ms, Template slot m) (hl : Linked ms) (hk : Tells kernel slot phys ms) {w : List PoolD}
    (hw : Run kernel ms w) (hinj : ∀ f g, slot f = slot g → f = g) (hnull : ∀ f, slot f ≠ 0)
    (m : Made) (hm : m ∈ ms) (addr f off : Nat) (hb : Behind m.backing addr f off) (size : Nat) (op : Op)
    (hone : off + size ≤ m.backing.frameSize) :
    ∃ calls, cacheOp w addr size op = some calls ∧
      (∀ op' f' o', Maintains slot calls op' f' o' ↔
        m.backing.cached = true ∧ op' = op ∧ ∃ k < size, f' = f ∧ o' = off + k) ∧
      (∀ k < size, Behind m.backing (addr + k) f (off + k)) := by
  refine ⟨_, cacheOp_inside hms hl hk hw m hm addr f off hb (hnull f) size op, ?_, ?_⟩
  · intro op' f' o'
    cases hc : m.backing.cached
    · simp [Maintains]
    · rw [if_pos ⟨rfl, hone⟩]
      simp only [Maintains, List.mem_singleton, exists_eq_left, true_and]
      constructor
      · rintro ⟨rfl, h2, h3, h4⟩
        exact ⟨rfl, o' - off, by omega, hinj _ _ h2.symm, by omega⟩
      · rintro ⟨rfl, k, hk, rfl, rfl⟩
        exact ⟨rfl, rfl, by omega, by omega⟩
  · intro k hks
    obtain ⟨b1, b2, b3, b4⟩ := hb
    have hf := template_form (hms m hm)
    obtain ⟨p, hp⟩ := hf.pow
    have hfs : 0 < m.backing.frameSize := by rw [hp]; exact Nat.pow_pos (by omega)
    have hdm := Nat.div_add_mod (addr - m.backing.base) m.backing.frameSize
    have hlt : (addr - m.backing.base) / m.backing.frameSize < m.backing.frames.length := (List.getElem?_eq_some_iff.mp b3).1
    have e : addr + k - m.backing.base = m.backing.frameSize * ((addr - m.backing.base) / m.backing.frameSize) + (off + k) := by
      rw [b4]; omega
    have hoff : off + k < m.backing.frameSize := by omega
    have hend : m.backing.frameSize * ((addr - m.backing.base) / m.backing.frameSize) + m.backing.frameSize ≤ m.backing.bytes := by
      rw [hf.bytes, ← Nat.mul_succ, Nat.mul_comm]
      exact Nat.mul_le_mul_right _ hlt
    refine ⟨by omega, by omega, ?_, ?_⟩
    · rw [e, Nat.mul_add_div hfs, Nat.div_eq_of_lt hoff, Nat.add_zero]; exact b3
    · rw [e, Nat.mul_add_mod, Nat.mod_eq_of_lt hoff]

/-- **Disagreement with C89.** In every history, maintaining the cache of a buffer that reaches into a second frame does
nothing, in cached pools, too. -/
theorem spanning_not_maintained (hms : ∀ m ∈ ms, Template slot m) (hl : Linked ms) (hk : Tells kernel slot phys ms) {w : List PoolD}
    (hw : Run kernel ms w) (hnull : ∀ f, slot f ≠ 0) (m : Made) (hm : m ∈ ms) (addr f off : Nat)
    (hb : Behind m.backing addr f off) (size : Nat) (op : Op) (htwo : m.backing.frameSize < off + size) :
    cacheOp w addr size op = some [] := by
  rw [cacheOp_inside hms hl hk hw m hm addr f off hb (hnull f) size op, if_neg (by omega)]

/-! ### What the allocator assumes of its memory -/

/-- The allocator's view of the frames: physical addresses and the cached flag. -/
def env (kernel : Nat → Option Nat) (w : List PoolD) (R A : Nat) : Verif.Dma.Env where
  R := R
  A := A
  paddr v := match (getPaddr kernel w v).2 with | .val p => p | .crash => v
  frame v := match look v 0 w with
    | .desc i j => (descAt w i j).map (·.cached)
    | _ => none

/-- C89: in every history, what the allocator of C43 assumes holds of the generated pools: virtual and physical addresses
have the same offset in a page, the pages of a pool are contiguous, and the flag of a frame is that of its mapping. The
physical addresses of frames are aligned to them, and frames are not smaller than 4 KiB. -/
theorem allocator_env (hms : ∀ m ∈ ms, Template slot m) (hl : Linked ms) (hk : Tells kernel slot phys ms) {w : List PoolD}
    (hw : Run kernel ms w) (hphys : ∀ m ∈ ms, ∀ f ∈ m.backing.frames, m.backing.frameSize ∣ phys f)
    (hsize : ∀ m ∈ ms, 4096 ∣ m.backing.frameSize) (R A : Nat) (hA : ∃ k, A = 2 ^ k) (hR : 0 < R) (hRA : R % A = 0) :
    Verif.Dma.EnvOk (env kernel w R A) ∧
    ∀ m ∈ ms, (∀ i < m.backing.frames.length, Verif.Dma.Contiguous (env kernel w R A) (m.backing.base + i * m.backing.frameSize) m.backing.frameSize) ∧
      ∀ v, Inside m.backing v → (env kernel w R A).frame v = some m.backing.cached := by
  have hms' : ∀ m ∈ ms, Form slot m := fun m hm => template_form (hms m hm)
  have hg := run_good hms' hl hk hw
  have hval : ∀ m ∈ ms, ∀ v, Inside m.backing v → ∃ f ∈ m.backing.frames, m.backing.frames[(v - m.backing.base) / m.backing.frameSize]? = some f ∧
      (env kernel w R A).paddr v = phys f + (v - m.backing.base) % m.backing.frameSize := by
    intro m hm v hv
    obtain ⟨f, hf, hr⟩ := (getPaddr_spec hms' hl hk hg v).2.2 m hm hv
    refine ⟨f, List.mem_of_getElem? hf, hf, ?_⟩
    simp only [env, hr]
  refine ⟨⟨hA, hR, hRA, ?_⟩, ?_⟩
  · intro v
    rcases look_cases hms' hl hg v with ⟨hv, _⟩ | ⟨i, m, f, hm, hv, _, _⟩
    · have := (getPaddr_spec hms' hl hk hg v).2.1 hv
      simp only [env, this]
    · have hm := List.mem_of_getElem? hm
      obtain ⟨f, hf, -, hp⟩ := hval m hm v hv
      rw [hp]
      obtain ⟨a, ha⟩ := hphys m hm f hf
      obtain ⟨b, hb⟩ := hl.aligned m hm
      obtain ⟨c, hc⟩ := hsize m hm
      have h4 : ∀ x, (x % m.backing.frameSize) % 4096 = x % 4096 := fun x => Nat.mod_mod_of_dvd x ⟨c, hc⟩
      obtain ⟨d, rfl⟩ : ∃ d, v = m.backing.base + d := ⟨v - m.backing.base, by have := hv.1; omega⟩
      rw [Nat.add_sub_cancel_left, ha, hb, Nat.add_mod, h4, Nat.add_mod (m.backing.frameSize * b), hc, Nat.mul_assoc, Nat.mul_assoc,
        Nat.mul_mod_right, Nat.mul_mod_right]
  · intro m hm
    have hf := hms' m hm
    obtain ⟨p, hp⟩ := hf.pow
    have hfs : 0 < m.backing.frameSize := by rw [hp]; exact Nat.pow_pos (by omega)
    refine ⟨?_, ?_⟩
    · intro i hi
      have hin : ∀ k < m.backing.frameSize, Inside m.backing (m.backing.base + i * m.backing.frameSize + k) := by
        intro k hk'
        have : i * m.backing.frameSize + m.backing.frameSize ≤ m.backing.bytes := by
          rw [hf.bytes, ← Nat.succ_mul]; exact Nat.mul_le_mul_right _ hi
        exact ⟨by omega, by omega⟩
      have key : ∀ k < m.backing.frameSize, (env kernel w R A).paddr (m.backing.base + i * m.backing.frameSize + k) = phys m.backing.frames[i] + k := by
        intro k hk'
        obtain ⟨f, _, hf', hpa⟩ := hval m hm _ (hin k hk')
        have e : m.backing.base + i * m.backing.frameSize + k - m.backing.base = m.backing.frameSize * i + k := by
          rw [Nat.mul_comm]; omega
        rw [e, Nat.mul_add_div hfs, Nat.div_eq_of_lt hk', Nat.add_zero, List.getElem?_eq_getElem hi] at hf'
        simp only [Option.some.injEq] at hf'
        rw [hpa, e, Nat.mul_add_mod, Nat.mod_eq_of_lt hk', ← hf']
      intro k hk'
      rw [key k hk']
      have := key 0 hfs
      rw [Nat.add_zero] at this
      rw [this, Nat.add_zero]
    · intro v hv
      obtain ⟨i, hi, rfl⟩ := List.getElem_of_mem hm
      obtain ⟨h1, h2⟩ := look_inside hms' hl hg (List.getElem?_eq_getElem hi) hv
      obtain ⟨x, hd, _⟩ := desc_inside hg (List.getElem?_eq_getElem hi) (List.getElem?_eq_getElem h2)
      simp only [env, h1, hd, Option.map_some]

/-! ### A case -/

/-- A pool of two and a half pages at physical address 0x100000 and a connection of one page. -/
def demoPools : List Made :=
  match componentPool [4096, 2097152] false Verif.Context.start ['c'] ⟨10000, true, some 1048576⟩ (· + 7) 8192 with
  | .error _ => []
  | .ok (s, m) =>
    match connectionPool [4096, 2097152] s ['x'] ⟨4096, false, none⟩ (· + 7) 65536 with
    | .error _ => []
    | .ok (_, n) => [m, n]

set_option maxRecDepth 20000 in
example : demoPools.map (fun m => (m.pool, m.backing)) =
    [(⟨8192, 20479, 4096, [⟨7, 4096, 8192, 0, true⟩, ⟨8, 4096, 12288, 0, true⟩, ⟨9, 4096, 16384, 0, true⟩]⟩, ⟨8192, 12288, 4096, [0, 1, 2], true⟩),
     (⟨65536, 69631, 4096, [⟨10, 4096, 65536, 0, false⟩]⟩, ⟨65536, 4096, 4096, [3], false⟩)] := by decide

/-- The hypotheses of the theorems are met. -/
theorem demo_pools : (∀ m ∈ demoPools, Template (· + 7) m) ∧ demoPools.length = 2 := by
  have hps : ∀ p ∈ [4096, 2097152], ∃ k, p = 2 ^ k := by
    intro p hp
    simp only [List.mem_cons, List.not_mem_nil, or_false] at hp
    rcases hp with rfl | rfl
    · exact ⟨12, rfl⟩
    · exact ⟨21, rfl⟩
  obtain ⟨⟨s, m⟩, h⟩ := pool_accepted_partial (slot := (· + 7)) [4096, 2097152] Verif.Context.start ['c'] ⟨10000, true, some 1048576⟩ 8192 hps
    (.inr (by decide))
  obtain ⟨⟨s', n⟩, h'⟩ := (connection_accepted_iff (slot := (· + 7)) [4096, 2097152] s ['x'] ⟨4096, false, none⟩ 65536).mpr ⟨1, rfl⟩
  have e : demoPools = [m, n] := by simp only [demoPools, h, h']
  rw [e]
  refine ⟨?_, rfl⟩
  intro x hx
  simp only [List.mem_cons, List.not_mem_nil, or_false] at hx
  rcases hx with rfl | rfl
  · exact .component _ _ _ _ _ _ _ _ hps h
  · exact .connection _ _ _ _ _ _ _ h'

def demoKernel (c : Nat) : Option Nat := if 7 ≤ c then some (1048576 + (c - 7) * 4096) else none

set_option maxRecDepth 20000 in
example : (getPaddr demoKernel (demoPools.map (·.pool)) 12300).2 = .val 1052684 ∧ getCptr (demoPools.map (·.pool)) 12300 = .val 8 ∧
    (getPaddr demoKernel (demoPools.map (·.pool)) 4096).2 = .crash ∧
    cacheOp (demoPools.map (·.pool)) 12300 100 .clean = some [⟨.clean, 8, 12, 112⟩] ∧
    cacheOp (demoPools.map (·.pool)) 12300 4096 .clean = some [] ∧
    cacheOp (demoPools.map (·.pool)) 65536 16 .clean = some [] := by decide

set_option maxRecDepth 20000 in
example : Linked demoPools ∧ Tells demoKernel (· + 7) (fun f => 1048576 + f * 4096) demoPools := by
  have e : demoPools.map (·.backing) = [⟨8192, 12288, 4096, [0, 1, 2], true⟩, ⟨65536, 4096, 4096, [3], false⟩] := by decide
  obtain ⟨m, n, hmn⟩ : ∃ m n, demoPools = [m, n] := List.length_eq_two.mp demo_pools.2
  rw [hmn] at e ⊢
  simp only [List.map_cons, List.map_nil, List.cons.injEq, and_true] at e
  refine ⟨⟨?_, ?_, ?_⟩, ?_⟩ <;> simp [e.1, e.2, Inside, Tells, demoKernel]
  intro v h1 h2
  omega

end Verif.DmaMap
