import Verif.DmaPtr.Runs

/-! # C130: the free list of the DMA allocator, in the memory -/

namespace Verif.DmaPtr

open Verif.Dma (Env Region EnvOk RegOk State Reachable Apart fcount ind count Contiguous freeBlocks liveBlocks fcount_append fcount_cons fcount_nil
  count_pos count_append roundSize roundSize_spec reachable_inv apart_of_count isPow2 pow2_of pow_dvd_of_le roundSize_fix)

/-- The regions of a history are all right. -/
theorem good_of_reachable {e : Env} (he : EnvOk e) {s : State} (h : Reachable e (fun _ => True) s)
    (hphys : ∀ x, count x s.given ≠ 0 → 4096 ≤ e.paddr x) : Good e s.free := by
  have hinv := reachable_inv he _ s h
  have hRp := he.R_pos
  refine ⟨hinv.free, ?_, ?_⟩
  · intro r hr
    apply hphys
    have h1 := mem_fcount hr (x := r.vaddr) (by have := (hinv.free r hr).large; omega)
    have h2 := hinv.partition r.vaddr
    unfold fcount at h1
    omega
  · intro x
    have h1 := hinv.partition x
    have h2 := hinv.once x
    unfold fcount
    omega

/-- What the checks of `camkes_dma_init` ensure. -/
theorem dmaInit_sim {e : Env} {l : Lay} (he : EnvOk e) (hl : LayOk e l) {m m' : Mem} {free : List Region} (h : Rep e l m free) (hg : Good e free)
    {pool n page : Nat} {cached : Bool} (hpage : page ≠ 0) (hi : dmaInit e l m pool (n * page) page cached = some (0, m'))
    (hfree : ∀ x, pool ≤ x → x < pool + n * page → fcount x free = 0) (hcont : ∀ i < n, Contiguous e (pool + i * page) page)
    (hphys : ∀ x, pool ≤ x → x < pool + n * page → 4096 ≤ e.paddr x) :
    ∃ free', Dma.dmaInit e free pool (n * page) page cached = some free' ∧ Rep e l m' free' ∧
      ∀ x, ¬ (pool ≤ x ∧ x < pool + n * page) → m'.cell x = m.cell x := by
  unfold dmaInit at hi
  by_cases h1 : page ≤ e.R ∨ pool % page ≠ 0
  · rw [if_pos h1] at hi; simp at hi
  · rw [if_neg h1] at hi
    by_cases h2 : pool = 0 ∨ pool % e.A ≠ 0
    · rw [if_pos h2] at hi; simp at hi
    · rw [if_neg h2] at hi
      by_cases h3 : isPow2 page = false ∨ page < e.A
      · rw [if_pos h3] at hi; simp at hi
      · rw [if_neg h3] at hi
        have hn : (n * page + page - 1) / page = n := by
          rw [Nat.div_eq_iff (by omega)]
          constructor <;> omega
        rw [hn] at hi
        have hpow : isPow2 page = true := by
          cases hp : isPow2 page with
          | true => rfl
          | false => exact absurd (.inl hp) h3
        have hdvd : e.A ∣ page := by
          obtain ⟨k, hk⟩ := pow2_of page hpow
          obtain ⟨j, hj⟩ := he.A_pow
          have hge : e.A ≤ page := by omega
          rw [hk, hj] at hge ⊢
          exact pow_dvd_of_le hge
        have hround : roundSize e page = page := roundSize_fix page (by omega) (Nat.mod_eq_zero_of_dvd hdvd)
        obtain ⟨m2, i1, i2, i3, i4⟩ := addPages_sim he hl (cached := cached) hround (by omega) hdvd n pool m free h hg (by omega)
          (Nat.dvd_of_mod_eq_zero (by omega)) hfree hcont hphys
        rw [i1] at hi
        simp only [Option.some.injEq, Prod.mk.injEq, true_and] at hi
        subst hi
        refine ⟨_, ?_, i2, i4⟩
        unfold Dma.dmaInit
        rw [if_neg (fun h => h1 h.2), if_neg h2, if_neg (fun h => h3 h.2), if_pos hpage, hn]

/-- C130: in every history, what is in the memory is the free list of a history of the list model (`Verif.Dma`) with the same live
allocations. -/
theorem refines {e : Env} {l : Lay} (he : EnvOk e) (hl : LayOk e l) (s : PState) (h : PReach e l s) :
    ∃ free, Rep e l s.mem free ∧ Reachable e (fun _ => True) ⟨free, s.given, s.live⟩ ∧ ∀ x, count x s.given ≠ 0 → 4096 ≤ e.paddr x := by
  induction h with
  | start m hm =>
    refine ⟨[], ⟨?_, by simp⟩, .start, fun x hx => absurd rfl hx⟩
    exact hm
  | init s pool n page cached m hs hpage hi hfresh hcont hframe hphys ih =>
    obtain ⟨free, h1, h2, h3⟩ := ih
    have hg := good_of_reachable he h2 h3
    have hinv := reachable_inv he _ _ h2
    obtain ⟨free', d1, d2, _⟩ := dmaInit_sim he hl h1 hg hpage hi (by
      intro x hx1 hx2
      have p1 := hinv.partition x
      have p2 := hfresh x hx1 hx2
      simp only at p1
      unfold fcount
      omega) hcont hphys
    refine ⟨free', d2, Reachable.init ⟨free, s.given, s.live⟩ pool n page cached free' h2 hpage d1 hfresh hcont hframe, ?_⟩
    intro x hx
    by_cases hin : pool ≤ x ∧ x < pool + n * page
    · exact hphys x hin.1 hin.2
    · simp only [count] at hx
      rw [if_neg hin, Nat.zero_add] at hx
      exact h3 x hx
  | alloc s fuel size align cached res m hs hal ha ih =>
    obtain ⟨free, h1, h2, h3⟩ := ih
    have hg := good_of_reachable he h2 h3
    obtain ⟨fuel', res', m', free', a1, a2, a3, _⟩ := dmaAlloc_sim he hl h1 hg size align cached hal
    have e1 := dmaAlloc_mono (Nat.le_max_left fuel fuel') ha
    have e2 := dmaAlloc_mono (Nat.le_max_right fuel fuel') a1
    rw [e1] at e2
    simp only [Option.some.injEq, Prod.mk.injEq] at e2
    obtain ⟨rfl, rfl⟩ := e2
    have hr := Reachable.alloc ⟨free, s.given, s.live⟩ (flag l m) size align cached h2 trivial hal
    simp only [a2] at hr
    exact ⟨free', a3, hr, h3⟩
  | free s before after ptr size m hs hlive hf ih =>
    obtain ⟨free, h1, h2, h3⟩ := ih
    have hr := Reachable.free ⟨free, s.given, s.live⟩ before after ptr size h2 hlive
    have hinv := reachable_inv he _ _ h2
    obtain ⟨l1, l2, _⟩ := hinv.live (ptr, size) (by simp [hlive])
    simp only at l1 l2 hr
    refine ⟨_, ?_, hr, h3⟩
    have hg' := good_of_reachable he hr h3
    simp only at hg'
    unfold dmaFree at hf
    unfold Dma.dmaFree at hg' ⊢
    rw [if_neg (by omega)] at hf hg' ⊢
    cases hfr : e.frame ptr with
    | none =>
      rw [hfr] at hf
      simp only [Option.some.injEq] at hf
      subst hf
      exact h1
    | some c =>
      rw [hfr] at hf hg'
      simp only at hf hg' ⊢
      obtain ⟨m', f1, f2, _⟩ := freeRegion_sim he hl h1 ptr size c (by omega) (Nat.mod_eq_zero_of_dvd l2) hg'
      rw [f1] at hf
      simp only [Option.some.injEq] at hf
      subst hf
      exact f2
  | write s a v hs ha ih =>
    obtain ⟨free, h1, h2, h3⟩ := ih
    have hinv := reachable_inv he _ _ h2
    refine ⟨free, h1.frame hl rfl ?_, h2, h3⟩
    intro r hr k hk
    rw [cell_set, if_neg]
    intro heq
    have p1 := hinv.partition a
    have p2 := hinv.once a
    have p3 := mem_fcount hr (x := a) (by have := (hinv.free r hr).large; omega)
    simp only at p1 p2
    unfold fcount at p3
    omega

/-! ### Nothing gets stuck -/

/-- C130: in every history, an allocation ends and no assertion in it is false; more rounds than those change nothing. -/
theorem alloc_ends {e : Env} {l : Lay} (he : EnvOk e) (hl : LayOk e l) (s : PState) (h : PReach e l s) (size align : Nat) (cached : Bool)
    (hal : align = 0 ∨ ∃ k, align = 2 ^ k) :
    ∃ N res m, ∀ fuel, N ≤ fuel → dmaAlloc e l fuel s.mem size align cached = some (res, m) := by
  obtain ⟨free, h1, h2, h3⟩ := refines he hl s h
  obtain ⟨N, res, m, free', a1, _⟩ := dmaAlloc_sim he hl h1 (good_of_reachable he h2 h3) size align cached hal
  exact ⟨N, res, m, fun fuel hf => dmaAlloc_mono hf a1⟩

/-- C130: freeing what is live never fails. -/
theorem free_ends {e : Env} {l : Lay} (he : EnvOk e) (hl : LayOk e l) (s : PState) (h : PReach e l s) (a : Nat × Nat) (ha : a ∈ s.live) :
    ∃ m, dmaFree e l s.mem a.1 a.2 = some m := by
  obtain ⟨free, _, h2, _⟩ := refines he hl s h
  obtain ⟨l1, l2, _⟩ := (reachable_inv he _ _ h2).live a ha
  unfold dmaFree
  rw [if_neg (by omega)]
  cases e.frame a.1 with
  | none => exact ⟨_, rfl⟩
  | some c =>
    simp only [freeRegion]
    have := Nat.mod_eq_zero_of_dvd l2
    rw [if_neg (by omega)]
    exact ⟨_, rfl⟩

/-- C130: giving a pool never fails with a false assertion, and a pool that is not suitable changes nothing. -/
theorem init_ends {e : Env} {l : Lay} (he : EnvOk e) (m : Mem) (pool n page : Nat) (cached : Bool) :
    ∃ r m', dmaInit e l m pool (n * page) page cached = some (r, m') ∧ (r = 0 ∨ (r = -1 ∧ m' = m)) := by
  unfold dmaInit
  by_cases h1 : page ≤ e.R ∨ pool % page ≠ 0
  · rw [if_pos h1]; exact ⟨_, _, rfl, .inr ⟨rfl, rfl⟩⟩
  · rw [if_neg h1]
    by_cases h2 : pool = 0 ∨ pool % e.A ≠ 0
    · rw [if_pos h2]; exact ⟨_, _, rfl, .inr ⟨rfl, rfl⟩⟩
    · rw [if_neg h2]
      by_cases h3 : isPow2 page = false ∨ page < e.A
      · rw [if_pos h3]; exact ⟨_, _, rfl, .inr ⟨rfl, rfl⟩⟩
      · rw [if_neg h3]
        have hpow : isPow2 page = true := by
          cases hp : isPow2 page with
          | true => rfl
          | false => exact absurd (.inl hp) h3
        have hdvd : e.A ∣ page := by
          obtain ⟨k, hk⟩ := pow2_of page hpow
          obtain ⟨j, hj⟩ := he.A_pow
          have hge : e.A ≤ page := by omega
          rw [hk, hj] at hge ⊢
          exact pow_dvd_of_le hge
        have hadd : ∀ (k base : Nat) (m : Mem), base ≠ 0 → e.A ∣ base → ∃ m', addPages e l page cached k base m = some m' := by
          intro k
          induction k with
          | zero => intro base m _ _; exact ⟨m, rfl⟩
          | succ k ih =>
            intro base m hb hbA
            have := Nat.mod_eq_zero_of_dvd hbA
            simp only [addPages, freeRegion]
            rw [if_neg (by omega)]
            exact ih _ _ (by omega) (Nat.dvd_add hbA hdvd)
        obtain ⟨m', hm'⟩ := hadd ((n * page + page - 1) / page) pool m (by omega) (Nat.dvd_of_mod_eq_zero (by omega))
        rw [hm']
        exact ⟨_, _, rfl, .inl rfl⟩

/-- C130: a pool of pages that are larger than a node and to which it is aligned is accepted. -/
theorem init_accepts {e : Env} {l : Lay} (he : EnvOk e) (m : Mem) (pool n k : Nat) (cached : Bool) (hpos : pool ≠ 0) (hbig : e.R < 2 ^ k)
    (hal : pool % 2 ^ k = 0) : ∃ m', dmaInit e l m pool (n * 2 ^ k) (2 ^ k) cached = some (0, m') := by
  obtain ⟨r, m', h1, h2⟩ := init_ends (l := l) he m pool n (2 ^ k) cached
  obtain ⟨free', hf, _⟩ := Dma.init_adds he [] pool n k cached (by omega) hbig hal
  unfold Dma.dmaInit at hf
  have hne : (2 : Nat) ^ k ≠ 0 := by omega
  rcases h2 with rfl | ⟨rfl, rfl⟩
  · exact ⟨m', h1⟩
  · exfalso
    unfold dmaInit at h1
    by_cases c1 : 2 ^ k ≤ e.R ∨ pool % 2 ^ k ≠ 0
    · rw [if_pos ⟨hne, c1⟩] at hf; cases hf
    · rw [if_neg c1] at h1
      rw [if_neg (fun h => c1 h.2)] at hf
      by_cases c2 : pool = 0 ∨ pool % e.A ≠ 0
      · rw [if_pos c2] at hf; cases hf
      · rw [if_neg c2] at h1 hf
        by_cases c3 : isPow2 (2 ^ k) = false ∨ 2 ^ k < e.A
        · rw [if_pos ⟨hne, c3⟩] at hf; cases hf
        · rw [if_neg c3] at h1
          cases ha : addPages e l (2 ^ k) cached ((n * 2 ^ k + 2 ^ k - 1) / 2 ^ k) pool m' with
          | none => rw [ha] at h1; cases h1
          | some m2 => rw [ha] at h1; simp at h1

/-! ### What is allocated -/

/-- What an allocation is in the list model. -/
theorem alloc_refines {e : Env} {l : Lay} (he : EnvOk e) (hl : LayOk e l) (s : PState) (h : PReach e l s) (fuel size align : Nat) (cached : Bool)
    (hal : align = 0 ∨ ∃ k, align = 2 ^ k) (res : Option Nat) (m : Mem) (ha : dmaAlloc e l fuel s.mem size align cached = some (res, m)) :
    ∃ free free', Rep e l s.mem free ∧ Reachable e (fun _ => True) ⟨free, s.given, s.live⟩ ∧
      Dma.dmaAlloc e (flag l m) free size align cached = (res, free') ∧ Rep e l m free' ∧ Within s.mem m free := by
  obtain ⟨free, h1, h2, h3⟩ := refines he hl s h
  obtain ⟨fuel', res', m', free', a1, a2, a3, a4⟩ := dmaAlloc_sim he hl h1 (good_of_reachable he h2 h3) size align cached hal
  have e1 := dmaAlloc_mono (Nat.le_max_left fuel fuel') ha
  have e2 := dmaAlloc_mono (Nat.le_max_right fuel fuel') a1
  rw [e1] at e2
  simp only [Option.some.injEq, Prod.mk.injEq] at e2
  obtain ⟨rfl, rfl⟩ := e2
  exact ⟨free, free', h1, h2, a2, a3, a4⟩

/-- C130: in every history, an allocation that succeeds is aligned as requested, physically contiguous, in memory that was given, and apart
from every live allocation. -/
theorem alloc_sound {e : Env} {l : Lay} (he : EnvOk e) (hl : LayOk e l) (s : PState) (h : PReach e l s) (fuel size align : Nat) (cached : Bool)
    (hal : align = 0 ∨ ∃ k, align = 2 ^ k) (q : Nat) (m : Mem) (ha : dmaAlloc e l fuel s.mem size align cached = some (some q, m)) :
    (align ≠ 0 → q % align = 0) ∧ Contiguous e q size ∧ (∀ x, q ≤ x → x < q + size → count x s.given = 1) ∧
    (∀ b ∈ liveBlocks e s.live, Apart (q, size) b) := by
  obtain ⟨free, free', _, h2, h3, _, _⟩ := alloc_refines he hl s h fuel size align cached hal _ m ha
  obtain ⟨s1, s2, s3, s4, _⟩ := Dma.alloc_sound he _ _ h2 (flag l m) size align cached hal q (by simp only [h3])
  exact ⟨s1, s2, s3, s4⟩

/-! ### What is written -/

/-- C130: an allocation writes neither to live allocations nor outside of the memory that was given. -/
theorem alloc_keeps {e : Env} {l : Lay} (he : EnvOk e) (hl : LayOk e l) (s : PState) (h : PReach e l s) (fuel size align : Nat) (cached : Bool)
    (hal : align = 0 ∨ ∃ k, align = 2 ^ k) (res : Option Nat) (m : Mem) (ha : dmaAlloc e l fuel s.mem size align cached = some (res, m))
    (x : Nat) (hx : count x (liveBlocks e s.live) ≠ 0 ∨ count x s.given = 0) : m.cell x = s.mem.cell x := by
  obtain ⟨free, free', _, h2, _, _, hw⟩ := alloc_refines he hl s h fuel size align cached hal res m ha
  have hinv := reachable_inv he _ _ h2
  have p1 := hinv.partition x
  have p2 := hinv.once x
  simp only at p1 p2
  apply hw
  unfold fcount
  omega

/-- C130: freeing writes only to what is freed. -/
theorem free_keeps {e : Env} {l : Lay} (hl : LayOk e l) (m m' : Mem) (ptr size : Nat) (hf : dmaFree e l m ptr size = some m') (x : Nat)
    (hx : x < ptr ∨ ptr + roundSize e size ≤ x) (he : EnvOk e) : m'.cell x = m.cell x := by
  have hR := (roundSize_spec he size).1
  have hnlt := hl.n_lt
  have hslt := hl.s_lt
  have hplt := hl.p_lt
  have hclt := hl.c_lt
  unfold dmaFree at hf
  split at hf
  · simp only [Option.some.injEq] at hf; subst hf; rfl
  · split at hf
    · simp only [Option.some.injEq] at hf; subst hf; rfl
    · unfold freeRegion at hf
      split at hf
      · cases hf
      · simp only [Option.some.injEq] at hf
        subst hf
        simp only [prepend, cell_set]
        rw [if_neg (by omega), if_neg (by omega), if_neg (by omega), if_neg (by omega)]

/-- C130: giving a pool writes only to the pool. -/
theorem init_keeps {e : Env} {l : Lay} (he : EnvOk e) (hl : LayOk e l) (s : PState) (h : PReach e l s) (pool n page : Nat) (cached : Bool) (m : Mem)
    (hpage : page ≠ 0) (hi : dmaInit e l s.mem pool (n * page) page cached = some (0, m))
    (hfresh : ∀ x, pool ≤ x → x < pool + n * page → count x s.given = 0) (hcont : ∀ i < n, Contiguous e (pool + i * page) page)
    (hphys : ∀ x, pool ≤ x → x < pool + n * page → 4096 ≤ e.paddr x) (x : Nat) (hx : x < pool ∨ pool + n * page ≤ x) :
    m.cell x = s.mem.cell x := by
  obtain ⟨free, h1, h2, h3⟩ := refines he hl s h
  have hinv := reachable_inv he _ _ h2
  obtain ⟨free', _, _, d3⟩ := dmaInit_sim he hl h1 (good_of_reachable he h2 h3) hpage hi (by
    intro y hy1 hy2
    have p1 := hinv.partition y
    have p2 := hfresh y hy1 hy2
    simp only at p1
    unfold fcount
    omega) hcont hphys
  exact d3 x (by omega)

/-! ### What is free -/

theorem walk_rep {l : Lay} {m : Mem} {e : Env} : ∀ (free : List Region) (p : Nat), Seg l m p free 0 → (∀ r ∈ free, Node e l m r) →
    (∀ r ∈ free, r.vaddr ≠ 0) → walk l m (free.length + 1) p = some (freeBlocks free) := by
  intro free
  induction free with
  | nil => intro p h _ _; have hp : p = 0 := h; simp [walk, hp, freeBlocks]
  | cons r free ih =>
    intro p h hn hz
    have hp : p = r.vaddr := h.1
    subst hp
    rw [walk, if_neg (hz r (by simp)), List.length_cons, ih _ h.2 (fun s hs => hn s (by simp [hs])) (fun s hs => hz s (by simp [hs])),
      (hn r (by simp)).size]
    rfl

theorem walk_mono {l : Lay} {m : Mem} : ∀ (fuel fuel' p : Nat) (bs : List (Nat × Nat)), fuel ≤ fuel' → walk l m fuel p = some bs →
    walk l m fuel' p = some bs := by
  intro fuel
  induction fuel with
  | zero => intro fuel' p bs _ h; cases h
  | succ fuel ih =>
    intro fuel' p bs hle h
    obtain ⟨f', rfl⟩ : ∃ f', fuel' = f' + 1 := ⟨fuel' - 1, by omega⟩
    simp only [walk] at h ⊢
    by_cases hp : p = 0
    · rw [if_pos hp] at h ⊢; exact h
    · rw [if_neg hp] at h ⊢
      cases hw : walk l m fuel (next l m p) with
      | none => rw [hw] at h; cases h
      | some t => rw [hw] at h; rw [ih f' _ t (by omega) hw]; exact h

/-- C130: in every history, following the pointers from the head ends, and the blocks that are found and the live allocations are exactly the
memory that was given, every byte once. -/
theorem list_is_free {e : Env} {l : Lay} (he : EnvOk e) (hl : LayOk e l) (s : PState) (h : PReach e l s) :
    ∃ N blocks, (∀ fuel, N ≤ fuel → walk l s.mem fuel s.mem.head = some blocks) ∧
      (∀ x, count x blocks + count x (liveBlocks e s.live) = count x s.given) ∧ (∀ x, count x s.given ≤ 1) ∧
      (blocks ++ liveBlocks e s.live).Pairwise Apart := by
  obtain ⟨free, h1, h2, h3⟩ := refines he hl s h
  have hg := good_of_reachable he h2 h3
  obtain ⟨p1, p2, p3⟩ := Dma.pool_partition he _ _ h2
  exact ⟨free.length + 1, freeBlocks free, fun fuel hf => walk_mono _ _ _ _ hf (walk_rep free _ h1.seg h1.node (fun r hr => hg.nz hr)), p1, p2, p3⟩

/-- C130: in every history, an allocation succeeds if the list contains a physically contiguous run of bytes in blocks with the flag asked for
that is longer than the request by the alignment, three nodes and two node alignments. Partial as `Verif.Dma.alloc_succeeds_partial` is: a
request that is not larger than a node needs the run in one block. -/
theorem alloc_succeeds_partial {e : Env} {l : Lay} (he : EnvOk e) (hl : LayOk e l) (s : PState) (h : PReach e l s) (wf fuel size align : Nat)
    (cached : Bool) (hal : align = 0 ∨ ∃ k, align = 2 ^ k) (blocks : List (Nat × Nat)) (hw : walk l s.mem wf s.mem.head = some blocks) (a n : Nat)
    (hfree : ∀ x, a ≤ x → x < a + n → ∃ b ∈ blocks, b.1 ≤ x ∧ x < b.1 + b.2 ∧ flag l s.mem b.1 = cached)
    (hc : Contiguous e a n) (hn : size + align + 3 * e.R + 2 * e.A ≤ n) (hsize : e.R < size ∨ ∃ b ∈ blocks, b.1 ≤ a ∧ a + n ≤ b.1 + b.2)
    (res : Option Nat) (m : Mem) (ha : dmaAlloc e l fuel s.mem size align cached = some (res, m)) : ∃ q, res = some q := by
  obtain ⟨free, free', h1, h2, h3, _, _⟩ := alloc_refines he hl s h fuel size align cached hal res m ha
  have hinv := reachable_inv he _ _ h2
  have hwalk := walk_rep free _ h1.seg h1.node (fun r hr => by have := (hinv.free r hr).pos; omega)
  have hb : blocks = freeBlocks free := by
    have w1 := walk_mono _ (max wf (free.length + 1)) _ _ (Nat.le_max_left _ _) hw
    have w2 := walk_mono _ (max wf (free.length + 1)) _ _ (Nat.le_max_right _ _) hwalk
    rw [w1] at w2
    exact Option.some.inj w2
  subst hb
  have hmem : ∀ b ∈ freeBlocks free, ∃ r ∈ free, b = (r.vaddr, r.size) := by
    intro b hb
    obtain ⟨r, hr, rfl⟩ := List.mem_map.mp hb
    exact ⟨r, hr, rfl⟩
  have := Dma.alloc_succeeds_partial he _ _ h2 (flag l m) size align cached a n (by
      intro x hx1 hx2
      obtain ⟨b, hb, b1, b2, b3⟩ := hfree x hx1 hx2
      obtain ⟨r, hr, rfl⟩ := hmem b hb
      exact ⟨r, hr, b1, b2, by rw [← (h1.node r hr).flag]; exact b3⟩) hc hn (by
      rcases hsize with hs | ⟨b, hb, b1, b2⟩
      · exact .inl hs
      · obtain ⟨r, hr, rfl⟩ := hmem b hb
        exact .inr ⟨r, hr, b1, b2⟩)
  simp only [h3] at this
  exact this

/-! ### Examples -/

/-- A layout for `Dma.demoEnv`, where a node has 32 bytes. -/
def demoLay : Lay := ⟨0, 8, 16, 24⟩

theorem demoLay_ok : LayOk Dma.demoEnv demoLay := by constructor <;> decide

/-- The memory of a result. -/
def after {α : Type} : Option (α × Mem) → Mem
  | some (_, m) => m
  | none => ⟨0, fun _ => 0⟩

theorem after_eq {α : Type} {f : Option (α × Mem)} {r : α} (h : f.map Prod.fst = some r) : f = some (r, after f) := by
  cases f with
  | none => cases h
  | some t =>
    obtain ⟨a, m⟩ := t
    simp only [Option.map_some, Option.some.injEq] at h
    subst h
    rfl

/-- The page at 4096 is given, and three blocks of 64 bytes are allocated. -/
def demo0 : Mem := ⟨0, fun _ => 77⟩
def demo1 : Mem := after (dmaInit Dma.demoEnv demoLay demo0 4096 (1 * 4096) 4096 false)
def demo2 : Mem := after (dmaAlloc Dma.demoEnv demoLay 9 demo1 64 0 false)
def demo3 : Mem := after (dmaAlloc Dma.demoEnv demoLay 9 demo2 50 0 false)

theorem demo_reach1 : PReach Dma.demoEnv demoLay ⟨demo1, [(4096, 1 * 4096)], []⟩ := by
  refine PReach.init ⟨demo0, [], []⟩ 4096 1 4096 false demo1 (.start _ rfl) (by decide) (after_eq (by decide +kernel)) (fun x _ _ => rfl) ?_ ?_ ?_
  · intro i hi k hk; simp [Dma.demoEnv]
  · intro x h1 h2
    simp only [Dma.demoEnv]
    rw [if_pos (by omega)]
  · intro x h1 h2; simp only [Dma.demoEnv, id]; omega

theorem demo_reach2 : PReach Dma.demoEnv demoLay ⟨demo2, [(4096, 1 * 4096)], [(8128, 64)]⟩ :=
  PReach.alloc ⟨demo1, [(4096, 1 * 4096)], []⟩ 9 64 0 false (some 8128) demo2 demo_reach1 (.inl rfl) (after_eq (by decide +kernel))

theorem demo_reach3 : PReach Dma.demoEnv demoLay ⟨demo3, [(4096, 1 * 4096)], [(8072, 50), (8128, 64)]⟩ :=
  PReach.alloc ⟨demo2, [(4096, 1 * 4096)], [(8128, 64)]⟩ 9 50 0 false (some 8072) demo3 demo_reach2 (.inl rfl) (after_eq (by decide +kernel))

/-- The user writes to the first block, and frees both; the list then has three nodes. -/
def demo4 : Mem := demo3.set 8136 5
def demo5 : Mem := (dmaFree Dma.demoEnv demoLay demo4 8128 64).getD demo4
def demo6 : Mem := (dmaFree Dma.demoEnv demoLay demo5 8072 50).getD demo5

theorem getD_eq {f : Option Mem} {d : Mem} (h : f.isSome = true) : f = some (f.getD d) := by
  cases f with
  | none => cases h
  | some m => rfl

theorem demo_reach6 : PReach Dma.demoEnv demoLay ⟨demo6, [(4096, 1 * 4096)], []⟩ := by
  have h4 : PReach Dma.demoEnv demoLay ⟨demo4, [(4096, 1 * 4096)], [(8072, 50), (8128, 64)]⟩ :=
    PReach.write ⟨demo3, [(4096, 1 * 4096)], [(8072, 50), (8128, 64)]⟩ 8136 5 demo_reach3 (.inl (by decide +kernel))
  have h5 : PReach Dma.demoEnv demoLay ⟨demo5, [(4096, 1 * 4096)], [(8072, 50)]⟩ :=
    PReach.free ⟨demo4, [(4096, 1 * 4096)], [(8072, 50), (8128, 64)]⟩ [(8072, 50)] [] 8128 64 demo5 h4 rfl (getD_eq (by decide +kernel))
  exact PReach.free ⟨demo5, [(4096, 1 * 4096)], [(8072, 50)]⟩ [] [] 8072 50 demo6 h5 rfl (getD_eq (by decide +kernel))

/-- C130 is about something: the list is as expected, and an allocation of the whole page merges the three blocks. -/
theorem demo_merge : walk demoLay demo6 9 demo6.head = some [(8072, 56), (8128, 64), (4096, 3976)] ∧
    (dmaAlloc Dma.demoEnv demoLay 30 demo6 4096 0 false).map Prod.fst = some (some 4096) := by
  constructor <;> decide +kernel

/-- The rule that only live allocations are written to is needed: after a write to a block that has been freed, the allocator hands out
memory that it was never given. -/
theorem write_after_free : ∃ (s : PState) (a v q : Nat) (m : Mem), PReach Dma.demoEnv demoLay s ∧ count a s.given = 1 ∧ count a (liveBlocks Dma.demoEnv s.live) = 0 ∧
    dmaAlloc Dma.demoEnv demoLay 9 (s.mem.set a v) 5000 0 false = some (some q, m) ∧ ∃ x, q ≤ x ∧ x < q + 5000 ∧ count x s.given = 0 := by
  refine ⟨⟨demo6, [(4096, 1 * 4096)], []⟩, 8080, 5000, 8072, after (dmaAlloc Dma.demoEnv demoLay 9 (demo6.set 8080 5000) 5000 0 false),
    demo_reach6, by decide +kernel, by decide +kernel, after_eq (by decide +kernel), 8192, by decide, by decide, by decide +kernel⟩

end Verif.DmaPtr
