import Verif.DmaStats.Spec
import Verif.Dma.Props

/-!
# The statistics of the DMA allocator (C90)
-/

namespace Verif.DmaStats

open Verif.Dma

/-! ### The same allocator -/

theorem statLoop_fst (e : Env) : ∀ (fuel : Nat) (before rest : List Region) (stale : Bool) (n : Nat),
    (statLoop e fuel before rest stale n).map (·.1) = defragLoop e fuel before rest stale := by
  intro fuel
  induction fuel with
  | zero => intro before rest stale n; cases rest <;> rfl
  | succ fuel ih =>
    intro before rest stale n
    cases rest with
    | nil => rfl
    | cons p rest =>
      rw [statLoop, defragLoop]
      cases findPartner e p before with
      | none => exact ih _ _ _ _
      | some t =>
        obtain ⟨a, q, b, k⟩ := t
        cases k
        · exact ih _ _ _ _
        · cases a <;> exact ih _ _ _ _

/-- Each coalescing operation makes the free list shorter by one region. -/
theorem statLoop_count (e : Env) : ∀ (fuel : Nat) (before rest : List Region) (stale : Bool) (n : Nat) (out : List Region) (n' : Nat),
    (stale = true → ∀ p rest', rest = p :: rest' → ∀ q ∈ before, follows e p q = false) →
    statLoop e fuel before rest stale n = some (out, n') → n' + out.length = n + (before.length + rest.length) := by
  intro fuel
  induction fuel with
  | zero =>
    intro before rest stale n out n' _ h
    cases rest with
    | nil => simp only [statLoop, Option.some.injEq, Prod.mk.injEq] at h; rw [← h.1, ← h.2]; simp
    | cons p rest => simp [statLoop] at h
  | succ fuel ih =>
    intro before rest stale n out n' hst h
    cases rest with
    | nil => simp only [statLoop, Option.some.injEq, Prod.mk.injEq] at h; rw [← h.1, ← h.2]; simp
    | cons p rest =>
      simp only [statLoop] at h
      cases hf : findPartner e p before with
      | none =>
        rw [hf] at h
        have := ih _ _ _ _ _ _ (by simp) h
        simp only [List.length_append, List.length_cons, List.length_nil] at this ⊢
        omega
      | some t =>
        obtain ⟨a, q, b, k⟩ := t
        obtain ⟨hb, hk1, hk2, ha⟩ := (findPartner_spec e p before).2 a q b k hf
        rw [hf] at h
        cases k with
        | true =>
          have hs : stale = false := by
            cases stale
            · rfl
            · have := hst rfl p rest rfl q (by rw [hb]; simp)
              rw [hk1 rfl] at this
              cases this
          subst hs
          rw [hb]
          cases a with
          | nil =>
            have := ih _ _ _ _ _ _ (by simp) h
            simp only [List.length_append, List.length_cons, List.length_nil, Bool.false_eq_true, if_false] at this ⊢
            omega
          | cons x a =>
            have := ih _ _ _ _ _ _ (by simp) h
            simp only [List.length_append, List.length_cons, Bool.false_eq_true, if_false] at this ⊢
            omega
        | false =>
          have := ih _ _ _ _ _ _ (by
            intro hs p' rest' hp' x hx
            simp only [List.cons.injEq] at hp'
            rw [← hp'.1, follows_grow]
            rcases List.mem_append.mp hx with hx | hx
            · exact (ha x hx).1
            · cases stale
              · simp only [Bool.false_or, List.isEmpty_iff] at hs
                rw [hs] at hx
                cases hx
              · exact hst rfl p rest rfl x (by rw [hb]; simp [hx])) h
          rw [hb]
          simp only [List.length_append, List.length_cons] at this ⊢
          omega

theorem statDefrag_spec (e : Env) (free : List Region) (st : Stats) : ∃ out, defrag e free = some out ∧
    statDefrag e free st = some (out, { st with defrags := st.defrags + 1, coalesces := st.coalesces + (free.length - out.length) }) := by
  obtain ⟨out, h⟩ := defrag_terminates e free
  refine ⟨out, h, ?_⟩
  have h1 := statLoop_fst e ((2 * free.length + 1) * (free.length + 1) + free.length + 1) [] free false st.coalesces
  rw [defrag] at h
  rw [h] at h1
  rw [statDefrag]
  cases hs : statLoop e ((2 * free.length + 1) * (free.length + 1) + free.length + 1) [] free false st.coalesces with
  | none => rw [hs] at h1; cases h1
  | some t =>
    obtain ⟨out', n⟩ := t
    rw [hs] at h1
    simp only [Option.map_some, Option.some.injEq] at h1
    subst h1
    have := statLoop_count e _ [] free false st.coalesces out' n (by simp) hs
    simp only [List.length_nil, Nat.zero_add] at this
    rw [show st.coalesces + (free.length - out'.length) = n by
      have hle : out'.length ≤ free.length := by
        have := statLoop_count e ((2 * free.length + 1) * (free.length + 1) + free.length + 1) [] free false 0
        cases h0 : statLoop e ((2 * free.length + 1) * (free.length + 1) + free.length + 1) [] free false 0 with
        | none =>
          have h2 := statLoop_fst e ((2 * free.length + 1) * (free.length + 1) + free.length + 1) [] free false 0
          rw [h0, h] at h2; cases h2
        | some t =>
          have h2 := statLoop_fst e ((2 * free.length + 1) * (free.length + 1) + free.length + 1) [] free false 0
          rw [h0, h] at h2
          simp only [Option.map_some, Option.some.injEq] at h2
          have := this t.1 t.2 (by simp) h0
          rw [h2] at this
          simp only [List.length_nil] at this
          omega
      omega]

/-- What a request does: the allocator's result, and the statistics. -/
theorem statAlloc_spec (e : Env) (junk : Nat → Bool) (s : State) (st : Stats) (size align : Nat) (cached : Bool) :
    let r := record e junk s size align cached
    let d := dmaAlloc e junk s.free size align cached
    statAlloc e junk s.free st size align cached =
      (d.1, d.2,
        let st1 := onRequest st size align
        let st2 := if r.retried then { st1 with defrags := st1.defrags + 1, coalesces := st1.coalesces + r.merged } else st1
        if r.granted then onSuccess { st2 with succDefrag := st2.succDefrag + if r.retried then 1 else 0 } (roundSize e size)
        else if s.free = [] then { st2 with failEmpty := st2.failEmpty + 1 }
        else { st2 with failOther := st2.failOther + 1 }) := by
  simp only
  obtain ⟨out, hout, hsd⟩ := statDefrag_spec e s.free (onRequest st size align)
  by_cases hn : s.free = []
  · simp [statAlloc, record, dmaAlloc, hn]
  · cases h1 : allocFrom e junk s.free (roundSize e size) (roundAlign e align) cached with
    | some t => simp [statAlloc, record, dmaAlloc, hn, h1]
    | none =>
      by_cases hR : e.R < roundSize e size
      · simp only [statAlloc, record, dmaAlloc, hn, h1, hR, hout, hsd, if_false, if_true, not_false_eq_true, and_self, decide_true, Option.getD_some, ne_eq]
        cases h2 : allocFrom e junk out (roundSize e size) (roundAlign e align) cached with
        | some t => simp
        | none => simp
      · simp [statAlloc, record, dmaAlloc, hn, h1, hR]

theorem statFree_spec (e : Env) (free : List Region) (st : Stats) (ptr size : Nat) (hp : ptr ≠ 0) (hf : (e.frame ptr).isSome) :
    statFree e free st ptr size = (dmaFree e free ptr size, onFree st (roundSize e size)) := by
  obtain ⟨c, hc⟩ := Option.isSome_iff_exists.mp hf
  rw [statFree, dmaFree, if_neg hp, if_neg hp, hc]

theorem statPages_spec (e : Env) (page : Nat) (cached : Bool) : ∀ (n base : Nat) (free : List Region) (st : Stats), st.outstanding = 0 →
    statPages e page cached n base free st = (addPages e page cached n base free, st) := by
  intro n
  induction n with
  | zero => intro base free st _; rfl
  | succ n ih =>
    intro base free st h
    have : onFree st (roundSize e page) = st := by
      cases st
      simp only at h
      subst h
      simp [onFree]
    rw [statPages, addPages, this, ih _ _ _ h]

theorem statInit_spec (e : Env) (pool size page : Nat) (cached : Bool) (free : List Region) (st : Stats) (hpage : 0 < page)
    (h : statInit e [] {} pool size page cached = some (free, st)) :
    dmaInit e [] pool size page cached = some free ∧
      st = { heap := size, minHeap := size, minAlloc := word - 1, minAlign := 2147483647 } := by
  have hne : page ≠ 0 := by omega
  rw [statInit] at h
  split at h
  · cases h
  · rename_i h1
    split at h
    · cases h
    · rename_i h2
      split at h
      · cases h
      · rename_i h3
        simp only at h
        rw [statPages_spec _ _ _ _ _ _ _ rfl] at h
        simp only [Option.some.injEq, Prod.mk.injEq] at h
        refine ⟨?_, h.2.symm⟩
        rw [dmaInit, if_neg (fun hc => h1 hc.2), if_neg h2, if_neg (fun hc => h3 hc.2), if_pos hne, h.1]

/-! ### Counting bytes -/

theorem sum_ind (a n : Nat) : ∀ N, ((List.range N).map fun x => if a ≤ x ∧ x < a + n then 1 else 0).sum = min N (a + n) - min N a := by
  intro N
  induction N with
  | zero => simp
  | succ N ih =>
    rw [List.range_succ, List.map_append, List.sum_append, ih]
    simp only [List.map_cons, List.map_nil, List.sum_cons, List.sum_nil]
    split <;> omega

theorem sum_add (f g : Nat → Nat) : ∀ l : List Nat, (l.map fun x => f x + g x).sum = (l.map f).sum + (l.map g).sum := by
  intro l
  induction l with
  | nil => rfl
  | cons x l ih => simp only [List.map_cons, List.sum_cons, ih]; omega

theorem sum_count (N : Nat) : ∀ l : List (Nat × Nat), (∀ b ∈ l, b.1 + b.2 ≤ N) → ((List.range N).map fun x => count x l).sum = bytes l := by
  intro l
  induction l with
  | nil =>
    intro _
    simp only [count, bytes, List.map_nil, List.sum_nil]
    generalize List.range N = l
    induction l with
    | nil => rfl
    | cons x l ih => simp only [List.map_cons, List.sum_cons, ih, Nat.add_zero]
  | cons b l ih =>
    intro h
    have hb := h b (by simp)
    simp only [count]
    rw [sum_add, ih (fun c hc => h c (by simp [hc])), sum_ind]
    simp only [bytes, List.map_cons, List.sum_cons]
    omega

theorem exists_bound (l : List (Nat × Nat)) : ∃ N, ∀ b ∈ l, b.1 + b.2 ≤ N := by
  induction l with
  | nil => exact ⟨0, by simp⟩
  | cons b l ih =>
    obtain ⟨N, hN⟩ := ih
    refine ⟨max N (b.1 + b.2), ?_⟩
    intro c hc
    rcases List.mem_cons.mp hc with rfl | hc
    · omega
    · have := hN c hc; omega

theorem bytes_partition (a b c : List (Nat × Nat)) (h : ∀ x, count x a + count x b = count x c) : bytes a + bytes b = bytes c := by
  obtain ⟨A, hA⟩ := exists_bound a
  obtain ⟨B, hB⟩ := exists_bound b
  obtain ⟨C, hC⟩ := exists_bound c
  let N := max A (max B C)
  rw [← sum_count N a (fun x hx => by have := hA x hx; omega), ← sum_count N b (fun x hx => by have := hB x hx; omega),
    ← sum_count N c (fun x hx => by have := hC x hx; omega), ← sum_add]
  congr 1
  apply List.map_congr_left
  intro x _
  exact h x

/-! ### Histories -/

theorem hist_reachable {e : Env} (he : EnvOk e) {pool n page : Nat} {cached : Bool} {s : State} {st : Stats} {reqs : List Request} {low : Nat}
    (h : Hist e pool n page cached s st reqs low) : Reachable e (fun _ => True) s ∧ s.given = [(pool, n * page)] := by
  induction h with
  | init free st hpage hinit hcont hframe =>
    obtain ⟨h1, _⟩ := statInit_spec e pool (n * page) page cached free st hpage hinit
    exact ⟨.init ⟨[], [], []⟩ pool n page cached free .start (by omega) h1 (by simp [count]) hcont hframe, rfl⟩
  | alloc s st reqs low junk size align c res free st' _ hal heq ih =>
    rw [statAlloc_spec e junk s st size align c] at heq
    simp only [Prod.mk.injEq] at heq
    obtain ⟨rfl, rfl, _⟩ := heq
    exact ⟨.alloc s junk size align c ih.1 trivial hal, ih.2⟩
  | free s st reqs low before after ptr size free st' _ hlive heq ih =>
    have hinv := reachable_inv he _ s ih.1
    have hmem : (ptr, size) ∈ s.live := by rw [hlive]; simp
    obtain ⟨l1, _, _⟩ := hinv.live _ hmem
    obtain ⟨r1, r2, r3⟩ := roundSize_spec he size
    have hRp := he.R_pos
    have hgiven : count ptr s.given ≠ 0 := by
      have := hinv.partition ptr
      have h1 : 1 ≤ count ptr (liveBlocks e s.live) :=
        count_pos (b := (ptr, roundSize e size)) (by rw [hlive]; simp [liveBlocks]) ⟨Nat.le_refl _, by simp only; omega⟩
      omega
    obtain ⟨fc, hfc⟩ := hinv.frames ptr hgiven
    rw [statFree_spec e s.free st ptr size (by simp only at l1; omega) (by rw [hfc]; rfl)] at heq
    simp only [Prod.mk.injEq] at heq
    obtain ⟨rfl, _⟩ := heq
    exact ⟨.free s before after ptr size ih.1 hlive, ih.2⟩

theorem free_add_live {e : Env} (he : EnvOk e) {J : (Nat → Bool) → Prop} {s : State} (h : Reachable e J s) {a b : Nat} (hg : s.given = [(a, b)]) :
    freeBytes s + liveBytes e s = b := by
  have := bytes_partition _ _ _ (reachable_inv he J s h).partition
  rw [hg] at this
  simpa [bytes, freeBytes, liveBytes] using this

theorem free_nil_iff {e : Env} (he : EnvOk e) {J : (Nat → Bool) → Prop} {s : State} (h : Reachable e J s) : s.free = [] ↔ freeBytes s = 0 := by
  have hinv := reachable_inv he J s h
  have hR := he.R_pos
  constructor
  · intro hn; simp [freeBytes, freeBlocks, bytes, hn]
  · intro hz
    cases hf : s.free with
    | nil => rfl
    | cons r l =>
      have := (hinv.free r (by rw [hf]; simp)).large
      simp only [freeBytes, freeBlocks, bytes, hf, List.map_cons, List.sum_cons] at hz
      omega

/-- The statistics as functions of the history. -/
structure Exact (e : Env) (size : Nat) (s : State) (st : Stats) (reqs : List Request) (low : Nat) : Prop where
  heap : st.heap = size
  lowMark : st.minHeap = low
  outstanding : st.outstanding = liveBytes e s
  total : st.total = reqs.length
  exhausted : st.failEmpty = (reqs.filter fun r => !r.granted && r.available == 0).length
  other : st.failOther = (reqs.filter fun r => !r.granted && r.available != 0).length
  defragmented : st.defrags = (reqs.filter (·.retried)).length
  helped : st.succDefrag = (reqs.filter fun r => r.retried && r.granted).length
  coalesced : st.coalesces = ((reqs.filter (·.retried)).map (·.merged)).sum
  bytes : st.totalBytes = (reqs.map (·.size)).sum
  maxAlloc : st.maxAlloc = reqs.foldr (fun r m => max r.size m) 0
  maxAlign : st.maxAlign = reqs.foldr (fun r m => max r.align m) 0
  minAlloc : st.minAlloc = reqs.foldr (fun r m => min r.size m) (word - 1)
  minAlign : st.minAlign = reqs.foldr (fun r m => min r.align m) 2147483647
  lowest : low ≤ freeBytes s

theorem hist_exact {e : Env} (he : EnvOk e) {pool n page : Nat} {cached : Bool} {s : State} {st : Stats} {reqs : List Request} {low : Nat}
    (h : Hist e pool n page cached s st reqs low) : Exact e (n * page) s st reqs low := by
  induction h with
  | init free st hpage hinit hcont hframe =>
    obtain ⟨h1, rfl⟩ := statInit_spec e pool (n * page) page cached free st hpage hinit
    have hr := hist_reachable he (Hist.init free _ hpage hinit hcont hframe)
    have hb := free_add_live he hr.1 hr.2
    refine ⟨rfl, rfl, rfl, rfl, rfl, rfl, rfl, rfl, rfl, rfl, rfl, rfl, rfl, rfl, ?_⟩
    simp only [liveBytes, liveBlocks, bytes, List.map_nil, List.sum_nil, Nat.add_zero] at hb
    omega
  | alloc s st reqs low junk size align c res free st' hs hal heq ih =>
    have hr := hist_reachable he (Hist.alloc s st reqs low junk size align c res free st' hs hal heq)
    have hb := free_add_live he hr.1 hr.2
    have hb0 := free_add_live he (hist_reachable he hs).1 (hist_reachable he hs).2
    have hnil := free_nil_iff he (hist_reachable he hs).1
    have hgr : (record e junk s size align c).granted = (dmaAlloc e junk s.free size align c).1.isSome := rfl
    have hav : (record e junk s size align c).available = freeBytes s := rfl
    have hsz : (record e junk s size align c).size = size := rfl
    have hali : (record e junk s size align c).align = align := rfl
    have hfails : (dmaAlloc e junk s.free size align c).1 = none → ∀ x, fcount x (dmaAlloc e junk s.free size align c).2 = fcount x s.free :=
      (dmaAlloc_spec he junk s.free size align c hal (reachable_inv he _ s (hist_reachable he hs).1).free).2.2.1
    rw [statAlloc_spec e junk s st size align c] at heq
    simp only [Prod.mk.injEq] at heq
    obtain ⟨rfl, rfl, rfl⟩ := heq
    generalize hrec : record e junk s size align c = r at *
    generalize hfree : (dmaAlloc e junk s.free size align c).2 = free' at *
    cases hres : (dmaAlloc e junk s.free size align c).1 with
    | none =>
      rw [hres] at hgr hb
      simp only [Option.isSome_none] at hgr
      have hlow : low ≤ freeBytes ⟨free', s.given, s.live⟩ := by
        have := ih.lowest
        simp only [liveBytes] at hb hb0
        omega
      simp only [hgr]
      by_cases hret : r.retried <;> by_cases hn : s.free = []
      all_goals
        have hz : (r.available == 0) = decide (s.free = []) := by
          by_cases hn' : s.free = []
          · rw [hav, hnil.mp hn']; simp [hn']
          · have : freeBytes s ≠ 0 := fun h => hn' (hnil.mpr h)
            rw [hav]; simp [hn', this]
        refine ⟨?_, ?_, ?_, ?_, ?_, ?_, ?_, ?_, ?_, ?_, ?_, ?_, ?_, ?_, ?_⟩ <;>
          simp [hret, hn, hgr, hz, bne, onRequest, ih.heap, ih.lowMark, ih.outstanding, ih.total, ih.exhausted, ih.other, ih.defragmented, ih.helped,
            ih.coalesced, ih.bytes, ih.maxAlloc, ih.maxAlign, ih.minAlloc, ih.minAlign, hsz, hali, Nat.min_eq_left hlow, liveBytes] <;>
          (try split) <;> omega
    | some q =>
      rw [hres] at hgr hb
      simp only [Option.isSome_some] at hgr
      simp only [hgr]
      have hl : liveBytes e ⟨free', s.given, (q, size) :: s.live⟩ = liveBytes e s + roundSize e size := by
        simp only [liveBytes, liveBlocks, bytes, List.map_cons, List.sum_cons]
        omega
      simp only at hb
      rw [hl] at hb
      have hsub : subWord (n * page) (liveBytes e s + roundSize e size) = freeBytes ⟨free', s.given, (q, size) :: s.live⟩ := by
        rw [subWord, if_pos (by omega)]; omega
      by_cases hret : r.retried
      all_goals
        refine ⟨?_, ?_, ?_, ?_, ?_, ?_, ?_, ?_, ?_, ?_, ?_, ?_, ?_, ?_, ?_⟩ <;>
          simp [hret, hgr, bne, onRequest, onSuccess, ih.heap, ih.lowMark, ih.outstanding, ih.total, ih.exhausted, ih.other, ih.defragmented, ih.helped,
            ih.coalesced, ih.bytes, ih.maxAlloc, ih.maxAlign, ih.minAlloc, ih.minAlign, hsz, hali, hl, hsub] <;>
          (try split) <;> omega
  | free s st reqs low before after ptr size free st' hs hlive heq ih =>
    have hr := hist_reachable he (Hist.free s st reqs low before after ptr size free st' hs hlive heq)
    have hb := free_add_live he hr.1 hr.2
    have hb0 := free_add_live he (hist_reachable he hs).1 (hist_reachable he hs).2
    have hl : liveBytes e s = liveBytes e ⟨free, s.given, before ++ after⟩ + roundSize e size := by
      simp only [liveBytes, liveBlocks, bytes, hlive, List.map_append, List.map_cons, List.sum_append, List.sum_cons]
      omega
    have hst : st' = onFree st (roundSize e size) := by
      have hinv := reachable_inv he _ s (hist_reachable he hs).1
      obtain ⟨l1, _, _⟩ := hinv.live (ptr, size) (by rw [hlive]; simp)
      obtain ⟨r1, _, _⟩ := roundSize_spec he size
      have hRp := he.R_pos
      have hgiven : count ptr s.given ≠ 0 := by
        have := hinv.partition ptr
        have h1 : 1 ≤ count ptr (liveBlocks e s.live) :=
          count_pos (b := (ptr, roundSize e size)) (by rw [hlive]; simp [liveBlocks]) ⟨Nat.le_refl _, by simp only; omega⟩
        omega
      obtain ⟨fc, hfc⟩ := hinv.frames ptr hgiven
      rw [statFree_spec e s.free st ptr size (by simp only at l1; omega) (by rw [hfc]; rfl)] at heq
      simp only [Prod.mk.injEq] at heq
      exact heq.2.symm
    have hlow := ih.lowest
    have hmin : min low (freeBytes ⟨free, s.given, before ++ after⟩) = low := by omega
    rw [hst, hmin]
    refine ⟨ih.heap, ih.lowMark, ?_, ih.total, ih.exhausted, ih.other, ih.defragmented, ih.helped, ih.coalesced, ih.bytes, ih.maxAlloc, ih.maxAlign,
      ih.minAlloc, ih.minAlign, by omega⟩
    simp only [onFree, ih.outstanding, hl]
    split <;> omega

theorem foldr_max (f : Request → Nat) (l : List Request) : (∀ r ∈ l, f r ≤ l.foldr (fun r m => max (f r) m) 0) ∧
    (l ≠ [] → ∃ r ∈ l, f r = l.foldr (fun r m => max (f r) m) 0) := by
  induction l with
  | nil => simp
  | cons x l ih =>
    simp only [List.foldr_cons]
    refine ⟨?_, ?_⟩
    · intro r hr
      rcases List.mem_cons.mp hr with rfl | hr
      · omega
      · have := ih.1 r hr; omega
    · intro _
      by_cases h : l.foldr (fun r m => max (f r) m) 0 ≤ f x
      · exact ⟨x, by simp, by omega⟩
      · have hl : l ≠ [] := by rintro rfl; simp at h
        obtain ⟨r, hr, hr'⟩ := ih.2 hl
        exact ⟨r, by simp [hr], by omega⟩

theorem foldr_min (f : Request → Nat) (M : Nat) (l : List Request) : (∀ r ∈ l, l.foldr (fun r m => min (f r) m) M ≤ f r) ∧
    (l ≠ [] → (∀ r ∈ l, f r ≤ M) → ∃ r ∈ l, f r = l.foldr (fun r m => min (f r) m) M) := by
  induction l with
  | nil => simp
  | cons x l ih =>
    simp only [List.foldr_cons]
    refine ⟨?_, ?_⟩
    · intro r hr
      rcases List.mem_cons.mp hr with rfl | hr
      · omega
      · have := ih.1 r hr; omega
    · intro _ hM
      by_cases h : f x ≤ l.foldr (fun r m => min (f r) m) M
      · exact ⟨x, by simp, by omega⟩
      · have hl : l ≠ [] := by
          rintro rfl
          have := hM x (by simp)
          simp only [List.foldr_nil] at h
          omega
        obtain ⟨r, hr, hr'⟩ := ih.2 hl (fun r hr => hM r (by simp [hr]))
        exact ⟨r, by simp [hr], by omega⟩

/-- C90: in every history of an allocator with one pool, the statistics are what happened. -/
theorem stats_partial {e : Env} (he : EnvOk e) {pool n page : Nat} {cached : Bool} {s : State} {st : Stats} {reqs : List Request} {low : Nat}
    (h : Hist e pool n page cached s st reqs low) : Accurate e (n * page) s st reqs low := by
  have hx := hist_exact he h
  have hr := hist_reachable he h
  have hb := free_add_live he hr.1 hr.2
  refine ⟨hx.heap, hx.lowMark, hx.outstanding, ?_, hx.total, hx.exhausted, hx.other, hx.defragmented, hx.helped, hx.coalesced, ?_, ?_, ?_⟩
  · rw [hx.heap, hx.outstanding]; omega
  · rw [average, hx.total, hx.bytes]
    split
    · rfl
    · rename_i hz
      rw [show reqs.length = 0 by omega, Nat.div_zero]
  · rw [hx.maxAlloc, hx.maxAlign]
    have h1 := foldr_max (·.size) reqs
    have h2 := foldr_max (·.align) reqs
    exact ⟨fun r hr => ⟨h1.1 r hr, h2.1 r hr⟩, fun hne => ⟨h1.2 hne, h2.2 hne⟩⟩
  · rw [hx.minAlloc, hx.minAlign]
    have h1 := foldr_min (·.size) (word - 1) reqs
    have h2 := foldr_min (·.align) 2147483647 reqs
    exact ⟨fun r hr => ⟨h1.1 r hr, h2.1 r hr⟩, fun hne hM => ⟨h1.2 hne fun r hr => by have := (hM r hr).1; omega,
      h2.2 hne fun r hr => (hM r hr).2⟩⟩

/-- C90: keeping statistics does not change what the allocator does. -/
theorem stats_harmless (e : Env) (free : List Region) (st : Stats) :
    (∀ junk size align cached, ((statAlloc e junk free st size align cached).1, (statAlloc e junk free st size align cached).2.1) =
      dmaAlloc e junk free size align cached) ∧
    (∀ ptr size, (statFree e free st ptr size).1 = dmaFree e free ptr size) ∧
    (∀ pool size page cached, page ≠ 0 → (statInit e free st pool size page cached).map (·.1) = dmaInit e free pool size page cached) := by
  refine ⟨?_, ?_, ?_⟩
  · intro junk size align cached
    have := statAlloc_spec e junk ⟨free, [], []⟩ st size align cached
    simp only at this
    rw [this]
  · intro ptr size
    rw [statFree, dmaFree]
    split
    · rfl
    · cases e.frame ptr <;> rfl
  · intro pool size page cached hpage
    have hp : ∀ (n base : Nat) (free : List Region) (st : Stats), (statPages e page cached n base free st).1 = addPages e page cached n base free := by
      intro n
      induction n with
      | zero => intro _ _ _; rfl
      | succ n ih => intro base free st; rw [statPages, addPages, ih]
    rw [statInit, dmaInit]
    simp only [ne_eq, hpage, not_false_eq_true, true_and, if_true]
    split
    · rfl
    · split
      · rfl
      · split
        · rfl
        · simp only [Option.map_some, hp]

/-! ### A second pool -/

theorem statPages_outstanding (e : Env) (page : Nat) (cached : Bool) : ∀ (n base : Nat) (free : List Region) (st : Stats),
    (statPages e page cached n base free st).2 = { st with outstanding := st.outstanding - n * roundSize e page } := by
  intro n
  induction n with
  | zero => intro base free st; simp [statPages]
  | succ n ih =>
    intro base free st
    rw [statPages, ih]
    simp only [onFree, Nat.succ_mul]
    congr 1
    split <;> omega

/-- **Disagreement with C90.** Giving a second pool to the allocator, as a component with an own pool and a connection
with one does, makes the size of the heap that of the second pool alone, takes the size of that pool from the live
bytes, and forgets the low water mark and the smallest request. -/
theorem second_pool_forgets (e : Env) (he : EnvOk e) (free free' : List Region) (st st' : Stats) (pool n page : Nat) (cached : Bool)
    (h : statInit e free st pool (n * page) page cached = some (free', st')) :
    st'.heap = n * page ∧ st'.minHeap = n * page ∧ st'.outstanding = st.outstanding - n * page ∧ st'.minAlloc = word - 1 ∧
      st'.minAlign = 2147483647 := by
  rw [statInit] at h
  split at h
  · cases h
  · rename_i h1
    split at h
    · cases h
    · split at h
      · cases h
      · rename_i h3
        simp only [Option.some.injEq] at h
        have h2 := congrArg (·.2) h
        simp only [statPages_outstanding] at h2
        have hR := he.R_pos
        have hpage : 0 < page := by omega
        obtain ⟨k, hk⟩ := pow2_of page (by
          cases hp : isPow2 page
          · exact absurd (.inl hp) h3
          · rfl)
        obtain ⟨m, hm⟩ := he.A_pow
        have hround : roundSize e page = page := by
          apply roundSize_fix
          · omega
          · have hle : e.A ≤ page := by omega
            rw [hm, hk] at hle ⊢
            exact Nat.mod_eq_zero_of_dvd (pow_dvd_of_le hle)
        have hn : (n * page + page - 1) / page = n := by
          rw [show n * page + page - 1 = (page - 1) + page * n by rw [Nat.mul_comm]; omega, Nat.add_mul_div_left _ _ hpage,
            Nat.div_eq_of_lt (by omega), Nat.zero_add]
        rw [← h2, hround, hn]
        exact ⟨rfl, rfl, rfl, rfl, rfl⟩

/-! ### A case -/

theorem demo_hist : ∃ free st, Hist demoEnv 4096 1 4096 false ⟨free, [(4096, 4096)], []⟩ st [] 4096 ∧ free = [⟨4096, 4096, 0, false⟩] ∧ st.heap = 4096 := by
  refine ⟨[⟨4096, 4096, 0, false⟩], { heap := 4096, minHeap := 4096, minAlloc := word - 1, minAlign := 2147483647 }, ?_, rfl, rfl⟩
  refine Hist.init _ _ (by omega) ?_ ?_ ?_
  · rfl
  · intro i hi k hk; rfl
  · intro x h1 h2; rw [demoEnv]; simp only; rw [if_pos (by omega)]

/-- Two requests, of which the second is too large: the statistics. -/
example : let a := statAlloc demoEnv (fun _ => false) [⟨4096, 4096, 0, false⟩] { heap := 4096, minHeap := 4096, minAlloc := word - 1, minAlign := 2147483647 } 60 0 false
    let b := statAlloc demoEnv (fun _ => false) a.2.1 a.2.2 5000 16 false
    a.1 = some 8128 ∧ b.1 = none ∧ b.2.2 = ⟨4096, 4032, 64, 1, 0, 2, 0, 0, 1, 60, 5000, 16, 0, 5060⟩ ∧
    average b.2.2 = 2530 := by
  decide

/-- With 64 bytes live, a second pool is given: no bytes are said to be live. -/
example : let a := statAlloc demoEnv (fun _ => false) [⟨4096, 4096, 0, false⟩] { heap := 4096, minHeap := 4096, minAlloc := word - 1, minAlign := 2147483647 } 60 0 false
    ((statInit demoEnv a.2.1 a.2.2 65536 4096 4096 false).map fun r => (r.2.heap, r.2.outstanding)) = some (4096, 0) := by
  decide

end Verif.DmaStats
