import Verif.DmaPtr.Lists
import Mathlib.Tactic.Tauto

/-! # Steps: the loops of the allocator do what those of `Verif.Dma` do -/

namespace Verif.DmaPtr

open Verif.Dma (Env Region EnvOk RegOk fcount ind ind_split count Contiguous freeBlocks fcount_append fcount_cons fcount_nil count_pos
  follows precedes findPartner follows_iff precedes_iff extract_ok findPartner_spec follows_grow regOk_closed defragLoop)

/-! ### More rounds change nothing -/

theorem search_mono {e : Env} {l : Lay} {p pstart psize : Nat} {pc : Bool} {pprev : Nat} : ∀ (fuel : Nat) (m : Mem) (qprev q : Nat) (out : Mem × Found)
    (fuel' : Nat), fuel ≤ fuel' → search e l p pstart psize pc pprev fuel m qprev q = some out →
    search e l p pstart psize pc pprev fuel' m qprev q = some out := by
  intro fuel
  induction fuel with
  | zero => intro m qprev q out fuel' _ h; cases h
  | succ fuel ih =>
    intro m qprev q out fuel' hle h
    obtain ⟨f', rfl⟩ : ∃ f', fuel' = f' + 1 := ⟨fuel' - 1, by omega⟩
    simp only [search] at h ⊢
    by_cases hq : q = p
    · rw [if_pos hq] at h ⊢; exact h
    · rw [if_neg hq] at h ⊢
      cases he : extract e l m q with
      | none => rw [he] at h; cases h
      | some t =>
        obtain ⟨qs, m'⟩ := t
        rw [he] at h
        simp only at h ⊢
        by_cases h1 : pprev = 0
        · rw [if_pos h1] at h; cases h
        · rw [if_neg h1] at h ⊢
          by_cases h2 : p = q + size l m' q ∧ pstart = qs + size l m' q ∧ pc = flag l m' q
          · rw [if_pos h2] at h ⊢; exact h
          · rw [if_neg h2] at h ⊢
            by_cases h3 : p + psize = q ∧ pstart + psize = qs ∧ pc = flag l m' q
            · rw [if_pos h3] at h ⊢; exact h
            · rw [if_neg h3] at h ⊢
              exact ih _ _ _ _ _ (by omega) h

theorem defrag_mono {e : Env} {l : Lay} : ∀ (fuel inner : Nat) (m : Mem) (pprev p : Nat) (out : Mem) (fuel' inner' : Nat),
    fuel ≤ fuel' → inner ≤ inner' → defrag e l fuel inner m pprev p = some out → defrag e l fuel' inner' m pprev p = some out := by
  intro fuel
  induction fuel with
  | zero =>
    intro inner m pprev p out fuel' inner' _ _ h
    simp only [defrag] at h
    by_cases hp : p = 0
    · cases fuel' <;> simp only [defrag, if_pos hp] at h ⊢ <;> exact h
    · rw [if_neg hp] at h; cases h
  | succ fuel ih =>
    intro inner m pprev p out fuel' inner' hle hle' h
    obtain ⟨f', rfl⟩ : ∃ f', fuel' = f' + 1 := ⟨fuel' - 1, by omega⟩
    simp only [defrag] at h ⊢
    by_cases hp : p = 0
    · rw [if_pos hp] at h ⊢; exact h
    · rw [if_neg hp] at h ⊢
      cases he : extract e l m p with
      | none => rw [he] at h; cases h
      | some t =>
        obtain ⟨ps, m'⟩ := t
        rw [he] at h
        simp only at h ⊢
        cases hs : search e l p ps (size l m' p) (flag l m' p) pprev inner m' 0 m'.head with
        | none => rw [hs] at h; cases h
        | some t =>
          obtain ⟨m2, f⟩ := t
          rw [hs] at h
          rw [search_mono _ _ _ _ _ inner' hle' hs]
          cases f with
          | nothing => exact ih _ _ _ _ _ _ _ (by omega) hle' h
          | before qprev q =>
            simp only at h ⊢
            cases hg : grow l m2 q (size l m2 p) with
            | none => rw [hg] at h; cases h
            | some m3 =>
              rw [hg] at h
              exact ih _ _ _ _ _ _ _ (by omega) hle' h
          | after qprev q =>
            simp only at h ⊢
            cases hg : grow l m2 p (size l m2 q) with
            | none => rw [hg] at h; cases h
            | some m3 =>
              rw [hg] at h
              exact ih _ _ _ _ _ _ _ (by omega) hle' h

theorem tryAlloc_mono {e : Env} {l : Lay} {sz align : Nat} {cached : Bool} : ∀ (fuel : Nat) (m : Mem) (prev p : Nat) (out : Option Nat × Mem) (fuel' : Nat),
    fuel ≤ fuel' → tryAlloc e l sz align cached fuel m prev p = some out → tryAlloc e l sz align cached fuel' m prev p = some out := by
  intro fuel
  induction fuel with
  | zero => intro m prev p out fuel' _ h; cases h
  | succ fuel ih =>
    intro m prev p out fuel' hle h
    obtain ⟨f', rfl⟩ : ∃ f', fuel' = f' + 1 := ⟨fuel' - 1, by omega⟩
    simp only [tryAlloc] at h ⊢
    by_cases hp : p = 0
    · rw [if_pos hp] at h ⊢; exact h
    · rw [if_neg hp] at h ⊢
      by_cases hc : size l m p < sz ∨ flag l m p ≠ cached
      · rw [if_pos hc] at h ⊢
        exact ih _ _ _ _ _ (by omega) h
      · rw [if_neg hc] at h ⊢
        cases hk : carve e l m sz align prev p with
        | none => rw [hk] at h; cases h
        | some t =>
          obtain ⟨r, m'⟩ := t
          rw [hk] at h
          cases r with
          | some q => exact h
          | none => exact ih _ _ _ _ _ (by omega) h

theorem dmaAlloc_mono {e : Env} {l : Lay} {sz align : Nat} {cached : Bool} {fuel fuel' : Nat} {m : Mem} {out : Option Nat × Mem}
    (hle : fuel ≤ fuel') (h : dmaAlloc e l fuel m sz align cached = some out) : dmaAlloc e l fuel' m sz align cached = some out := by
  unfold dmaAlloc at h ⊢
  by_cases hh : m.head = 0
  · rw [if_pos hh] at h ⊢; exact h
  · rw [if_neg hh] at h ⊢
    cases ht : tryAlloc e l (Dma.roundSize e sz) (Dma.roundAlign e align) cached fuel m 0 m.head with
    | none => rw [ht] at h; cases h
    | some t =>
      rw [ht] at h
      rw [tryAlloc_mono _ _ _ _ _ fuel' hle ht]
      obtain ⟨r, m1⟩ := t
      cases r with
      | some q => exact h
      | none =>
        simp only at h ⊢
        by_cases hR : Dma.roundSize e sz > e.R
        · rw [if_pos hR] at h ⊢
          cases hd : defrag e l fuel fuel m1 0 m1.head with
          | none => rw [hd] at h; cases h
          | some m2 =>
            rw [hd] at h
            rw [defrag_mono _ _ _ _ _ _ fuel' fuel' hle hle hd]
            exact tryAlloc_mono _ _ _ _ _ fuel' hle h
        · rw [if_neg hR] at h ⊢; exact h

/-! ### Looking for a neighbour -/

/-- What the inner loop should find. -/
def foundOf (a : List Region) : Option (List Region × Region × List Region × Bool) → Found
  | none => .nothing
  | some (a', q, _, true) => .before (lastAddr (a ++ a')) q.vaddr
  | some (a', q, _, false) => .after (lastAddr (a ++ a')) q.vaddr

theorem search_sim {e : Env} {l : Lay} (he : EnvOk e) (hl : LayOk e l) {p : Region} {rest : List Region} {pprev : Nat} : ∀ (c a : List Region) (m : Mem)
    (fuel q : Nat), Rep e l m (a ++ c ++ p :: rest) → Good e (a ++ c ++ p :: rest) → (c ≠ [] → pprev ≠ 0) →
    Seg l m q (c ++ p :: rest) 0 → c.length < fuel →
    ∃ m', search e l p.vaddr (e.paddr p.vaddr) p.size p.cached pprev fuel m (lastAddr a) q = some (m', foundOf a (findPartner e p c)) ∧
      Rep e l m' (a ++ c ++ p :: rest) ∧ PuOnly l m m' (a ++ c ++ p :: rest) := by
  intro c
  induction c with
  | nil =>
    intro a m fuel q h hg hpp hq hf
    obtain ⟨f', rfl⟩ : ∃ f', fuel = f' + 1 := ⟨fuel - 1, by simp only [List.length_nil] at hf; omega⟩
    refine ⟨m, ?_, h, .refl _ _ _⟩
    have : q = p.vaddr := hq.1
    simp [search, this, findPartner, foundOf]
  | cons r c ih =>
    intro a m fuel q h hg hpp hq hf
    simp only [List.length_cons] at hf
    obtain ⟨f', rfl⟩ : ∃ f', fuel = f' + 1 := ⟨fuel - 1, by omega⟩
    have hqr : q = r.vaddr := hq.1
    subst hqr
    have hpp' : pprev ≠ 0 := hpp (by simp)
    have hrm : r ∈ a ++ r :: c ++ p :: rest := by simp
    have hpm : p ∈ a ++ r :: c ++ p :: rest := by simp
    have hgr : Good e (a ++ r :: (c ++ p :: rest)) := by simpa using hg
    have hRp := he.R_pos
    have hne : r.vaddr ≠ p.vaddr := by
      have := hgr.sep he p (by simp)
      unfold Sep at this
      omega
    obtain ⟨m1, hx, hrep1, hpu1⟩ := extract_sim he hl h hg hrm
    have hn1 := hrep1.node r hrm
    have hpr := extract_ok he (hg.reg p hpm)
    have hrr := extract_ok he (hg.reg r hrm)
    simp only [search]
    rw [if_neg hne, hx]
    simp only
    rw [if_neg hpp', hn1.size, hn1.flag]
    have hfol : (p.vaddr = r.vaddr + r.size ∧ e.paddr p.vaddr = e.paddr r.vaddr + r.size ∧ p.cached = r.cached) ↔ follows e p r = true := by
      rw [follows_iff, hpr, hrr]
    have hpre : (p.vaddr + p.size = r.vaddr ∧ e.paddr p.vaddr + p.size = e.paddr r.vaddr ∧ p.cached = r.cached) ↔ precedes e p r = true := by
      rw [precedes_iff, hpr, hrr]
    by_cases h1 : follows e p r = true
    · rw [if_pos (hfol.mpr h1)]
      refine ⟨m1, ?_, hrep1, hpu1⟩
      simp [findPartner, h1, foundOf]
    · rw [if_neg (fun h => h1 (hfol.mp h))]
      by_cases h2 : precedes e p r = true
      · rw [if_pos (hpre.mpr h2)]
        refine ⟨m1, ?_, hrep1, hpu1⟩
        simp [findPartner, h1, h2, foundOf]
      · rw [if_neg (fun h => h2 (hpre.mp h))]
        have hassoc : a ++ r :: c ++ p :: rest = (a ++ [r]) ++ c ++ p :: rest := by simp
        have hseg1 : Seg l m1 (next l m1 r.vaddr) (c ++ p :: rest) 0 := by
          have hs := hrep1.seg
          rw [List.append_assoc] at hs
          obtain ⟨y, _, s2⟩ := seg_append.mp hs
          exact s2.2
        obtain ⟨m2, i1, i2, i3⟩ := ih (a ++ [r]) m1 f' (next l m1 r.vaddr) (hassoc ▸ hrep1) (hassoc ▸ hg) (fun _ => hpp') hseg1 (by omega)
        rw [lastAddr_concat] at i1
        refine ⟨m2, ?_, hassoc ▸ i2, hpu1.trans (hassoc ▸ i3)⟩
        rw [i1]
        congr 2
        simp only [findPartner, h1, h2]
        cases findPartner e p c with
        | none => rfl
        | some t =>
          obtain ⟨a', q', b', k⟩ := t
          cases k <;> simp [foundOf]

/-! ### Merging -/

theorem seg_next_last {l : Lay} {m : Mem} {a : List Region} {x y : Nat} (h : Seg l m x a y) (hne : a ≠ []) : next l m (lastAddr a) = y := by
  rcases snoc_cases a with rfl | ⟨b, r, rfl⟩
  · exact absurd rfl hne
  · rw [lastAddr_concat]
    obtain ⟨z, _, h2⟩ := seg_append.mp h
    exact h2.2

/-- The region `p` into the region `q` before it. -/
theorem fcount_before {e : Env} {a b rest : List Region} {p q : Region} (h : follows e p q = true) (x : Nat) :
    fcount x (a ++ Dma.grow q p.size :: b ++ rest) = fcount x (a ++ q :: b ++ p :: rest) := by
  have hadj := (follows_iff.mp h).1
  simp only [fcount_append, fcount_cons, Dma.grow]
  rw [ind_split, hadj]
  omega

/-- The region `q` after the region `p` into it. -/
theorem fcount_after {e : Env} {a b rest : List Region} {p q : Region} (h : precedes e p q = true) (x : Nat) :
    fcount x (a ++ b ++ Dma.grow p q.size :: rest) = fcount x (a ++ q :: b ++ p :: rest) := by
  have hadj := (precedes_iff.mp h).1
  simp only [fcount_append, fcount_cons, Dma.grow]
  rw [ind_split, hadj]
  omega

theorem good_before {e : Env} (he : EnvOk e) {a b rest : List Region} {p q : Region} (hg : Good e (a ++ q :: b ++ p :: rest))
    (h : follows e p q = true) : Good e (a ++ Dma.grow q p.size :: b ++ rest) := by
  have hmem : ∀ r ∈ a ++ Dma.grow q p.size :: b ++ rest, r = Dma.grow q p.size ∨ r ∈ a ++ q :: b ++ p :: rest := by
    intro r hr
    simp only [List.mem_append, List.mem_cons] at hr ⊢
    tauto
  refine ⟨?_, ?_, fun x => by rw [fcount_before h]; exact hg.once x⟩
  · intro r hr
    rcases hmem r hr with rfl | hr
    · exact (regOk_closed he).follow p q (hg.reg p (by simp)) (hg.reg q (by simp)) h
    · exact hg.reg r hr
  · intro r hr
    rcases hmem r hr with rfl | hr
    · exact hg.phys q (by simp)
    · exact hg.phys r hr

theorem good_after {e : Env} (he : EnvOk e) {a b rest : List Region} {p q : Region} (hg : Good e (a ++ q :: b ++ p :: rest))
    (h : precedes e p q = true) : Good e (a ++ b ++ Dma.grow p q.size :: rest) := by
  have hmem : ∀ r ∈ a ++ b ++ Dma.grow p q.size :: rest, r = Dma.grow p q.size ∨ r ∈ a ++ q :: b ++ p :: rest := by
    intro r hr
    simp only [List.mem_append, List.mem_cons] at hr ⊢
    tauto
  refine ⟨?_, ?_, fun x => by rw [fcount_after h]; exact hg.once x⟩
  · intro r hr
    rcases hmem r hr with rfl | hr
    · exact (regOk_closed he).precede p q (hg.reg p (by simp)) (hg.reg q (by simp)) h
    · exact hg.reg r hr
  · intro r hr
    rcases hmem r hr with rfl | hr
    · exact hg.phys p (by simp)
    · exact hg.phys r hr

theorem Within.trans {m1 m2 m3 : Mem} {f g : List Region} (h1 : Within m1 m2 f) (h2 : Within m2 m3 g) (hfg : ∀ x, fcount x g = fcount x f) :
    Within m1 m3 f := fun x hx => (h2 x (by rw [hfg x]; exact hx)).trans (h1 x hx)

theorem within_set {m : Mem} {f : List Region} {r : Region} {k v : Nat} (hr : r ∈ f) (hk : k < r.size) : Within m (m.set (r.vaddr + k) v) f := by
  intro x hx
  rw [cell_set, if_neg]
  intro h
  have := mem_fcount hr (x := x) (by omega)
  omega

theorem within_link {e : Env} {l : Lay} (hl : LayOk e l) {m : Mem} {a f : List Region} {v : Nat} (hg : Good e f) (ha : ∀ r ∈ a, r ∈ f) :
    Within m (link l m (lastAddr a) v) f := by
  rcases Classical.em (a = []) with rfl | hne
  · intro x _; rfl
  · obtain ⟨r, hr, hr'⟩ := lastAddr_mem hne
    have h1 := (hg.reg r (ha r hr)).large
    have h2 := (hg.reg r (ha r hr)).pos
    have h3 := hl.n_lt
    rw [hr']
    simp only [link]
    rw [if_neg (by omega)]
    exact within_set (ha r hr) (by omega)

/-- The outer loop. -/
theorem defrag_sim {e : Env} {l : Lay} (he : EnvOk e) (hl : LayOk e l) : ∀ (fuel inner : Nat) (before rest : List Region) (stale : Bool) (m : Mem)
    (pprev p : Nat) (out : List Region), Rep e l m (before ++ rest) → Good e (before ++ rest) → Seg l m p rest 0 →
    (stale = false → pprev = lastAddr before) →
    (stale = true → ∃ r rest', rest = r :: rest' ∧ next l m pprev = r.vaddr ∧ r.vaddr + e.R ≤ pprev ∧ pprev + e.R ≤ r.vaddr + r.size ∧
      ∀ q ∈ before, follows e r q = false) →
    (before ++ rest).length < inner → defragLoop e fuel before rest stale = some out →
    ∃ m', defrag e l fuel inner m pprev p = some m' ∧ Rep e l m' out ∧ Within m m' (before ++ rest) := by
  intro fuel
  induction fuel with
  | zero =>
    intro inner before rest stale m pprev p out h hg hp _ _ _ hd
    cases rest with
    | nil =>
      simp only [defragLoop, Option.some.injEq] at hd
      subst hd
      have hp0 : p = 0 := hp
      exact ⟨m, by simp [defrag, hp0], by simpa using h, fun _ _ => rfl⟩
    | cons r rest => simp [defragLoop] at hd
  | succ fuel ih =>
    intro inner before rest stale m pprev p out h hg hp hns hst hin hd
    cases rest with
    | nil =>
      simp only [defragLoop, Option.some.injEq] at hd
      subst hd
      have hp0 : p = 0 := hp
      exact ⟨m, by simp [defrag, hp0], by simpa using h, fun _ _ => rfl⟩
    | cons r rest =>
      have hpr : p = r.vaddr := hp.1
      subst hpr
      have hrm : r ∈ before ++ r :: rest := by simp
      have hnz := hg.nz hrm
      have hlr := (hg.reg r hrm).large
      have hRp := he.R_pos
      have hnlt := hl.n_lt
      have hslt := hl.s_lt
      have hplt := hl.p_lt
      have hpp : before ≠ [] → pprev ≠ 0 := by
        intro hne
        cases stale with
        | false =>
          rw [hns rfl]
          obtain ⟨z, hz, hz'⟩ := lastAddr_mem hne
          rw [hz']
          exact hg.nz (by simp [hz])
        | true =>
          obtain ⟨r', rest', _, _, h3, _⟩ := hst rfl
          omega
      obtain ⟨m1, hx, hrep1, hpu1⟩ := extract_sim he hl h hg hrm
      have hn1 := hrep1.node r hrm
      obtain ⟨m2, hs, hrep2, hpu2⟩ := search_sim he hl (p := r) (rest := rest) (pprev := pprev) before [] m1 inner m1.head
        (by simpa using hrep1) (by simpa using hg) hpp hrep1.seg (by simp only [List.length_append, List.length_cons] at hin; omega)
      simp only [List.nil_append] at hrep2 hpu2
      have hpu := hpu1.trans hpu2
      have hw2 : Within m m2 (before ++ r :: rest) := hpu.within hl hg
      rw [lastAddr_nil] at hs
      simp only [defrag]
      rw [if_neg hnz, hx]
      simp only
      rw [hn1.size, hn1.flag, hs]
      simp only [defragLoop] at hd
      have hn2 := hrep2.node r hrm
      have hstale2 : stale = true → next l m2 pprev = r.vaddr := by
        intro hs'
        obtain ⟨r', rest', hr', h2, h3, h4, _⟩ := hst hs'
        obtain ⟨rfl, rfl⟩ : r' = r ∧ rest' = rest := by simp only [List.cons.injEq] at hr'; exact ⟨hr'.1.symm, hr'.2.symm⟩
        rw [← h2]
        apply hpu.cell
        intro s hsm
        rcases (by simp only [List.mem_append, List.mem_cons] at hsm ⊢; tauto : s = r' ∨ s ∈ before ++ rest') with rfl | hsm'
        · omega
        · have hd' := hg.disj he s hsm'
          have hls := (hg.reg s hsm).large
          omega
      cases hf : findPartner e r before with
      | none =>
        rw [hf] at hd
        simp only [foundOf] at hd ⊢
        have hassoc : before ++ r :: rest = (before ++ [r]) ++ rest := by simp
        have hseg2 : Seg l m2 (next l m2 r.vaddr) rest 0 := by
          obtain ⟨y, _, s2⟩ := seg_append.mp hrep2.seg
          exact s2.2
        obtain ⟨m3, i1, i2, i3⟩ := ih inner (before ++ [r]) rest false m2 r.vaddr (next l m2 r.vaddr) out (hassoc ▸ hrep2) (hassoc ▸ hg) hseg2
          (fun _ => (lastAddr_concat before r).symm) (fun h => by cases h) (hassoc ▸ hin) hd
        exact ⟨m3, i1, i2, hw2.trans i3 (fun x => by rw [← hassoc])⟩
      | some t =>
        obtain ⟨a, q, b, k⟩ := t
        obtain ⟨hb, hk1, hk2, ha⟩ := (findPartner_spec e r before).2 a q b k hf
        rw [hf] at hd
        subst hb
        have hqm : q ∈ a ++ q :: b ++ r :: rest := by simp
        have hnq := hrep2.node q hqm
        have hlq := (hg.reg q hqm).large
        have hgq : Good e (a ++ q :: (b ++ r :: rest)) := by simpa using hg
        have hrq : r ∈ a ++ (b ++ r :: rest) := by simp
        have hdq := hgq.disj he r hrq
        cases k with
        | true =>
          have hfol := hk1 rfl
          have hst' : stale = false := by
            cases stale with
            | false => rfl
            | true =>
              obtain ⟨r', rest', hr', _, _, _, h5⟩ := hst rfl
              simp only [List.cons.injEq] at hr'
              have := h5 q (by simp)
              rw [← hr'.1] at this
              rw [this] at hfol; cases hfol
          subst hst'
          have hpprev := hns rfl
          simp only [Bool.false_eq_true, if_false] at hd
          simp only [foundOf, List.nil_append]
          rw [hn2.size]
          have hgrow : grow l m2 q.vaddr r.size = some (m2.set (q.vaddr + l.s) (q.size + r.size)) := by
            rw [grow, if_pos (by omega), hnq.size]
          rw [hgrow]
          simp only
          -- the list after growing `q`
          have hrep3 : Rep e l (m2.set (q.vaddr + l.s) (q.size + r.size)) (a ++ Dma.grow q r.size :: (b ++ r :: rest)) := by
            have h' : Rep e l m2 (a ++ q :: (b ++ r :: rest)) := by simpa using hrep2
            exact h'.set_size he hl hgq (q.size + r.size)
          have hw3 : Within m2 (m2.set (q.vaddr + l.s) (q.size + r.size)) (a ++ q :: b ++ r :: rest) := within_set hqm (by omega)
          generalize m2.set (q.vaddr + l.s) (q.size + r.size) = m3 at *
          -- removing `p`
          have hgood4 := good_before he hg hfol
          have hlast : pprev = lastAddr (a ++ Dma.grow q r.size :: b) := by
            rw [hpprev]
            rcases Classical.em (b = []) with rfl | hne
            · rw [lastAddr_concat, lastAddr_concat]; rfl
            · rw [show a ++ q :: b = (a ++ [q]) ++ b by simp, show a ++ Dma.grow q r.size :: b = (a ++ [Dma.grow q r.size]) ++ b by simp,
                lastAddr_append hne, lastAddr_append hne]
          have hrep4 : Rep e l (remove l m3 pprev r.vaddr) (a ++ Dma.grow q r.size :: b ++ rest) := by
            have hseg : Rep e l m3 ((a ++ Dma.grow q r.size :: b) ++ r :: rest) := by simpa using hrep3
            rw [remove_eq, hlast]
            obtain ⟨y, h1, h2⟩ := seg_append.mp hseg.seg
            exact Rep.relink he hl h1 h2.2 (fun s hs => hseg.node s (by
              rcases List.mem_append.mp hs with h | h
              · exact List.mem_append_left _ h
              · exact List.mem_append_right _ (List.mem_cons_of_mem _ h))) hgood4
          have hw4 : Within m3 (remove l m3 pprev r.vaddr) (a ++ Dma.grow q r.size :: b ++ rest) := by
            rw [remove_eq, hlast]
            exact within_link hl hgood4 (fun s hs => by simp only [List.mem_append] at hs ⊢; exact .inl hs)
          generalize remove l m3 pprev r.vaddr = m4 at *
          have hwall : Within m m4 (a ++ q :: b ++ r :: rest) := (hw2.trans hw3 (fun _ => rfl)).trans hw4 (fun x => fcount_before hfol x)
          have hlen : (a ++ Dma.grow q r.size :: b ++ rest).length < inner := by
            simp only [List.length_append, List.length_cons] at hin ⊢; omega
          cases a with
          | nil =>
            simp only at hd
            rw [lastAddr_nil, if_pos rfl]
            have hh4 : m4.head = q.vaddr := hrep4.seg.1
            rw [hh4]
            have hsg : Seg l m4 (next l m4 q.vaddr) (b ++ rest) 0 := hrep4.seg.2
            obtain ⟨m5, i1, i2, i3⟩ := ih inner [Dma.grow q r.size] (b ++ rest) false m4 q.vaddr (next l m4 q.vaddr) out
              (by simpa using hrep4) (by simpa using hgood4) hsg (fun _ => rfl) (fun h => by cases h) (by simpa using hlen) hd
            exact ⟨m5, i1, i2, hwall.trans i3 (fun x => by rw [← fcount_before hfol x]; simp)⟩
          | cons a0 a =>
            simp only at hd
            have hne : a0 :: a ≠ [] := by simp
            have hla : lastAddr (a0 :: a) ≠ 0 := by
              obtain ⟨z, hz, hz'⟩ := lastAddr_mem hne
              rw [hz']
              exact hg.nz (by simp only [List.mem_append]; exact .inl (.inl hz))
            rw [if_neg hla]
            have hassoc : a0 :: a ++ Dma.grow q r.size :: b ++ rest = (a0 :: a) ++ (Dma.grow q r.size :: b ++ rest) := by simp
            rw [hassoc] at hrep4 hgood4 hlen
            obtain ⟨y, g1, g2⟩ := seg_append.mp hrep4.seg
            have hnx : next l m4 (lastAddr (a0 :: a)) = y := seg_next_last g1 hne
            rw [hnx]
            obtain ⟨m5, i1, i2, i3⟩ := ih inner (a0 :: a) (Dma.grow q r.size :: b ++ rest) false m4 (lastAddr (a0 :: a)) y out
              hrep4 hgood4 g2 (fun _ => rfl) (fun h => by cases h) hlen hd
            exact ⟨m5, i1, i2, hwall.trans i3 (fun x => by rw [← fcount_before hfol x, hassoc])⟩
        | false =>
          obtain ⟨hpre, _⟩ := hk2 rfl
          have hadj := (precedes_iff.mp hpre).1
          simp only at hd
          simp only [foundOf, List.nil_append]
          rw [hnq.size]
          have hgrow : grow l m2 r.vaddr q.size = some (m2.set (r.vaddr + l.s) (r.size + q.size)) := by
            rw [grow, if_pos (by omega), hn2.size]
          rw [hgrow]
          simp only
          have hrep3 : Rep e l (m2.set (r.vaddr + l.s) (r.size + q.size)) ((a ++ q :: b) ++ Dma.grow r q.size :: rest) :=
            hrep2.set_size he hl hg (r.size + q.size)
          have hw3 : Within m2 (m2.set (r.vaddr + l.s) (r.size + q.size)) (a ++ q :: b ++ r :: rest) := within_set hrm (by omega)
          have hnx3 : ∀ x, r.vaddr + e.R ≤ x → next l (m2.set (r.vaddr + l.s) (r.size + q.size)) x = next l m2 x := by
            intro x hx
            simp only [next, cell_set]
            rw [if_neg (by omega)]
          generalize m2.set (r.vaddr + l.s) (r.size + q.size) = m3 at *
          have hgood4 := good_after he hg hpre
          have hrep4 : Rep e l (remove l m3 (lastAddr a) q.vaddr) (a ++ b ++ Dma.grow r q.size :: rest) := by
            have hseg : Rep e l m3 (a ++ q :: (b ++ Dma.grow r q.size :: rest)) := by simpa using hrep3
            rw [remove_eq, List.append_assoc]
            obtain ⟨y, h1, h2⟩ := seg_append.mp hseg.seg
            exact Rep.relink he hl h1 h2.2 (fun s hs => hseg.node s (by rcases List.mem_append.mp hs with h | h <;> simp [h]))
              (by simpa using hgood4)
          have hw4 : Within m3 (remove l m3 (lastAddr a) q.vaddr) (a ++ b ++ Dma.grow r q.size :: rest) := by
            rw [remove_eq]
            exact within_link hl hgood4 (fun s hs => by simp only [List.mem_append] at hs ⊢; exact .inl (.inl hs))
          -- cells within the grown region are not changed by removing `q`
          have hnx4 : ∀ x, r.vaddr + e.R ≤ x → x + e.R ≤ r.vaddr + r.size + q.size →
              next l (remove l m3 (lastAddr a) q.vaddr) x = next l m3 x := by
            intro x hx1 hx2
            simp only [next]
            rw [remove_eq]
            rcases Classical.em (a = []) with rfl | hne
            · rfl
            · obtain ⟨z, hz, hz'⟩ := lastAddr_mem hne
              apply link_cell
              rw [hz']
              have hz2 := hgood4.disj he z (by simp [hz])
              have hlz := (hg.reg z (by simp [hz])).large
              simp only [Dma.grow] at hz2
              omega
          generalize remove l m3 (lastAddr a) q.vaddr = m4 at *
          have hwall : Within m m4 (a ++ q :: b ++ r :: rest) := (hw2.trans hw3 (fun _ => rfl)).trans hw4 (fun x => fcount_after hpre x)
          have hlen : (a ++ b ++ Dma.grow r q.size :: rest).length < inner := by
            simp only [List.length_append, List.length_cons] at hin ⊢; omega
          obtain ⟨y, g1, g2⟩ := seg_append.mp hrep4.seg
          have hy : y = r.vaddr := g2.1
          have hfol' : ∀ s ∈ a ++ b, (stale || b.isEmpty) = true → follows e (Dma.grow r q.size) s = false := by
            intro s hs hst1
            rw [follows_grow]
            rcases List.mem_append.mp hs with hs | hs
            · exact (ha s hs).1
            · simp only [Bool.or_eq_true] at hst1
              rcases hst1 with hst1 | hst1
              · obtain ⟨r', rest', hr', _, _, _, h5⟩ := hst hst1
                simp only [List.cons.injEq] at hr'
                rw [hr'.1]
                exact h5 s (by simp [hs])
              · rw [List.isEmpty_iff.mp hst1] at hs; cases hs
          have hnext : next l m4 pprev = r.vaddr ∧ ((stale || b.isEmpty) = true → r.vaddr + e.R ≤ pprev ∧ pprev + e.R ≤ r.vaddr + (r.size + q.size)) ∧
              ((stale || b.isEmpty) = false → pprev = lastAddr (a ++ b)) := by
            cases stale with
            | true =>
              obtain ⟨r', rest', hr', _, h3, h4, _⟩ := hst rfl
              simp only [List.cons.injEq] at hr'
              rw [← hr'.1] at h3 h4
              refine ⟨?_, fun _ => ⟨h3, by omega⟩, fun h => by simp at h⟩
              rw [hnx4 pprev h3 (by omega), hnx3 pprev h3]
              exact hstale2 rfl
            | false =>
              have hpprev := hns rfl
              rcases Classical.em (b = []) with rfl | hne
              · rw [lastAddr_concat] at hpprev
                have hq : next l m2 q.vaddr = r.vaddr := by
                  obtain ⟨y', k1, k2⟩ := seg_append.mp hrep2.seg
                  have := seg_next_last k1 (by simp)
                  rw [lastAddr_concat] at this
                  rw [this]; exact k2.1
                refine ⟨?_, fun _ => by rw [hpprev]; omega, fun h => by simp at h⟩
                rw [hpprev, hnx4 _ (by omega) (by omega), hnx3 _ (by omega)]
                exact hq
              · have hpl : pprev = lastAddr (a ++ b) := by
                  rw [hpprev, lastAddr_append hne, show a ++ q :: b = (a ++ [q]) ++ b by simp, lastAddr_append hne]
                refine ⟨?_, ?_, fun _ => hpl⟩
                · rw [hpl, ← hy]
                  exact seg_next_last g1 (by simp [hne])
                · intro hb'
                  simp only [Bool.false_or, List.isEmpty_iff] at hb'
                  exact absurd hb' hne
          rw [hnext.1]
          rw [hy] at g2
          obtain ⟨m5, i1, i2, i3⟩ := ih inner (a ++ b) (Dma.grow r q.size :: rest) (stale || b.isEmpty) m4 pprev r.vaddr out hrep4 hgood4 g2
            hnext.2.2 (fun hst1 => ⟨Dma.grow r q.size, rest, rfl, hnext.1, (hnext.2.1 hst1).1, (hnext.2.1 hst1).2,
              fun s hs => hfol' s hs hst1⟩) hlen hd
          exact ⟨m5, i1, i2, hwall.trans i3 (fun x => by rw [← fcount_after hpre x])⟩

end Verif.DmaPtr
