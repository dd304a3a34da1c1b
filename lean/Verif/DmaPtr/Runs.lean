import Verif.DmaPtr.Loops

/-! # Steps: the functions of the allocator do what those of `Verif.Dma` do -/

namespace Verif.DmaPtr

open Verif.Dma (Env Region EnvOk RegOk fcount ind ind_split count Contiguous freeBlocks fcount_append fcount_cons fcount_nil count_pos
  place place_spec roundSize roundAlign roundSize_spec roundAlign_spec contiguous_sub
  regOk_closed)

theorem place_congr (e : Env) (p p' : Region) (hv : p.vaddr = p'.vaddr) (hs : p.size = p'.size) (sz align : Nat) : ∀ fuel q,
    place e p sz align fuel q = place e p' sz align fuel q := by
  intro fuel
  induction fuel with
  | zero => intro q; rfl
  | succ fuel ih => intro q; simp only [place, hv, hs, ih]

/-- The physical address of a new node. -/
theorem newPaddr_sim {e : Env} {l : Lay} (he : EnvOk e) (hl : LayOk e l) {m : Mem} {p : Region} (hn : Node e l m p) (hp : RegOk e p)
    {o v sz : Nat} (ho : o < p.size) (hR : e.R ≤ o) (hv : v = p.vaddr + o) :
    ∃ m', newPaddr l (m.set (v + l.s) sz) v p.vaddr o = some m' ∧ m'.head = m.head ∧ Node e l m' ⟨v, sz, 0, flag l m v⟩ ∧
      ∀ x, x ≠ v + l.s → x ≠ v + l.p → m'.cell x = m.cell x := by
  have hslt := hl.s_lt
  have hplt := hl.p_lt
  have hsp := hl.sp
  have hcs := hl.cs
  have hcp := hl.cp
  have hsz : size l (m.set (v + l.s) sz) p.vaddr = p.size := by
    have := hn.size
    simp only [size, cell_set] at this ⊢
    rw [if_neg (by omega)]; exact this
  have hpu : pu l (m.set (v + l.s) sz) p.vaddr = pu l m p.vaddr := by
    simp only [pu, cell_set]
    rw [if_neg (by omega)]
  refine ⟨savePaddr l (m.set (v + l.s) sz) v (if tryPaddr l (m.set (v + l.s) sz) p.vaddr ≠ 0 then tryPaddr l (m.set (v + l.s) sz) p.vaddr + o else 0),
    by rw [newPaddr, if_pos (by omega)], rfl, ⟨?_, ?_, ?_⟩, ?_⟩
  · simp only [size, savePaddr, cell_set]
    rw [if_neg (by omega), if_true]
  · simp only [flag, savePaddr, cell_set]
    rw [if_neg (by omega), if_neg (by omega)]
  · simp only [pu, savePaddr, cell_set, if_true]
    have ht : tryPaddr l (m.set (v + l.s) sz) p.vaddr = tryPaddr l m p.vaddr := by simp only [tryPaddr, hpu]
    rw [ht]
    have hc := hp.contiguous o ho
    have hpage := he.page p.vaddr
    rcases hn.pu with h0 | h0
    · left; simp [tryPaddr, h0]
    · by_cases hz : e.paddr p.vaddr / 4096 = 0
      · left; simp [tryPaddr, h0, hz]
      · right
        have : tryPaddr l m p.vaddr = e.paddr p.vaddr := by
          rw [tryPaddr, h0, if_pos hz]; omega
        rw [this, if_pos (by omega), hv, hc]
  · intro x h1 h2
    simp only [savePaddr, cell_set]
    rw [if_neg h2, if_neg h1]

/-- The list that is left after a part of a region is taken. -/
theorem good_carve {e : Env} (he : EnvOk e) {junk : Nat → Bool} {a b : List Region} {p : Region} (hg : Good e (a ++ p :: b)) {sz align : Nat}
    (hsz : sz ≤ p.size) (hA : e.A ∣ sz) (hal : e.A ∣ align) {q : Nat} {repl front : List Region}
    (h : Dma.carve e junk p sz align = some (q, repl, front)) : Good e (front ++ a ++ repl ++ b) := by
  obtain ⟨_, _, _, c4, c5⟩ := Dma.carve_spec he junk p sz align (hg.reg p (by simp)) hsz hA hal q repl front h
  have hp := hg.phys p (by simp)
  have hpr := hg.reg p (by simp)
  have hRp := he.R_pos
  have hmem : ∀ r ∈ front ++ a ++ repl ++ b, r ∈ front ++ repl ∨ r ∈ a ++ p :: b := by
    intro r hr
    simp only [List.mem_append, List.mem_cons] at hr ⊢
    tauto
  refine ⟨?_, ?_, ?_⟩
  · intro r hr
    rcases hmem r hr with hr | hr
    · exact (c5 r hr).1
    · exact hg.reg r hr
  · intro r hr
    rcases hmem r hr with hr | hr
    · obtain ⟨k1, k2, k3, _⟩ := c5 r hr
      have hl := k1.large
      have := hpr.contiguous (r.vaddr - p.vaddr) (by omega)
      rw [Nat.add_sub_cancel' k2] at this
      omega
    · exact hg.phys r hr
  · intro x
    have h1 := hg.once x
    have h2 := c4 x
    simp only [fcount_append, fcount_cons, fcount_nil] at h1 h2 ⊢
    omega

/-- Taking a part of a region. -/
theorem carve_sim {e : Env} {l : Lay} (he : EnvOk e) (hl : LayOk e l) {m : Mem} {a b : List Region} {p : Region} (h : Rep e l m (a ++ p :: b))
    (hg : Good e (a ++ p :: b)) {sz align : Nat} (hsz : sz ≤ p.size) (hR : e.R ≤ sz) (hA : e.A ∣ sz) (hal : e.A ∣ align) :
    (carve e l m sz align (lastAddr a) p.vaddr = some (none, m) ∧ ∀ junk, Dma.carve e junk p sz align = none) ∨
    ∃ q m' repl front, carve e l m sz align (lastAddr a) p.vaddr = some (some q, m') ∧
      Dma.carve e (flag l m') p sz align = some (q, repl, front) ∧ Rep e l m' (front ++ a ++ repl ++ b) ∧ Within m m' (a ++ p :: b) := by
  have hpm : p ∈ a ++ p :: b := by simp
  have hn := h.node p hpm
  have hok := hg.reg p hpm
  have hRp := he.R_pos
  have hnlt := hl.n_lt
  have hslt := hl.s_lt
  have hplt := hl.p_lt
  have hclt := hl.c_lt
  have hcn := hl.cn
  have hcs := hl.cs
  have hcp := hl.cp
  have hsn := hl.sn
  have hsp := hl.sp
  have hnp := hl.np
  have hpl : place e ⟨p.vaddr, p.size, 0, false⟩ sz align (p.vaddr + p.size - sz + 1) (p.vaddr + p.size - sz - (p.vaddr + p.size - sz) % align) =
      place e p sz align (p.vaddr + p.size - sz + 1) (p.vaddr + p.size - sz - (p.vaddr + p.size - sz) % align) :=
    place_congr e ⟨p.vaddr, p.size, 0, false⟩ p rfl rfl sz align _ _
  simp only [carve, Dma.carve, hn.size]
  rw [hpl]
  cases hq : place e p sz align (p.vaddr + p.size - sz + 1) (p.vaddr + p.size - sz - (p.vaddr + p.size - sz) % align) with
  | none => left; exact ⟨rfl, fun _ => rfl⟩
  | some q =>
    right
    obtain ⟨s1, s2, s3, s4⟩ := place_spec e p sz align _ _ q (by rw [Nat.sub_mod_eq_zero_of_mod_eq (Nat.mod_mod _ _).symm]) hq
    simp only
    have hgood : ∀ junk repl front, Dma.carve e junk p sz align = some (q, repl, front) → Good e (front ++ a ++ repl ++ b) :=
      fun junk repl front => good_carve he hg hsz hA hal
    by_cases hpq : q = p.vaddr
    · subst hpq
      rw [if_pos rfl]
      by_cases hall : p.size = sz
      · rw [if_pos hall]
        refine ⟨p.vaddr, _, [], [], rfl, by rw [if_pos rfl, if_pos hall], ?_, ?_⟩
        · simpa using h.remove he hl hg
        · rw [remove_eq]
          exact within_link hl hg (fun r hr => by simp [hr])
      · rw [if_neg hall]
        obtain ⟨m1, k1, k2, k3, k4⟩ := newPaddr_sim he hl (v := p.vaddr + sz) (sz := p.size - sz) hn hok (o := sz) (by omega) hR rfl
        rw [k1]
        simp only
        have hflag : flag l (replace l m1 (lastAddr a) p.vaddr (p.vaddr + sz)) (p.vaddr + sz) = flag l m (p.vaddr + sz) := by
          have hla : p.vaddr + sz + l.c ≠ lastAddr a + l.n := by
            rcases Classical.em (a = []) with rfl | hne
            · rw [lastAddr_nil]; have := hok.pos; omega
            · obtain ⟨z, hz, hz'⟩ := lastAddr_mem hne
              have hd := hg.disj he z (by simp [hz])
              have hlz := (hg.reg z (by simp [hz])).large
              rw [hz']; omega
          rw [replace_eq]
          simp only [flag]
          rw [link_cell _ _ _ _ _ hla, cell_set, if_neg (by omega), k4 _ (by omega) (by omega)]
        have hcv : Dma.carve e (flag l (replace l m1 (lastAddr a) p.vaddr (p.vaddr + sz))) p sz align =
            some (p.vaddr, [⟨p.vaddr + sz, p.size - sz, Dma.newPu p sz, flag l (replace l m1 (lastAddr a) p.vaddr (p.vaddr + sz)) (p.vaddr + sz)⟩], []) := by
          simp only [Dma.carve]
          rw [hq]
          simp only
          rw [if_pos trivial, if_neg hall]
        have hg' := hgood _ _ _ hcv
        refine ⟨p.vaddr, _, _, _, rfl, by rw [if_pos trivial, if_neg hall], ?_, ?_⟩
        · have hrep1 : Rep e l m1 (a ++ p :: b) := by
            refine h.frame hl k2 ?_
            intro r hr k hk
            apply k4
            · rcases (by simp only [List.mem_append, List.mem_cons] at hr ⊢; tauto : r = p ∨ r ∈ a ++ b) with rfl | hr'
              · omega
              · have := hg.disj he r hr'
                have := (hg.reg r hr).large
                omega
            · rcases (by simp only [List.mem_append, List.mem_cons] at hr ⊢; tauto : r = p ∨ r ∈ a ++ b) with rfl | hr'
              · omega
              · have := hg.disj he r hr'
                have := (hg.reg r hr).large
                omega
          have hnode : Node e l m1 ⟨p.vaddr + sz, p.size - sz, Dma.newPu p sz, flag l (replace l m1 (lastAddr a) p.vaddr (p.vaddr + sz)) (p.vaddr + sz)⟩ :=
            ⟨k3.size, k3.flag.trans hflag.symm, k3.pu⟩
          have := Rep.replace he hl hrep1 hnode (by simpa using hg')
          simpa using this
        · intro x hx
          have hx' : ∀ r ∈ a ++ p :: b, ¬ (r.vaddr ≤ x ∧ x < r.vaddr + r.size) := by
            intro r hr hc
            have := mem_fcount hr hc
            omega
          have hxp := hx' p hpm
          have hrl : e.R ≤ p.size - sz := by
            have := (hg'.reg ⟨p.vaddr + sz, p.size - sz, Dma.newPu p sz, flag l (replace l m1 (lastAddr a) p.vaddr (p.vaddr + sz)) (p.vaddr + sz)⟩
              (by simp)).large
            exact this
          rw [replace_eq]
          rw [within_link hl hg (fun r hr => by simp [hr]) x hx, cell_set, if_neg (by omega), k4 _ (by omega) (by omega)]
    · have hge : p.vaddr + e.R ≤ q := by
        rcases s1 with h | h
        · exact absurd h hpq
        · exact h
      rw [if_neg (fun h => hpq h.symm)]
      by_cases hz : p.vaddr + p.size - (q + sz) = 0
      · rw [if_pos hz]
        have hsh : shrink l m p.vaddr sz = some (m.set (p.vaddr + l.s) (p.size - sz)) := by
          rw [shrink, hn.size, if_pos (by omega)]
        rw [hsh]
        refine ⟨q, _, _, _, rfl, by rw [if_neg hpq, if_pos hz], ?_, within_set hpm (by omega)⟩
        have := h.set_size he hl hg (p.size - sz)
        simpa [Dma.shrink] using this
      · rw [if_neg hz]
        have hsum : q + sz = p.vaddr + (q - p.vaddr + sz) := by omega
        obtain ⟨m1, k1, k2, k3, k4⟩ := newPaddr_sim he hl (v := q + sz) (sz := p.size - (q - p.vaddr + sz)) hn hok (o := q - p.vaddr + sz)
          (by omega) (by omega) hsum
        rw [k1]
        simp only
        have hflag : flag l (prepend l (m1.set (p.vaddr + l.s) (q - p.vaddr)) (q + sz)) (q + sz) = flag l m (q + sz) := by
          simp only [flag, prepend, cell_set]
          rw [if_neg (by omega), if_neg (by omega), k4 _ (by omega) (by omega)]
        have hcv : Dma.carve e (flag l (prepend l (m1.set (p.vaddr + l.s) (q - p.vaddr)) (q + sz))) p sz align =
            some (q, [{ p with size := q - p.vaddr }], [⟨q + sz, p.size - (q - p.vaddr + sz), Dma.newPu p (q - p.vaddr + sz),
              flag l (prepend l (m1.set (p.vaddr + l.s) (q - p.vaddr)) (q + sz)) (q + sz)⟩]) := by
          simp only [Dma.carve]
          rw [hq]
          simp only
          rw [if_neg hpq, if_neg hz]
        have hg' := hgood _ _ _ hcv
        refine ⟨q, _, _, _, rfl, by rw [if_neg hpq, if_neg hz], ?_, ?_⟩
        · have hrep1 : Rep e l m1 (a ++ p :: b) := by
            refine h.frame hl k2 ?_
            intro r hr k hk
            apply k4
            · rcases (by simp only [List.mem_append, List.mem_cons] at hr ⊢; tauto : r = p ∨ r ∈ a ++ b) with rfl | hr'
              · omega
              · have := hg.disj he r hr'
                have := (hg.reg r hr).large
                omega
            · rcases (by simp only [List.mem_append, List.mem_cons] at hr ⊢; tauto : r = p ∨ r ∈ a ++ b) with rfl | hr'
              · omega
              · have := hg.disj he r hr'
                have := (hg.reg r hr).large
                omega
          have hrep2 := hrep1.set_size he hl hg (q - p.vaddr)
          have hnode : Node e l (m1.set (p.vaddr + l.s) (q - p.vaddr)) ⟨q + sz, p.size - (q - p.vaddr + sz), Dma.newPu p (q - p.vaddr + sz),
              flag l (prepend l (m1.set (p.vaddr + l.s) (q - p.vaddr)) (q + sz)) (q + sz)⟩ := by
            have k3' : Node e l (m1.set (p.vaddr + l.s) (q - p.vaddr)) ⟨q + sz, p.size - (q - p.vaddr + sz), 0, flag l m (q + sz)⟩ := by
              refine k3.frame hl ?_
              intro k hk _
              rw [cell_set, if_neg (by simp only; omega)]
            exact ⟨k3'.size, k3'.flag.trans hflag.symm, k3'.pu⟩
          have := Rep.prepend he hl hrep2 hnode (by simpa using hg')
          simpa using this
        · intro x hx
          have hxp : ¬ (p.vaddr ≤ x ∧ x < p.vaddr + p.size) := by
            intro hc
            have := mem_fcount hpm hc
            omega
          simp only [prepend, cell_set]
          rw [if_neg (by omega), if_neg (by omega), k4 _ (by omega) (by omega)]

/-- Taking memory from the list. -/
theorem tryAlloc_sim {e : Env} {l : Lay} (he : EnvOk e) (hl : LayOk e l) {sz align : Nat} {cached : Bool} (hR : e.R ≤ sz) (hA : e.A ∣ sz)
    (hal : e.A ∣ align) {m : Mem} : ∀ (todo a : List Region) (fuel p : Nat), Rep e l m (a ++ todo) → Good e (a ++ todo) → Seg l m p todo 0 →
    todo.length < fuel →
    (tryAlloc e l sz align cached fuel m (lastAddr a) p = some (none, m) ∧ ∀ junk, Dma.tryAlloc e junk sz align cached todo = none) ∨
    ∃ q m' todo' front, tryAlloc e l sz align cached fuel m (lastAddr a) p = some (some q, m') ∧
      Dma.tryAlloc e (flag l m') sz align cached todo = some (q, todo', front) ∧ Rep e l m' (front ++ a ++ todo') ∧ Within m m' (a ++ todo) := by
  intro todo
  induction todo with
  | nil =>
    intro a fuel p h hg hp hf
    obtain ⟨f', rfl⟩ : ∃ f', fuel = f' + 1 := ⟨fuel - 1, by simp only [List.length_nil] at hf; omega⟩
    have hp0 : p = 0 := hp
    left
    exact ⟨by simp [tryAlloc, hp0], fun _ => rfl⟩
  | cons r todo ih =>
    intro a fuel p h hg hp hf
    simp only [List.length_cons] at hf
    obtain ⟨f', rfl⟩ : ∃ f', fuel = f' + 1 := ⟨fuel - 1, by omega⟩
    have hpr : p = r.vaddr := hp.1
    subst hpr
    have hrm : r ∈ a ++ r :: todo := by simp
    have hn := h.node r hrm
    have hassoc : a ++ r :: todo = (a ++ [r]) ++ todo := by simp
    have hrec := ih (a ++ [r]) f' (next l m r.vaddr) (hassoc ▸ h) (hassoc ▸ hg) hp.2 (by omega)
    rw [lastAddr_concat] at hrec
    simp only [tryAlloc]
    rw [if_neg (hg.nz hrm), hn.size, hn.flag]
    by_cases hc : r.size < sz ∨ r.cached ≠ cached
    · rw [if_pos hc]
      rcases hrec with ⟨i1, i2⟩ | ⟨q, m', todo', front, i1, i2, i3, i4⟩
      · left
        exact ⟨i1, fun junk => by simp only [Dma.tryAlloc]; rw [if_pos hc, i2 junk]⟩
      · right
        refine ⟨q, m', r :: todo', front, i1, ?_, by simpa using i3, by rw [hassoc]; exact i4⟩
        simp only [Dma.tryAlloc]
        rw [if_pos hc, i2]
    · rw [if_neg hc]
      have hsz : sz ≤ r.size := by
        by_contra hlt; exact hc (.inl (by omega))
      rcases carve_sim he hl h hg hsz hR hA hal with ⟨c1, c2⟩ | ⟨q, m', repl, front, c1, c2, c3, c4⟩
      · rw [c1]
        simp only
        rcases hrec with ⟨i1, i2⟩ | ⟨q, m', todo', front, i1, i2, i3, i4⟩
        · left
          exact ⟨i1, fun junk => by simp only [Dma.tryAlloc]; rw [if_neg hc, c2 junk, i2 junk]⟩
        · right
          refine ⟨q, m', r :: todo', front, i1, ?_, by simpa using i3, by rw [hassoc]; exact i4⟩
          simp only [Dma.tryAlloc]
          rw [if_neg hc, c2, i2]
      · right
        rw [c1]
        refine ⟨q, m', repl ++ todo, front, rfl, ?_, by simpa using c3, c4⟩
        simp only [Dma.tryAlloc]
        rw [if_neg hc, c2]

theorem good_defrag {e : Env} (he : EnvOk e) {free out : List Region} (hg : Good e free) (h : Dma.defrag e free = some out) : Good e out := by
  have hreg := Dma.defrag_closed e free out h _ (regOk_closed he) hg.reg
  have hcnt : ∀ x, fcount x out = fcount x free := by
    obtain ⟨out', ho, hc, _⟩ := Dma.defrag_spec e free
    rw [h] at ho; cases ho
    exact hc
  refine ⟨hreg, ?_, fun x => by rw [hcnt x]; exact hg.once x⟩
  have hcl : Dma.MergeClosed e (fun r => 4096 ≤ e.paddr r.vaddr) := ⟨fun p q _ hq _ => hq, fun p q hp _ _ => hp⟩
  exact Dma.defrag_closed e free out h _ hcl hg.phys

/-- `camkes_dma_alloc`: with enough rounds it ends, no assertion is false, and the result is that of `Verif.Dma` for what the memory
contains. -/
theorem dmaAlloc_sim {e : Env} {l : Lay} (he : EnvOk e) (hl : LayOk e l) {m : Mem} {free : List Region} (h : Rep e l m free) (hg : Good e free)
    (sz align : Nat) (cached : Bool) (hal : align = 0 ∨ ∃ k, align = 2 ^ k) :
    ∃ fuel res m' free', dmaAlloc e l fuel m sz align cached = some (res, m') ∧
      Dma.dmaAlloc e (flag l m') free sz align cached = (res, free') ∧ Rep e l m' free' ∧ Within m m' free := by
  obtain ⟨r1, r2, r3⟩ := roundSize_spec he sz
  obtain ⟨a1, a2, a3⟩ := roundAlign_spec he align hal
  have hA := Nat.dvd_of_mod_eq_zero r3
  cases hfr : free with
  | nil =>
    subst hfr
    have hh : m.head = 0 := h.seg
    exact ⟨0, none, m, [], by simp [dmaAlloc, hh], by simp [Dma.dmaAlloc], h, fun _ _ => rfl⟩
  | cons p ps =>
    have hne : free ≠ [] := by simp [hfr]
    rw [← hfr]
    have hh : m.head ≠ 0 := by
      have h1 := h.seg
      rw [hfr] at h1
      rw [h1.1]
      exact hg.nz (by simp [hfr])
    rcases tryAlloc_sim he hl (sz := roundSize e sz) (align := roundAlign e align) (cached := cached) r1 hA a2 free [] (free.length + 1) m.head
      (by simpa using h) (by simpa using hg) h.seg (by omega) with ⟨t1, t2⟩ | ⟨q, m', todo', front, t1, t2, t3, t4⟩
    · rw [lastAddr_nil] at t1
      have hnone : ∀ junk, Dma.allocFrom e junk free (roundSize e sz) (roundAlign e align) cached = none := by
        intro junk; rw [Dma.allocFrom, t2 junk]
      by_cases hbig : roundSize e sz > e.R
      · obtain ⟨out, hout⟩ := Dma.defrag_terminates e free
        have hg2 := good_defrag he hg hout
        obtain ⟨m1, d1, d2, d3⟩ := defrag_sim he hl _ (free.length + 1) [] free false m 0 m.head out (by simpa using h) (by simpa using hg) h.seg
          (fun _ => rfl) (fun h => by cases h) (by simp) hout
        simp only [List.nil_append] at d3
        have hcnt : ∀ x, fcount x out = fcount x free := by
          obtain ⟨out', ho, hc, _⟩ := Dma.defrag_spec e free
          rw [hout] at ho; cases ho
          exact hc
        rcases tryAlloc_sim he hl (sz := roundSize e sz) (align := roundAlign e align) (cached := cached) r1 hA a2 out [] (out.length + 1) m1.head
          (by simpa using d2) (by simpa using hg2) d2.seg (by omega) with ⟨u1, u2⟩ | ⟨q, m', todo', front, u1, u2, u3, u4⟩
        · rw [lastAddr_nil] at u1
          generalize hF : (2 * free.length + 1) * (free.length + 1) + free.length + 1 = F at d1
          refine ⟨F + free.length + out.length + 1, none, m1, out, ?_, ?_, d2, d3⟩
          · unfold dmaAlloc
            rw [if_neg hh, tryAlloc_mono _ _ _ _ _ (F + free.length + out.length + 1) (by omega) t1]
            simp only
            rw [if_pos hbig, defrag_mono _ _ _ _ _ _ (F + free.length + out.length + 1) (F + free.length + out.length + 1) (by omega) (by omega) d1]
            exact tryAlloc_mono _ _ _ _ _ _ (by omega) u1
          · unfold Dma.dmaAlloc
            rw [if_neg hne]
            simp only
            rw [hnone, if_pos hbig, hout]
            simp only
            rw [Dma.allocFrom, u2]
        · rw [lastAddr_nil] at u1
          generalize hF : (2 * free.length + 1) * (free.length + 1) + free.length + 1 = F at d1
          refine ⟨F + free.length + out.length + 1, some q, m', front ++ todo', ?_, ?_, by simpa using u3, ?_⟩
          · unfold dmaAlloc
            rw [if_neg hh, tryAlloc_mono _ _ _ _ _ (F + free.length + out.length + 1) (by omega) t1]
            simp only
            rw [if_pos hbig, defrag_mono _ _ _ _ _ _ (F + free.length + out.length + 1) (F + free.length + out.length + 1) (by omega) (by omega) d1]
            exact tryAlloc_mono _ _ _ _ _ _ (by omega) u1
          · unfold Dma.dmaAlloc
            rw [if_neg hne]
            simp only
            rw [hnone, if_pos hbig, hout]
            simp only
            rw [Dma.allocFrom, u2]
          · exact d3.trans (by simpa using u4) hcnt
      · refine ⟨free.length + 1, none, m, free, ?_, ?_, h, fun _ _ => rfl⟩
        · unfold dmaAlloc
          rw [if_neg hh, t1]
          simp only
          rw [if_neg hbig]
        · unfold Dma.dmaAlloc
          rw [if_neg hne]
          simp only
          rw [hnone, if_neg hbig]
    · rw [lastAddr_nil] at t1
      refine ⟨free.length + 1, some q, m', front ++ todo', ?_, ?_, by simpa using t3, by simpa using t4⟩
      · unfold dmaAlloc
        rw [if_neg hh, t1]
      · unfold Dma.dmaAlloc
        rw [if_neg hne]
        simp only
        rw [Dma.allocFrom, t2]

/-- `free_region`. -/
theorem freeRegion_sim {e : Env} {l : Lay} (he : EnvOk e) (hl : LayOk e l) {m : Mem} {free : List Region} (h : Rep e l m free) (ptr sz : Nat) (cached : Bool)
    (hp : ptr ≠ 0) (hA : ptr % e.A = 0) (hg' : Good e (Dma.freeRegion e free ptr sz cached)) :
    ∃ m', freeRegion e l m ptr sz cached = some m' ∧ Rep e l m' (Dma.freeRegion e free ptr sz cached) ∧
      ∀ x, ¬ (ptr ≤ x ∧ x < ptr + e.R) → m'.cell x = m.cell x := by
  have hnlt := hl.n_lt
  have hslt := hl.s_lt
  have hplt := hl.p_lt
  have hclt := hl.c_lt
  have hcs := hl.cs
  have hcp := hl.cp
  have hsp := hl.sp
  refine ⟨_, by rw [freeRegion, if_neg (by omega)], ?_, ?_⟩
  · have hsep := Good.sep he (a := []) hg'
    refine Rep.prepend (r := ⟨ptr, roundSize e sz, 0, cached⟩) he hl ?_ ?_ hg'
    · refine h.frame hl rfl ?_
      intro r hr k hk
      have := hsep r (by simpa using hr)
      unfold Sep at this
      simp only [cell_set] at this ⊢
      rw [if_neg (by omega), if_neg (by omega), if_neg (by omega)]
    · refine ⟨?_, ?_, ?_⟩
      · simp only [size, cell_set]
        rw [if_neg (by omega), if_true]
      · simp only [flag, cell_set, if_true]
        cases cached <;> rfl
      · left
        simp only [pu, cell_set]
        rw [if_neg (by omega), if_neg (by omega), if_true]
  · intro x hx
    simp only [prepend, cell_set]
    rw [if_neg (by omega), if_neg (by omega), if_neg (by omega), if_neg (by omega)]

/-- The pages of a pool. -/
theorem addPages_sim {e : Env} {l : Lay} (he : EnvOk e) (hl : LayOk e l) {page : Nat} {cached : Bool} (hround : roundSize e page = page) (hR : e.R ≤ page)
    (hpA : e.A ∣ page) : ∀ (n base : Nat) (m : Mem) (free : List Region), Rep e l m free → Good e free → base ≠ 0 → e.A ∣ base →
    (∀ x, base ≤ x → x < base + n * page → fcount x free = 0) → (∀ i < n, Contiguous e (base + i * page) page) →
    (∀ x, base ≤ x → x < base + n * page → 4096 ≤ e.paddr x) →
    ∃ m', addPages e l page cached n base m = some m' ∧ Rep e l m' (Dma.addPages e page cached n base free) ∧
      Good e (Dma.addPages e page cached n base free) ∧ ∀ x, ¬ (base ≤ x ∧ x < base + n * page) → m'.cell x = m.cell x := by
  intro n
  induction n with
  | zero => intro base m free h hg _ _ _ _ _; exact ⟨m, rfl, h, hg, fun _ _ => rfl⟩
  | succ n ih =>
    intro base m free h hg hb hbA hfree hcont hphys
    have hRp := he.R_pos
    have hmul : (n + 1) * page = page + n * page := by rw [Nat.add_mul, Nat.one_mul]; omega
    have hg1 : Good e (Dma.freeRegion e free base page cached) := by
      refine ⟨?_, ?_, ?_⟩
      · intro r hr
        rcases List.mem_cons.mp hr with rfl | hr
        · refine ⟨by simp only; omega, by simp only; omega, hbA, by simp only; rw [hround]; exact hpA, ?_, .inl rfl⟩
          have := hcont 0 (by omega)
          simp only
          rw [hround]
          simpa using this
        · exact hg.reg r hr
      · intro r hr
        rcases List.mem_cons.mp hr with rfl | hr
        · exact hphys base (by omega) (by omega)
        · exact hg.phys r hr
      · intro x
        rw [Dma.freeRegion, fcount_cons]
        simp only [hround, ind]
        split
        · rw [hfree x (by omega) (by omega)]
        · have := hg.once x; omega
    obtain ⟨m1, f1, f2, f3⟩ := freeRegion_sim he hl h base page cached hb (Nat.mod_eq_zero_of_dvd hbA) hg1
    obtain ⟨m2, i1, i2, i3, i4⟩ := ih (base + page) m1 _ f2 hg1 (by omega) (Nat.dvd_add hbA hpA) (by
        intro x h1 h2
        rw [Dma.freeRegion, fcount_cons]
        simp only [hround, ind]
        rw [if_neg (by omega), hfree x (by omega) (by omega)]) (by
        intro i hi
        have := hcont (i + 1) (by omega)
        rwa [Nat.add_mul, Nat.one_mul, Nat.add_comm (i * page), ← Nat.add_assoc] at this) (by
        intro x h1 h2
        exact hphys x (by omega) (by omega))
    refine ⟨m2, by rw [addPages, f1]; exact i1, i2, i3, ?_⟩
    intro x hx
    rw [i4 x (by omega), f3 x (by omega)]

end Verif.DmaPtr
