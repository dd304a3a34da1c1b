import Verif.Flush.Spec
import Mathlib.Data.List.Nodup

/-!
# C69: cache maintenance of device memory works on the bytes that are asked for

`named_exact` says which bytes the system calls name if their second offset is read as the last byte. The kernel reads it
as the offset after the last byte, so the last byte of each page of the range is left out (`last_byte_left_out`) and a
single byte is refused (`one_byte_refused`). Because the cache works on lines, this is not seen unless the last byte begins a
line: `lines_exact_partial`.
-/

namespace Verif.Flush

theorem roundUp_next (cur ps : Nat) (hp : 0 < ps) : roundUp (cur + 1) ps = (cur / ps + 1) * ps := by
  unfold roundUp
  have h1 := Nat.div_add_mod cur ps
  have h2 := Nat.mod_lt cur hp
  have h3 : (cur / ps + 1) * ps = ps * (cur / ps) + ps := by rw [Nat.add_mul, Nat.one_mul, Nat.mul_comm]
  rw [h3]
  generalize hq : ps * (cur / ps) = q at *
  have hm : (cur + 1) % ps = if cur % ps + 1 = ps then 0 else cur % ps + 1 := by
    have : cur + 1 = (cur % ps + 1) + ps * (cur / ps) := by omega
    rw [this, Nat.add_mul_mod_self_left]
    split
    · rename_i h; rw [h, Nat.mod_self]
    · exact Nat.mod_eq_of_lt (by omega)
  by_cases h : cur % ps + 1 = ps
  · rw [hm, if_pos h, if_pos rfl]; omega
  · rw [hm, if_neg h, if_neg (by omega)]; omega

theorem loop_done (kernel : KCall → Int) (frames : List Frame) (op : Op) (ps fin fuel i : Nat) :
    loop kernel frames op ps fin (fuel + 1) fin i = ([], .ret 0) := by
  simp [loop]

/-- What the loop does. -/
theorem loop_spec {kernel : KCall → Int} {frames : List Frame} {op : Op} {ps fin i : Nat} (hp : 0 < ps) {caps : List Nat}
    (hf : ∀ j c, caps[j]? = some c → ∃ f, frames[i + j]? = some f ∧ f.cap = c) (hfin : fin ≤ ps * caps.length) :
    ∀ fuel cur, cur ≤ fin → fin - cur < fuel →
      let r := loop kernel frames op ps fin fuel cur (i + cur / ps)
      (∀ k ∈ r.1, ∃ j c, caps[j]? = some c ∧ k.op = op ∧ k.cap = c ∧ k.start ≤ k.stop ∧ k.stop < ps ∧ cur ≤ j * ps + k.start ∧ j * ps + k.stop < fin ∧
        (k.start = 0 ∨ j * ps + k.start = cur) ∧ (k.stop + 1 = ps ∨ j * ps + k.stop + 1 = fin)) ∧
      ((∀ k ∈ r.1, kernel k = 0) → r.2 = .ret 0 ∧ ∀ o, cur ≤ o → o < fin → ∃ k ∈ r.1, k.Names caps ps o) ∧
      ((∃ k ∈ r.1, kernel k ≠ 0) → ∃ done k, r.1 = done ++ [k] ∧ (∀ q ∈ done, kernel q = 0) ∧ kernel k ≠ 0 ∧ r.2 = .ret (kernel k)) := by
  intro fuel
  induction fuel with
  | zero => intro cur _ h; omega
  | succ fuel ih =>
    intro cur hc hfu
    by_cases hlt : cur < fin
    · have hjlt : cur / ps < caps.length := (Nat.div_lt_iff_lt_mul hp).mpr (by rw [Nat.mul_comm]; omega)
      have hcj : caps[cur / ps]? = some caps[cur / ps] := List.getElem?_eq_getElem hjlt
      obtain ⟨f, hfr, hfc⟩ := hf _ _ hcj
      have htop := roundUp_next cur ps hp
      have hdm := Nat.div_add_mod cur ps
      have hml := Nat.mod_lt cur hp
      have hexp : (cur / ps + 1) * ps = cur / ps * ps + ps := by rw [Nat.add_mul, Nat.one_mul]
      rw [Nat.mul_comm] at hdm
      -- the first system call
      generalize htopd : min (roundUp (cur + 1) ps) fin = top
      have hle : top ≤ cur / ps * ps + ps := by rw [← htopd, htop, hexp]; omega
      have hgt : cur < top := by rw [← htopd, htop, hexp]; omega
      have hfinle : top ≤ fin := by rw [← htopd]; omega
      have hor : top = cur / ps * ps + ps ∨ top = fin := by rw [← htopd, htop, hexp]; omega
      have hstop : (top - 1) % ps = top - 1 - cur / ps * ps := by
        have : top - 1 = (top - 1 - cur / ps * ps) + ps * (cur / ps) := by rw [Nat.mul_comm ps]; omega
        conv_lhs => rw [this]
        rw [Nat.add_mul_mod_self_left]
        exact Nat.mod_eq_of_lt (by omega)
      let k : KCall := ⟨op, f.cap, cur % ps, (top - 1) % ps⟩
      have hun : loop kernel frames op ps fin (fuel + 1) cur (i + cur / ps) =
          if kernel k ≠ 0 then ([k], .ret (kernel k)) else (k :: (loop kernel frames op ps fin fuel top (i + cur / ps + 1)).1, (loop kernel frames op ps fin fuel top (i + cur / ps + 1)).2) := by
        rw [loop, if_pos hlt]
        simp only [hfr, htopd]
        rfl
      have hkA : ∃ j c, caps[j]? = some c ∧ k.op = op ∧ k.cap = c ∧ k.start ≤ k.stop ∧ k.stop < ps ∧ cur ≤ j * ps + k.start ∧ j * ps + k.stop < fin ∧
          (k.start = 0 ∨ j * ps + k.start = cur) ∧ (k.stop + 1 = ps ∨ j * ps + k.stop + 1 = fin) := by
        refine ⟨cur / ps, caps[cur / ps], hcj, rfl, hfc, ?_, ?_, ?_, ?_, .inr ?_, ?_⟩
        · show cur % ps ≤ (top - 1) % ps
          rw [hstop]; omega
        · exact Nat.mod_lt _ hp
        · show cur ≤ cur / ps * ps + cur % ps
          omega
        · show cur / ps * ps + (top - 1) % ps < fin
          rw [hstop]; omega
        · show cur / ps * ps + cur % ps = cur
          omega
        · show (top - 1) % ps + 1 = ps ∨ cur / ps * ps + (top - 1) % ps + 1 = fin
          rw [hstop]; omega
      have hkN : ∀ o, cur ≤ o → o < top → k.Names caps ps o := by
        intro o h1 h2
        have hoq : o / ps = cur / ps := by
          apply Nat.div_eq_of_lt_le
          · omega
          · rw [hexp]; omega
        have hom := Nat.div_add_mod o ps
        rw [hoq, Nat.mul_comm] at hom
        refine ⟨by rw [hoq, hcj]; exact congrArg _ hfc.symm, ?_, ?_⟩
        · show cur % ps ≤ o % ps
          omega
        · show o % ps ≤ (top - 1) % ps
          rw [hstop]; omega
      intro r
      have hr : r = loop kernel frames op ps fin (fuel + 1) cur (i + cur / ps) := rfl
      rw [hun] at hr
      clear_value r
      by_cases hk : kernel k ≠ 0
      · rw [if_pos hk] at hr
        subst hr
        refine ⟨?_, ?_, ?_⟩
        · intro q hq
          rw [List.mem_singleton.mp hq]
          exact hkA
        · exact fun h => absurd (h k (List.mem_singleton.mpr rfl)) hk
        · exact fun _ => ⟨[], k, rfl, by simp, hk, rfl⟩
      · rw [if_neg hk] at hr
        have hk0 : kernel k = 0 := not_not.mp hk
        -- the rest
        have hrest : ∃ r', loop kernel frames op ps fin fuel top (i + cur / ps + 1) = r' ∧
            (∀ k ∈ r'.1, ∃ j c, caps[j]? = some c ∧ k.op = op ∧ k.cap = c ∧ k.start ≤ k.stop ∧ k.stop < ps ∧ cur ≤ j * ps + k.start ∧ j * ps + k.stop < fin ∧
              (k.start = 0 ∨ j * ps + k.start = cur) ∧ (k.stop + 1 = ps ∨ j * ps + k.stop + 1 = fin)) ∧
            ((∀ k ∈ r'.1, kernel k = 0) → r'.2 = .ret 0 ∧ ∀ o, top ≤ o → o < fin → ∃ k ∈ r'.1, k.Names caps ps o) ∧
            ((∃ k ∈ r'.1, kernel k ≠ 0) → ∃ done k, r'.1 = done ++ [k] ∧ (∀ q ∈ done, kernel q = 0) ∧ kernel k ≠ 0 ∧ r'.2 = .ret (kernel k)) := by
          by_cases he : top = fin
          · obtain ⟨g, rfl⟩ : ∃ g, fuel = g + 1 := ⟨fuel - 1, by omega⟩
            refine ⟨([], .ret 0), by rw [he]; exact loop_done _ _ _ _ _ _ _, by simp, fun _ => ⟨rfl, fun o h1 h2 => by omega⟩, by simp⟩
          · have hte : top = cur / ps * ps + ps := by omega
            have hdiv : top / ps = cur / ps + 1 := by
              rw [hte, ← hexp, Nat.mul_div_cancel _ hp]
            have := ih top hfinle (by omega)
            rw [hdiv] at this
            obtain ⟨h1, h2, h3⟩ := this
            refine ⟨_, rfl, ?_, h2, h3⟩
            intro q hq
            obtain ⟨j, c, a1, a2, a3, a4, a5, a6, a7, a8, a9⟩ := h1 q hq
            refine ⟨j, c, a1, a2, a3, a4, a5, by omega, a7, ?_, a9⟩
            rcases a8 with a8 | a8
            · exact .inl a8
            · left
              have hz : (j * ps + q.start) % ps = 0 := by rw [a8, hte, ← hexp]; exact Nat.mul_mod_left _ _
              rw [Nat.mul_comm, Nat.mul_add_mod, Nat.mod_eq_of_lt (by omega)] at hz
              exact hz
        obtain ⟨r', hr', h1, h2, h3⟩ := hrest
        rw [hr'] at hr
        subst hr
        refine ⟨?_, ?_, ?_⟩
        · intro q hq
          rcases List.mem_cons.mp hq with rfl | hq
          · exact hkA
          · exact h1 q hq
        · intro hall
          have := h2 fun q hq => hall q (List.mem_cons_of_mem _ hq)
          refine ⟨this.1, fun o ho1 ho2 => ?_⟩
          by_cases ho : o < top
          · exact ⟨k, List.mem_cons_self, hkN o ho1 ho⟩
          · obtain ⟨q, hq, hn⟩ := this.2 o (by omega) ho2
            exact ⟨q, List.mem_cons_of_mem _ hq, hn⟩
        · rintro ⟨q, hq, hn⟩
          have hq' : q ∈ r'.1 := by
            rcases List.mem_cons.mp hq with rfl | hq
            · exact absurd hk0 hn
            · exact hq
          obtain ⟨done, k', e1, e2, e3, e4⟩ := h3 ⟨q, hq', hn⟩
          refine ⟨k :: done, k', by simp [e1], ?_, e3, e4⟩
          intro x hx
          rcases List.mem_cons.mp hx with rfl | hx
          · exact hk0
          · exact e2 x hx
    · have he : cur = fin := by omega
      intro r
      have hr : r = ([], .ret 0) := by
        show loop kernel frames op ps fin (fuel + 1) cur (i + cur / ps) = _
        rw [he]
        exact loop_done _ _ _ _ _ _ _
      rw [hr]
      exact ⟨by simp, fun _ => ⟨rfl, fun o h1 h2 => by omega⟩, by simp⟩

theorem region_get (paddr base ps : Nat) (caps : List Nat) (j : Nat) :
    (region paddr base ps caps)[j]? = caps[j]?.map fun c => ⟨paddr + j * ps, c, ps, base + j * ps⟩ := by
  unfold region
  rw [List.getElem?_map, List.getElem?_zipIdx]
  cases caps[j]? <;> simp

/-- Where the frames of a dataport are found. -/
theorem placed_index {frames : List Frame} {base ps : Nat} {caps : List Nat} (h : Placed frames base ps caps) :
    ∃ i f, firstAt frames base = some i ∧ frames[i]? = some f ∧ f.size = ps ∧ ∀ j c, caps[j]? = some c → ∃ f, frames[i + j]? = some f ∧ f.cap = c := by
  obtain ⟨before, paddr, after, rfl, hb⟩ := h.place
  have hget : ∀ j c, caps[j]? = some c → (before ++ region paddr base ps caps ++ after)[before.length + j]? = some ⟨paddr + j * ps, c, ps, base + j * ps⟩ := by
    intro j c hc
    rw [List.append_assoc, List.getElem?_append_right (by omega), show before.length + j - before.length = j by omega]
    have hlt : j < (region paddr base ps caps).length := by
      have := (List.getElem?_eq_some_iff.mp hc).1
      simpa [region] using this
    rw [List.getElem?_append_left hlt, region_get, hc]
    rfl
  obtain ⟨c0, cs, hcs⟩ := List.exists_cons_of_ne_nil h.some_frame
  have h0 : caps[0]? = some c0 := by rw [hcs]; rfl
  have hg0 := hget 0 c0 h0
  refine ⟨before.length, _, ?_, by simpa using hg0, rfl, fun j c hc => ⟨_, hget j c hc, rfl⟩⟩
  unfold firstAt
  rw [List.append_assoc, List.findIdx?_append, List.findIdx?_eq_none_iff.mpr (fun f hf => by simpa using hb f hf)]
  rw [hcs]
  simp [region, List.findIdx?_cons]

/-- **C69, range.** A range that is not in the dataport is refused, and nothing is done. -/
theorem refused_outside (kernel : KCall → Int) (frames : List Frame) (start size dpStart dpSize : Nat) (op : Op)
    (h : ¬ (start < dpSize ∧ start + size ≤ dpSize)) : flush kernel frames start size dpStart dpSize op = ([], .ret (-1)) := by
  unfold flush
  rw [if_pos (by omega)]

theorem flush_inside {kernel : KCall → Int} {frames : List Frame} {base ps : Nat} {caps : List Nat} (h : Placed frames base ps caps) {start size : Nat} (op : Op)
    (hin : start < ps * caps.length ∧ start + size ≤ ps * caps.length) :
    ∃ i, (∀ j c, caps[j]? = some c → ∃ f, frames[i + j]? = some f ∧ f.cap = c) ∧
      flush kernel frames start size base (ps * caps.length) op = loop kernel frames op ps (start + size) (size + 1) start (i + start / ps) := by
  obtain ⟨i, f, h1, h2, h3, h4⟩ := placed_index h
  refine ⟨i, h4, ?_⟩
  unfold flush
  rw [if_neg (by omega), h1]
  simp only [h2, h3]

theorem index_unique {caps : List Nat} (hn : caps.Nodup) {i j c : Nat} (h1 : caps[i]? = some c) (h2 : caps[j]? = some c) : i = j := by
  obtain ⟨a1, a2⟩ := List.getElem?_eq_some_iff.mp h1
  obtain ⟨b1, b2⟩ := List.getElem?_eq_some_iff.mp h2
  exact (List.Nodup.getElem_inj_iff hn).mp (a2.trans b2.symm)

/-- **C69.** For every range in the dataport, the system calls are for the operation asked for and for frames of the
dataport, and name (inclusive) no byte outside the range; if the kernel accepts all of them, they name every byte of the
range and the result is 0; otherwise the call stops at the first error and returns it. -/
theorem named_exact (kernel : KCall → Int) (frames : List Frame) (base ps : Nat) (caps : List Nat) (h : Placed frames base ps caps) (start size : Nat) (op : Op)
    (hin : start < ps * caps.length ∧ start + size ≤ ps * caps.length) :
    let r := flush kernel frames start size base (ps * caps.length) op
    (∀ k ∈ r.1, k.op = op ∧ k.cap ∈ caps ∧ k.start ≤ k.stop ∧ k.stop < ps) ∧
    (∀ k ∈ r.1, ∀ o, k.Names caps ps o → start ≤ o ∧ o < start + size) ∧
    ((∀ k ∈ r.1, kernel k = 0) → r.2 = .ret 0 ∧ ∀ o, start ≤ o → o < start + size → ∃ k ∈ r.1, k.Names caps ps o) ∧
    ((∃ k ∈ r.1, kernel k ≠ 0) → ∃ done k, r.1 = done ++ [k] ∧ (∀ q ∈ done, kernel q = 0) ∧ kernel k ≠ 0 ∧ r.2 = .ret (kernel k)) := by
  obtain ⟨i, hf, he⟩ := flush_inside (kernel := kernel) h op hin
  intro r
  obtain ⟨h1, h2, h3⟩ := loop_spec (kernel := kernel) (op := op) h.page hf hin.2 (size + 1) start (by omega) (by omega)
  have hr : r = loop kernel frames op ps (start + size) (size + 1) start (i + start / ps) := he
  rw [hr]
  refine ⟨?_, ?_, h2, h3⟩
  · intro k hk
    obtain ⟨j, c, a1, a2, a3, a4, a5, _⟩ := h1 k hk
    exact ⟨a2, by rw [a3]; exact List.mem_of_getElem? a1, a4, a5⟩
  · rintro k hk o ⟨n1, n2, n3⟩
    obtain ⟨j, c, a1, a2, a3, a4, a5, a6, a7, _⟩ := h1 k hk
    rw [a3] at n1
    have hj := index_unique h.distinct n1 a1
    have ho := Nat.div_add_mod o ps
    rw [hj, Nat.mul_comm] at ho
    omega

/-- **C69, cache lines.** With the kernel's reading of the offsets and a cache with lines of more than one byte: if the range
has at least two bytes, does not begin with the last byte of a page, and its last byte does not begin a line, then the
call succeeds and works on exactly the lines of the range. -/
theorem lines_exact_partial (kernel : KCall → Int) (frames : List Frame) (base ps : Nat) (caps : List Nat) (h : Placed frames base ps caps) (start size : Nat) (op : Op)
    (hin : start < ps * caps.length ∧ start + size ≤ ps * caps.length) (hc : Contract kernel ps) (line : Nat) (hline : 1 < line) (hdvd : line ∣ ps)
    (h2 : 2 ≤ size) (hfirst : (start + 1) % ps ≠ 0) (hlast : (start + size - 1) % line ≠ 0) :
    let r := flush kernel frames start size base (ps * caps.length) op
    r.2 = .ret 0 ∧ ∀ o, o < ps * caps.length →
      ((∃ k ∈ r.1, k.Works caps ps line o) ↔ ∃ o', start ≤ o' ∧ o' < start + size ∧ o' / line = o / line) := by
  obtain ⟨i, hf, he⟩ := flush_inside (kernel := kernel) h op hin
  obtain ⟨n1, n2, n3, _⟩ := named_exact kernel frames base ps caps h start size op hin
  obtain ⟨h1, _, _⟩ := loop_spec (kernel := kernel) (op := op) h.page hf hin.2 (size + 1) start (by omega) (by omega)
  rw [← he] at h1
  intro r
  have hp := h.page
  obtain ⟨m, hm⟩ := hdvd
  have hm0 : 0 < m := by
    rcases Nat.eq_zero_or_pos m with h0 | h0
    · rw [h0, Nat.mul_zero] at hm; omega
    · exact h0
  have hps : line ≤ ps := by rw [hm]; exact Nat.le_mul_of_pos_right _ hm0
  have hmul : ∀ j t, (j * ps + t) % line = t % line := fun j t => by
    rw [hm, ← Nat.mul_assoc, Nat.mul_comm j line, Nat.mul_assoc, Nat.mul_add_mod]
  have hlinepos : ∀ o, o / line = o / ps * m + o % ps / line := by
    intro o
    have := Nat.div_add_mod o ps
    conv_lhs => rw [← this, hm, Nat.mul_assoc, Nat.add_comm, Nat.add_mul_div_left _ _ (show 0 < line by omega), Nat.add_comm, Nat.mul_comm, ← hm]
  have hlt : ∀ o, o % ps / line < m := fun o => by
    rw [Nat.div_lt_iff_lt_mul (by omega), Nat.mul_comm, ← hm]
    exact Nat.mod_lt _ hp
  -- every system call has at least two bytes and its last one does not begin a line
  have hgood : ∀ k ∈ r.1, k.start < k.stop ∧ k.stop % line ≠ 0 := by
    intro k hk
    obtain ⟨j, c, a1, a2, a3, a4, a5, a6, a7, a8, a9⟩ := h1 k hk
    have hst : k.stop % line ≠ 0 := by
      rcases a9 with a9 | a9
      · intro hz
        have h5 : (k.stop + 1) % line = 0 := by rw [a9, hm]; exact Nat.mul_mod_right _ _
        rw [Nat.add_mod, hz, Nat.zero_add, Nat.mod_mod, Nat.mod_eq_of_lt hline] at h5
        omega
      · have := hmul j k.stop
        rw [show j * ps + k.stop = start + size - 1 by omega] at this
        rw [← this]; exact hlast
    refine ⟨?_, hst⟩
    by_contra hle
    have heq : k.start = k.stop := by omega
    rcases a8 with a8 | a8
    · rw [← heq, a8] at hst
      exact hst (Nat.zero_mod _)
    · rcases a9 with a9 | a9
      · apply hfirst
        rw [← a8, Nat.add_assoc, heq, a9]
        have : j * ps + ps = ps * (j + 1) := by rw [Nat.mul_add, Nat.mul_one, Nat.mul_comm]
        rw [this]
        exact Nat.mul_mod_right _ _
      · omega
  have hok : ∀ k ∈ r.1, kernel k = 0 := fun k hk => hc.ok k (hgood k hk).1 (Nat.le_of_lt (n1 k hk).2.2.2)
  obtain ⟨hret, hcov⟩ := n3 hok
  refine ⟨hret, fun o ho => ⟨?_, ?_⟩⟩
  · rintro ⟨k, hk, w1, w2, w3, w4⟩
    obtain ⟨g1, g2⟩ := hgood k hk
    have hstop : (k.stop - 1) / line = k.stop / line := by
      have hd := Nat.div_add_mod k.stop line
      have hd2 := Nat.mod_lt k.stop (show 0 < line by omega)
      generalize hq : k.stop / line = q at hd ⊢
      apply Nat.div_eq_of_lt_le
      · rw [Nat.mul_comm]; omega
      · rw [Nat.add_mul, Nat.mul_comm]; omega
    rw [hstop] at w4
    -- a byte of the call in the same line
    obtain ⟨j, c, a1, a2, a3, a4, a5, a6, a7, _⟩ := h1 k hk
    have hj := index_unique h.distinct (by rw [← a3]; exact w1) a1
    have key : ∃ t, k.start ≤ t ∧ t ≤ k.stop ∧ t / line = o % ps / line := by
      by_cases hs : k.start / line = o % ps / line
      · exact ⟨k.start, Nat.le_refl _, a4, hs⟩
      · refine ⟨o % ps / line * line, ?_, ?_, Nat.mul_div_cancel _ (by omega)⟩
        · have hlt' : k.start / line < o % ps / line := by omega
          have := (Nat.div_lt_iff_lt_mul (show 0 < line by omega)).mp hlt'
          omega
        · exact (Nat.le_div_iff_mul_le (by omega)).mp w4
    obtain ⟨t, t1, t2, t3⟩ := key
    refine ⟨j * ps + t, by omega, by omega, ?_⟩
    have hq : (j * ps + t) / ps = j := by
      rw [Nat.add_comm, Nat.add_mul_div_right _ _ hp, Nat.div_eq_of_lt (by omega), Nat.zero_add]
    have hmod : (j * ps + t) % ps = t := by rw [Nat.add_comm, Nat.add_mul_mod_self_right, Nat.mod_eq_of_lt (by omega)]
    rw [hlinepos (j * ps + t), hlinepos o, hq, hmod, t3, hj]
  · rintro ⟨o', b1, b2, b3⟩
    obtain ⟨k, hk, w1, w2, w3⟩ := hcov o' b1 b2
    obtain ⟨g1, g2⟩ := hgood k hk
    rw [hlinepos o', hlinepos o] at b3
    have hdq : o' / ps = o / ps := by
      have e1 : (o' / ps * m + o' % ps / line) / m = o' / ps := by
        rw [Nat.add_comm, Nat.add_mul_div_right _ _ hm0, Nat.div_eq_of_lt (hlt o'), Nat.zero_add]
      have e2 : (o / ps * m + o % ps / line) / m = o / ps := by
        rw [Nat.add_comm, Nat.add_mul_div_right _ _ hm0, Nat.div_eq_of_lt (hlt o), Nat.zero_add]
      rw [← e1, ← e2, b3]
    have hdl : o' % ps / line = o % ps / line := by rw [hdq] at b3; omega
    have hstop : (k.stop - 1) / line = k.stop / line := by
      have hd := Nat.div_add_mod k.stop line
      have hd2 := Nat.mod_lt k.stop (show 0 < line by omega)
      generalize hq : k.stop / line = q at hd ⊢
      apply Nat.div_eq_of_lt_le
      · rw [Nat.mul_comm]; omega
      · rw [Nat.add_mul, Nat.mul_comm]; omega
    refine ⟨k, hk, by rw [← hdq]; exact w1, g1, ?_, ?_⟩
    · rw [← hdl]; exact Nat.div_le_div_right w2
    · rw [← hdl, hstop]; exact Nat.div_le_div_right w3

/-! ## What is missing -/

/-- **Disagreement with C69.** Whatever the range, no system call works on the byte at its end as the kernel reads the
offsets (with lines of one byte). -/
theorem last_byte_left_out (kernel : KCall → Int) (frames : List Frame) (base ps : Nat) (caps : List Nat) (h : Placed frames base ps caps) (start size : Nat) (op : Op)
    (hin : start < ps * caps.length ∧ start + size ≤ ps * caps.length) (hs : 0 < size) :
    ∀ k ∈ (flush kernel frames start size base (ps * caps.length) op).1, ¬ k.Works caps ps 1 (start + size - 1) := by
  obtain ⟨i, hf, he⟩ := flush_inside (kernel := kernel) h op hin
  obtain ⟨h1, _, _⟩ := loop_spec (kernel := kernel) (op := op) h.page hf hin.2 (size + 1) start (by omega) (by omega)
  rw [← he] at h1
  rintro k hk ⟨w1, w2, w3, w4⟩
  obtain ⟨j, c, a1, a2, a3, a4, a5, a6, a7, a8, a9⟩ := h1 k hk
  have hj := index_unique h.distinct (by rw [← a3]; exact w1) a1
  have ho := Nat.div_add_mod (start + size - 1) ps
  rw [hj, Nat.mul_comm] at ho
  rw [Nat.div_one, Nat.div_one] at w4
  omega

/-- **Disagreement with C69.** A range of one byte is refused by the kernel, wherever it is. -/
theorem one_byte_refused (kernel : KCall → Int) (frames : List Frame) (base ps : Nat) (caps : List Nat) (h : Placed frames base ps caps) (start : Nat) (op : Op)
    (hin : start < ps * caps.length) (hc : Contract kernel ps) : ∃ e, e ≠ 0 ∧ (flush kernel frames start 1 base (ps * caps.length) op).2 = .ret e := by
  obtain ⟨n1, n2, n3, n4⟩ := named_exact kernel frames base ps caps h start 1 op ⟨hin, hin⟩
  obtain ⟨i, hf, he⟩ := flush_inside (kernel := kernel) h op (size := 1) ⟨hin, hin⟩
  obtain ⟨h1, _, _⟩ := loop_spec (kernel := kernel) (op := op) h.page hf (fin := start + 1) hin (1 + 1) start (by omega) (by omega)
  rw [← he] at h1
  by_cases hall : ∀ k ∈ (flush kernel frames start 1 base (ps * caps.length) op).1, kernel k = 0
  · obtain ⟨_, hcov⟩ := n3 hall
    obtain ⟨k, hk, _⟩ := hcov start (Nat.le_refl _) (by omega)
    obtain ⟨j, c, a1, a2, a3, a4, a5, a6, a7, _⟩ := h1 k hk
    exact absurd (hall k hk) (hc.refused k (by omega))
  · have hex : ∃ k ∈ (flush kernel frames start 1 base (ps * caps.length) op).1, kernel k ≠ 0 := by
      by_contra hne
      exact hall fun k hk => by by_contra hz; exact hne ⟨k, hk, hz⟩
    obtain ⟨_, k, _, _, e3, e4⟩ := n4 hex
    exact ⟨_, e3, e4⟩

/-- **Disagreement with C69.** For a dataport that is not in the table nothing is done, and the call reports success. -/
theorem unknown_ignored (kernel : KCall → Int) (frames : List Frame) (start size base dpSize : Nat) (op : Op) (hin : start < dpSize ∧ start + size ≤ dpSize)
    (h : ∀ f ∈ frames, f.vaddr ≠ base) : flush kernel frames start size base dpSize op = ([], .ret 0) := by
  unfold flush
  rw [if_neg (by omega)]
  have : firstAt frames base = none := List.findIdx?_eq_none_iff.mpr fun f hf => by simpa using h f hf
  rw [this]

/-! ## The hypotheses can be met -/

/-- A kernel with pages of 16 bytes. -/
def demoKernel : KCall → Int := fun k => if k.start < k.stop ∧ k.stop ≤ 16 then 0 else 1

theorem demo_contract : Contract demoKernel 16 :=
  ⟨fun k h1 h2 => by simp [demoKernel, h1, h2], fun k h => by unfold demoKernel; rw [if_neg (by omega)]; decide⟩

/-- Two dataports. -/
def demoFrames : List Frame := region 100 0 16 [7, 8] ++ region 1000 64 16 [3, 4, 5]

theorem demo_placed : Placed demoFrames 64 16 [3, 4, 5] :=
  ⟨by decide, by decide, by decide, ⟨region 100 0 16 [7, 8], 1000, [], by simp [demoFrames], by decide⟩⟩

example : flush demoKernel demoFrames 10 30 64 48 .clean = ([⟨.clean, 3, 10, 15⟩, ⟨.clean, 4, 0, 15⟩, ⟨.clean, 5, 0, 7⟩], .ret 0) := by decide
/-- With lines of 4 bytes the conditions of `lines_exact_partial` hold. -/
example : (10 : Nat) < 16 * 3 ∧ (10 + 1) % 16 ≠ 0 ∧ (10 + 30 - 1) % 4 ≠ 0 ∧ 4 ∣ 16 := by decide

end Verif.Flush
