import Verif.DmaCheck.Lists
import Mathlib.Tactic.SplitIfs

/-! # The loops over the regions -/

namespace Verif.DmaCheck

/-- The result for an optional failure. -/
def toRes : Option Why → Res
  | none => .pass
  | some w => .fail w

/-! ## Physical addresses -/

theorem try_paddr_some {m : Mem} (hm : Machine m) (r : Nat) (h : 4096 ≤ m.lookup r) :
    tryPaddr (m.lookup r / 4096) r = m.lookup r := by
  unfold tryPaddr
  have hp := hm.page r
  rw [if_pos (by omega)]
  omega

theorem extract_some {m : Mem} (hm : Machine m) (r : Nat) (h : 4096 ≤ m.lookup r) :
    extract m r = some (m.lookup r) := by
  have ht := try_paddr_some hm r h
  unfold extract
  rcases hm.recorded r with h0 | h0
  · have : tryPaddr (m.pu r) r = 0 := by simp [tryPaddr, h0]
    simp only [this, if_true, ht]
    rw [if_neg (by omega), if_neg (by omega)]
  · rw [h0, ht]
    simp only
    rw [if_neg (by omega)]

theorem extract_none {m : Mem} (hm : Machine m) (r : Nat) (h : m.lookup r < 4096) : extract m r = none := by
  have h0 : m.pu r = 0 := by
    rcases hm.recorded r with h0 | h0
    · exact h0
    · omega
  have hd : m.lookup r / 4096 = 0 := by omega
  simp [extract, tryPaddr, h0, hd]

/-! ## One region -/

theorem regionBad_none {m : Mem} (hm : Machine m) (r : Nat) (hr : r ≤ m.umax) :
    regionBad m r = none ↔ Sound m r := by
  unfold regionBad
  have hn := hm.node_pos
  have hl := hm.lookup_le r hr
  rcases Nat.lt_or_ge (m.lookup r) 4096 with h | h
  · rw [extract_none hm r h]
    simp only [reduceCtorEq, false_iff]
    intro hs
    have := hs.frame
    omega
  · rw [extract_some hm r h]
    constructor
    · intro hb
      simp only at hb
      split_ifs at hb
      exact ⟨h, by omega, by omega, by omega⟩
    · intro hs
      have h1 := hs.holds; have h2 := hs.virt; have h3 := hs.phys
      simp only
      rw [if_neg (by omega), if_neg (by omega), if_neg (by omega), if_neg (by omega)]

/-- The defects of a single region. -/
def RegionDefect (m : Mem) (r : Nat) : Why → Prop
  | .unknown => m.lookup r < 4096
  | .empty => m.size r = 0
  | .small => 0 < m.size r ∧ m.size r < m.node
  | .virtOver => m.umax < r + m.size r
  | .physOver => m.umax < m.lookup r + m.size r
  | _ => False

theorem regionBad_some {m : Mem} (hm : Machine m) (r : Nat) (hr : r ≤ m.umax) (w : Why)
    (h : regionBad m r = some w) : RegionDefect m r w := by
  unfold regionBad at h
  have hl := hm.lookup_le r hr
  rcases Nat.lt_or_ge (m.lookup r) 4096 with h4 | h4
  · rw [extract_none hm r h4] at h
    cases h
    exact h4
  · rw [extract_some hm r h4] at h
    simp only at h
    split_ifs at h <;> cases h <;> simp only [RegionDefect] <;> omega

theorem regions_eq (m : Mem) : ∀ (l : List Nat) (n h : Nat), l.length < n → Linked m.next h l →
    regions m n h = toRes (l.findSome? (regionBad m))
  | l, 0, _, hn, _ => by omega
  | [], n + 1, h, _, hl => by
    have : h = 0 := hl
    simp [regions, this, toRes]
  | a :: l, n + 1, h, hn, hl => by
    obtain ⟨rfl, h0, hl'⟩ := hl
    unfold regions
    rw [if_neg h0, List.findSome?_cons]
    cases hb : regionBad m h with
    | some w => rfl
    | none => exact regions_eq m l n _ (by simp at hn; omega) hl'

/-! ## Two regions -/

theorem meets_iff (m : Mem) (r rs p ps : Nat) (h1 : r + rs ≤ m.umax) (h2 : p + ps ≤ m.umax) (hr : 0 < rs) (hp : 0 < ps) :
    meets m r rs p ps = true ↔ ¬ Apart r rs p ps := by
  have e1 : (r + rs) % (m.umax + 1) = r + rs := Nat.mod_eq_of_lt (by omega)
  have e2 : (p + ps) % (m.umax + 1) = p + ps := Nat.mod_eq_of_lt (by omega)
  simp only [meets, wrap, e1, e2, Bool.or_eq_true, Bool.and_eq_true, decide_eq_true_eq]
  constructor
  · intro h ha
    rcases h with ⟨a, b⟩ | ⟨a, b⟩
    · exact ha r ⟨⟨Nat.le_refl _, by omega⟩, a, b⟩
    · exact ha p ⟨⟨a, b⟩, Nat.le_refl _, by omega⟩
  · intro h
    by_cases hc : p ≤ r ∧ r < p + ps ∨ r ≤ p ∧ p < r + rs
    · exact hc
    · exfalso
      apply h
      intro x ⟨hx1, hx2⟩
      omega

theorem pairBad_none {m : Mem} (hm : Machine m) (r p : Nat) (hr : Sound m r) (hp : Sound m p) :
    pairBad m r p = none ↔ Separate m r p := by
  have hn := hm.node_pos
  have hr1 := hr.holds; have hp1 := hp.holds
  unfold pairBad
  rw [extract_some hm r hr.frame, extract_some hm p hp.frame]
  have hv := meets_iff m r (m.size r) p (m.size p) hr.virt hp.virt (by omega) (by omega)
  have hq := meets_iff m (m.lookup r) (m.size r) (m.lookup p) (m.size p) hr.phys hp.phys (by omega) (by omega)
  simp only
  unfold Separate
  by_cases h1 : meets m r (m.size r) p (m.size p) = true
  · rw [if_pos h1]
    simp only [reduceCtorEq, false_iff]
    exact fun h => hv.1 h1 h.1
  · rw [if_neg h1]
    have ha : Apart r (m.size r) p (m.size p) := Classical.byContradiction fun hc => h1 (hv.2 hc)
    by_cases h2 : meets m (m.lookup r) (m.size r) (m.lookup p) (m.size p) = true
    · rw [if_pos h2]
      simp only [reduceCtorEq, false_iff]
      exact fun h => hq.1 h2 h.2
    · rw [if_neg h2]
      have hb : Apart (m.lookup r) (m.size r) (m.lookup p) (m.size p) :=
        Classical.byContradiction fun hc => h2 (hq.2 hc)
      exact ⟨fun _ => ⟨ha, hb⟩, fun _ => rfl⟩

/-- The defects of two regions. -/
def PairDefect (m : Mem) (r p : Nat) : Why → Prop
  | .virtOverlap => ¬ Apart r (m.size r) p (m.size p)
  | .physOverlap => ¬ Apart (m.lookup r) (m.size r) (m.lookup p) (m.size p)
  | _ => False

theorem pairBad_some {m : Mem} (hm : Machine m) (r p : Nat) (hr : Sound m r) (hp : Sound m p) (w : Why)
    (h : pairBad m r p = some w) : PairDefect m r p w := by
  have hn := hm.node_pos
  have hr1 := hr.holds; have hp1 := hp.holds
  unfold pairBad at h
  rw [extract_some hm r hr.frame, extract_some hm p hp.frame] at h
  have hv := meets_iff m r (m.size r) p (m.size p) hr.virt hp.virt (by omega) (by omega)
  have hq := meets_iff m (m.lookup r) (m.size r) (m.lookup p) (m.size p) hr.phys hp.phys (by omega) (by omega)
  simp only at h
  split_ifs at h with h1 h2
  · cases h; exact hv.1 h1
  · cases h; exact hq.1 h2

theorem inner_eq (m : Mem) (r : Nat) : ∀ (a b : List Nat) (n h : Nat), a.length < n → r ∉ a →
    Linked m.next h (a ++ r :: b) → inner m r n h = toRes (a.findSome? (pairBad m r))
  | a, _, 0, _, hn, _, _ => by omega
  | [], b, n + 1, h, _, _, hl => by
    have : h = r := hl.1
    simp [inner, this, toRes]
  | x :: a, b, n + 1, h, hn, hr, hl => by
    obtain ⟨rfl, h0, hl'⟩ := hl
    have hx : h ≠ r := fun e => hr (by simp [e])
    unfold inner
    rw [if_neg hx, List.findSome?_cons]
    cases hb : pairBad m r h with
    | some w => rfl
    | none => exact inner_eq m r a b n _ (by simp at hn; omega) (fun e => hr (by simp [e])) hl'

/-- The first pair found to be bad, if `a` has been dealt with and `b` remains. -/
def firstPair (m : Mem) : List Nat → List Nat → Option Why
  | _, [] => none
  | a, r :: b => match a.findSome? (pairBad m r) with
    | some w => some w
    | none => firstPair m (a ++ [r]) b

theorem outer_eq (m : Mem) (head : Nat) : ∀ (b a : List Nat) (n h : Nat), a.length + 2 * b.length < n →
    Linked m.next head (a ++ b) → (a ++ b).Nodup → Linked m.next h b →
    outer m head n h = toRes (firstPair m a b)
  | b, a, 0, _, hn, _, _, _ => by omega
  | [], a, n + 1, h, _, _, _, hl => by
    have : h = 0 := hl
    simp [outer, this, toRes, firstPair]
  | r :: b, a, n + 1, h, hn, hh, hd, hl => by
    obtain ⟨rfl, h0, hl'⟩ := hl
    have hra : h ∉ a := by
      intro hm
      exact (List.nodup_append.1 hd).2.2 h hm h (by simp) rfl
    unfold outer
    rw [if_neg h0, inner_eq m h a b (n + 1) head (by omega) hra hh]
    unfold firstPair
    cases ha : a.findSome? (pairBad m h) with
    | some w => rfl
    | none =>
      have hab : a ++ h :: b = (a ++ [h]) ++ b := by simp
      exact outer_eq m head b (a ++ [h]) n _ (by simp at hn ⊢; omega) (hab ▸ hh) (hab ▸ hd) hl'

theorem firstPair_none (m : Mem) : ∀ (b a : List Nat), firstPair m a b = none ↔
    (∀ r ∈ b, ∀ p ∈ a, pairBad m r p = none) ∧ b.Pairwise (fun p r => pairBad m r p = none)
  | [], a => by simp [firstPair]
  | r :: b, a => by
    unfold firstPair
    rw [List.pairwise_cons]
    cases ha : a.findSome? (pairBad m r) with
    | some w =>
      simp only [reduceCtorEq, false_iff]
      intro h
      have : a.findSome? (pairBad m r) = none := List.findSome?_eq_none_iff.2 (fun p hp => h.1 r (by simp) p hp)
      rw [ha] at this
      cases this
    | none =>
      have ha' := List.findSome?_eq_none_iff.1 ha
      simp only
      rw [firstPair_none m b (a ++ [r])]
      constructor
      · rintro ⟨h1, h2⟩
        refine ⟨fun x hx p hp => ?_, fun x hx => h1 x hx r (by simp), h2⟩
        rcases List.mem_cons.1 hx with rfl | hx
        · exact ha' p hp
        · exact h1 x hx p (by simp [hp])
      · rintro ⟨h1, h2, h3⟩
        refine ⟨fun x hx p hp => ?_, h3⟩
        rcases List.mem_append.1 hp with hp | hp
        · exact h1 x (by simp [hx]) p hp
        · simp at hp
          subst hp
          exact h2 x hx

theorem firstPair_some (m : Mem) (w : Why) : ∀ (b a : List Nat), (a ++ b).Nodup → firstPair m a b = some w →
    ∃ r ∈ a ++ b, ∃ p ∈ a ++ b, r ≠ p ∧ pairBad m r p = some w
  | [], a, _, h => by simp [firstPair] at h
  | r :: b, a, hd, h => by
    unfold firstPair at h
    have hab : a ++ r :: b = (a ++ [r]) ++ b := by simp
    cases ha : a.findSome? (pairBad m r) with
    | some v =>
      rw [ha] at h
      simp only [Option.some.injEq] at h
      subst h
      obtain ⟨p, hp, hb⟩ := List.exists_of_findSome?_eq_some ha
      refine ⟨r, by simp, p, by simp [hp], ?_, hb⟩
      rintro rfl
      exact (List.nodup_append.1 hd).2.2 r hp r (by simp) rfl
    | none =>
      rw [ha] at h
      rw [hab]
      exact firstPair_some m w b (a ++ [r]) (hab ▸ hd) h

end Verif.DmaCheck
