import Verif.VqMsg.Spec
import Verif.VqAlloc.Props

namespace Verif.VqMsg

open Verif.VqAlloc

/-! ### Memory -/

theorem readAt_length (mem : Nat → Nat) (o k : Nat) : (readAt mem o k).length = k := by simp [readAt]

theorem readAt_write_same (mem : Nat → Nat) (o : Nat) (data : List Nat) : readAt (write mem o data) o data.length = data := by
  apply List.ext_getElem
  · simp [readAt]
  · intro j h1 h2
    simp only [readAt, write, List.getElem_map, List.getElem_range]
    rw [if_pos ⟨by omega, by omega⟩, show o + j - o = j by omega]
    simp [List.getD_eq_getElem?_getD, List.getElem?_eq_getElem h2]

theorem readAt_write_prefix (mem : Nat → Nat) (o k : Nat) (data : List Nat) (h : data.length ≤ k) :
    readAt (write mem o data) o k = data ++ (readAt mem o k).drop data.length := by
  apply List.ext_getElem
  · simp [readAt]; omega
  · intro j h1 h2
    simp only [readAt, write, List.getElem_map, List.getElem_range]
    by_cases hj : j < data.length
    · rw [if_pos ⟨by omega, by omega⟩, show o + j - o = j by omega, List.getElem_append_left hj]
      simp [List.getD_eq_getElem?_getD, List.getElem?_eq_getElem hj]
    · rw [if_neg (by omega), List.getElem_append_right (by omega)]
      simp only [List.getElem_drop, List.getElem_map, List.getElem_range]
      congr 1
      omega

theorem blocks_apart {bs i j x : Nat} (h : i ≠ j) (h1 : bs * i ≤ x) (h2 : x < bs * i + bs) (h3 : bs * j ≤ x) (h4 : x < bs * j + bs) : False := by
  rcases Nat.lt_or_gt_of_ne h with h | h
  · have : bs * (i + 1) ≤ bs * j := Nat.mul_le_mul_left _ h
    rw [Nat.mul_add] at this; omega
  · have : bs * (j + 1) ≤ bs * i := Nat.mul_le_mul_left _ h
    rw [Nat.mul_add] at this; omega

theorem readAt_write_other (mem : Nat → Nat) {bs i j k : Nat} (data : List Nat) (hij : i ≠ j) (hd : data.length ≤ bs) (hk : k ≤ bs) :
    readAt (write mem (bs * i) data) (bs * j) k = readAt mem (bs * j) k := by
  apply List.map_congr_left
  intro x hx
  rw [List.mem_range] at hx
  rw [write, if_neg]
  rintro ⟨h1, h2⟩
  exact blocks_apart hij h1 (by omega) (Nat.le_add_right _ _) (by omega)

/-- The blocks of a chain. -/
def idxs (bs : Nat) (chain : Chain) : List Nat := chain.map fun c => c.1 / bs

/-- A chain of buffers that start at blocks and fit in them. -/
def Good (bs : Nat) (chain : Chain) : Prop := ∀ c ∈ chain, c.1 = bs * (c.1 / bs) ∧ c.2 ≤ bs

def readChain (mem : Nat → Nat) (chain : Chain) : List Nat := chain.flatMap fun c => readAt mem c.1 c.2

theorem readChain_cons (mem : Nat → Nat) (c : Nat × Nat) (chain : Chain) : readChain mem (c :: chain) = readAt mem c.1 c.2 ++ readChain mem chain := rfl

/-- Some blocks are not changed. -/
def Same (bs : Nat) (mem mem' : Nat → Nat) (blocks : List Nat) : Prop := ∀ j ∈ blocks, ∀ k ≤ bs, readAt mem' (bs * j) k = readAt mem (bs * j) k

theorem readChain_same {bs : Nat} {mem mem' : Nat → Nat} {chain : Chain} (hg : Good bs chain) (h : Same bs mem mem' (idxs bs chain)) :
    readChain mem' chain = readChain mem chain := by
  induction chain with
  | nil => rfl
  | cons c chain ih =>
    rw [readChain_cons, readChain_cons, ih (fun x hx => hg x (by simp [hx])) (fun j hj => h j (by simp only [idxs, List.map_cons, List.mem_cons]; exact .inr hj))]
    obtain ⟨g1, g2⟩ := hg c (by simp)
    have := h (c.1 / bs) (by simp [idxs]) c.2 g2
    rw [← g1] at this
    rw [this]

/-! ### The functions -/

theorem state_perm {a : Alloc} {u u' : List Nat} (h : State a u) (hp : u.Perm u') : State a u' := by
  obtain ⟨h1, fs, h2, h3⟩ := h
  exact ⟨h1, fs, h2, (List.Perm.append_left fs hp.symm).trans h3⟩

theorem send_spec : ∀ (fuel : Nat) (v : Vq) (data : List Nat) (ring : Nat) (chain : Chain) (used : List Nat), State v.a used → data.length ≤ fuel →
    ∃ ext : Chain, State (send v fuel data ring chain).1.a (idxs v.a.bs ext ++ used) ∧ Good v.a.bs ext ∧
      Same v.a.bs v.mem (send v fuel data ring chain).1.mem used ∧
      ((send v fuel data ring chain).1.a.base = v.a.base ∧ (send v fuel data ring chain).1.a.bs = v.a.bs ∧ (send v fuel data ring chain).1.a.n = v.a.n) ∧
      ∀ c', (send v fuel data ring chain).2 = some c' → c' = chain ++ ext ∧ readChain (send v fuel data ring chain).1.mem ext = data := by
  intro fuel
  induction fuel with
  | zero =>
    intro v data ring chain used hs hd
    refine ⟨[], hs, by simp [Good], fun _ _ _ _ => rfl, ⟨rfl, rfl, rfl⟩, ?_⟩
    intro c' h
    simp only [send, Option.some.injEq] at h
    have : data = [] := List.length_eq_zero_iff.mp (by omega)
    subst this
    exact ⟨by simp [← h], rfl⟩
  | succ fuel ih =>
    intro v data ring chain used hs hd
    rw [send]
    by_cases hnil : data = []
    · rw [if_pos hnil]
      refine ⟨[], hs, by simp [Good], fun _ _ _ _ => rfl, ⟨rfl, rfl, rfl⟩, ?_⟩
      intro c' h
      simp only [Option.some.injEq] at h
      subst hnil
      exact ⟨by simp [← h], rfl⟩
    · rw [if_neg hnil]
      have hb := hs.1
      have hpos : 0 < data.length := List.length_pos_iff.mpr hnil
      rcases state_alloc hs (min data.length v.a.bs) with ⟨h1, _⟩ | ⟨i, hi, hni, hsz, _, h1, hs'⟩
      · simp only [h1]
        exact ⟨[], hs, by simp [Good], fun _ _ _ _ => rfl, (by simp), fun c' h => (by cases h)⟩
      · simp only [h1]
        have eo : v.a.base + v.a.bs * i - v.a.base = v.a.bs * i := by omega
        have ed : v.a.bs * i / v.a.bs = i := Nat.mul_div_cancel_left i hb
        rw [eo]
        have htl : (data.take (min data.length v.a.bs)).length = min data.length v.a.bs := by simp
        have hsame : Same v.a.bs v.mem (write v.mem (v.a.bs * i) (data.take (min data.length v.a.bs))) used := by
          intro j hj k hk
          refine readAt_write_other v.mem _ ?_ (by omega) hk
          rintro rfl
          exact hni hj
        cases ring with
        | zero =>
          refine ⟨[(v.a.bs * i, min data.length v.a.bs)], ?_, ?_, hsame, ⟨rfl, rfl, rfl⟩, fun c' h => (by cases h)⟩
          · simpa [idxs, ed] using hs'
          · intro c hc
            simp only [List.mem_singleton] at hc
            subst hc
            exact ⟨by rw [ed], by omega⟩
        | succ ring =>
          simp only
          obtain ⟨ext, i1, i2, i3, i4, i5⟩ := ih ⟨{ v.a with head := v.a.next i }, write v.mem (v.a.bs * i) (data.take (min data.length v.a.bs))⟩
            (data.drop (min data.length v.a.bs)) ring (chain ++ [(v.a.bs * i, min data.length v.a.bs)]) (i :: used) hs' (by simp; omega)
          refine ⟨(v.a.bs * i, min data.length v.a.bs) :: ext, ?_, ?_, ?_, i4, ?_⟩
          · refine state_perm i1 ?_
            simp only [idxs, List.map_cons, ed, List.cons_append]
            exact List.perm_middle
          · intro c hc
            rcases List.mem_cons.mp hc with rfl | hc
            · exact ⟨by rw [ed], by simp only; omega⟩
            · exact i2 c hc
          · intro j hj k hk
            rw [i3 j (by simp [hj]) k hk]
            exact hsame j hj k hk
          · intro c' h
            obtain ⟨e1, e2⟩ := i5 c' h
            refine ⟨by rw [e1]; simp, ?_⟩
            rw [readChain_cons, e2, i3 i (by simp) _ (by simp only; omega)]
            simp only
            have hr := readAt_write_same v.mem (v.a.bs * i) (data.take (min data.length v.a.bs))
            rw [htl] at hr
            rw [hr, List.take_append_drop]

theorem gatherCopy_spec (mem : Nat → Nat) : ∀ (chain : Chain) (size : Nat),
    (gatherCopy mem size chain).1 = (readChain mem chain).take size ∧ ((gatherCopy mem size chain).2 = true ↔ size ≤ (readChain mem chain).length) := by
  intro chain
  induction chain with
  | nil =>
    intro size
    cases size <;> simp [gatherCopy, readChain]
  | cons c chain ih =>
    obtain ⟨o, k⟩ := c
    intro size
    cases size with
    | zero => simp [gatherCopy]
    | succ size =>
      obtain ⟨i1, i2⟩ := ih (size + 1 - min (size + 1) k)
      rw [readChain_cons, List.take_append, List.length_append, readAt_length]
      refine ⟨?_, ?_⟩
      · rw [gatherCopy]
        simp only
        rw [i1, show size + 1 - min (size + 1) k = size + 1 - k by omega]
        congr 1
        simp [readAt, ← List.map_take, List.take_range]
      · rw [gatherCopy]
        simp only
        rw [i2]
        omega

theorem scatterCopy_spec {bs : Nat} : ∀ (chain : Chain) (mem : Nat → Nat) (data : List Nat), Good bs chain → (idxs bs chain).Nodup →
    readChain (scatterCopy mem data chain).1 chain = data.take (readChain mem chain).length ++ (readChain mem chain).drop data.length ∧
    (∀ blocks : List Nat, (∀ j ∈ blocks, j ∉ idxs bs chain) → Same bs mem (scatterCopy mem data chain).1 blocks) ∧
    ((scatterCopy mem data chain).2 = true ↔ data.length ≤ (readChain mem chain).length) := by
  intro chain
  induction chain with
  | nil =>
    intro mem data _ _
    cases data <;> simp [scatterCopy, readChain, Same]
  | cons c chain ih =>
    obtain ⟨o, k⟩ := c
    intro mem data hg hn
    cases data with
    | nil => simp [scatterCopy, Same]
    | cons d data =>
      rw [scatterCopy]
      obtain ⟨g1, g2⟩ := hg (o, k) (by simp)
      simp only at g1 g2
      have hn' : o / bs ∉ idxs bs chain ∧ (idxs bs chain).Nodup := by
        simpa [idxs] using hn
      generalize hD : d :: data = D
      have htl : (D.take (min D.length k)).length = min D.length k := by simp
      obtain ⟨i1, i2, i3⟩ := ih (write mem o (D.take (min D.length k))) (D.drop (min D.length k)) (fun x hx => hg x (by simp [hx])) hn'.2
      have hrest : readChain (write mem o (D.take (min D.length k))) chain = readChain mem chain := by
        refine readChain_same (bs := bs) (fun x hx => hg x (by simp [hx])) ?_
        intro j hj q hq
        rw [g1]
        refine readAt_write_other mem _ ?_ (by omega) hq
        rintro rfl
        exact hn'.1 hj
      rw [hrest] at i1 i3
      have hfirst : readAt (scatterCopy (write mem o (D.take (min D.length k))) (D.drop (min D.length k)) chain).1 o k =
          D.take (min D.length k) ++ (readAt mem o k).drop (min D.length k) := by
        have := i2 [o / bs] (by simpa using hn'.1) (o / bs) (by simp) k g2
        rw [← g1] at this
        rw [this, readAt_write_prefix mem o k _ (by omega), htl]
      refine ⟨?_, ?_, ?_⟩
      · rw [readChain_cons, readChain_cons, hfirst, i1]
        simp only [List.length_append, readAt_length, List.length_drop]
        rcases Nat.le_total D.length k with hle | hle
        · rw [Nat.min_eq_left hle]
          have e1 : D.take D.length = D := List.take_length
          have e2 : D.drop D.length = [] := List.drop_length
          have e3 : D.take (k + (readChain mem chain).length) = D := List.take_of_length_le (by omega)
          rw [e1, e2, e3, List.take_nil, Nat.sub_self, List.drop_zero, List.nil_append,
            List.drop_append_of_le_length (by rw [readAt_length]; exact hle), List.append_assoc]
        · rw [Nat.min_eq_right hle]
          have e1 : (readAt mem o k).drop k = [] := List.drop_eq_nil_of_le (by rw [readAt_length])
          have e2 : (readAt mem o k ++ readChain mem chain).drop D.length = (readChain mem chain).drop (D.length - k) := by
            rw [List.drop_append, readAt_length, List.drop_eq_nil_of_le (by rw [readAt_length]; exact hle), List.nil_append]
          rw [e1, e2, List.append_nil, ← List.append_assoc, ← List.take_add]
      · intro blocks hbl j hj q hq
        have hj' := hbl j hj
        simp only [idxs, List.map_cons, List.mem_cons, not_or] at hj'
        rw [i2 blocks (fun j hj => by
          have := hbl j hj
          simp only [idxs, List.map_cons, List.mem_cons, not_or] at this
          exact this.2) j hj q hq, g1]
        exact readAt_write_other mem _ (Ne.symm hj'.1) (by omega) hq
      · rw [i3, readChain_cons]
        simp only [List.length_drop, List.length_append, readAt_length]
        omega

theorem collect_spec {m : Machine} : ∀ (chain : Chain) (v : Vq) (room : Nat) (rest : List Nat), State v.a (idxs v.a.bs chain ++ rest) → Good v.a.bs chain →
    (∀ i, i < v.a.n → v.a.base + v.a.bs * i < m.W) → 2 * v.a.n < m.U →
    State (collect m v room chain).1.a rest ∧ (collect m v room chain).1.mem = v.mem ∧
    ((collect m v room chain).1.a.base = v.a.base ∧ (collect m v room chain).1.a.bs = v.a.bs ∧ (collect m v room chain).1.a.n = v.a.n) ∧
    (collect m v room chain).2 = (readChain v.mem chain).take room := by
  intro chain
  induction chain with
  | nil => intro v room rest hs _ _ _; exact ⟨hs, rfl, ⟨rfl, rfl, rfl⟩, by simp [collect, readChain]⟩
  | cons c chain ih =>
    obtain ⟨o, k⟩ := c
    intro v room rest hs hg hw hu
    rw [collect]
    simp only
    obtain ⟨g1, g2⟩ := hg (o, k) (by simp)
    simp only at g1 g2
    have hmem : o / v.a.bs ∈ idxs v.a.bs ((o, k) :: chain) ++ rest := by simp [idxs]
    obtain ⟨f1, f2⟩ := state_free (m := m) hs hmem hw hu
    rw [← g1] at f1
    have hfix := free_fixed m v.a (v.a.base + o)
    rw [← f1] at f2
    have f3 : State (free m v.a (v.a.base + o)) (idxs v.a.bs chain ++ rest) := by
      simpa [idxs] using f2
    obtain ⟨i1, i2, i3, i4⟩ := ih ⟨free m v.a (v.a.base + o), v.mem⟩ (room - min room k) rest
      (by simpa [hfix.2.1] using f3) (by simp only [hfix.2.1]; exact fun x hx => hg x (by simp [hx]))
      (by simp only [hfix.1, hfix.2.1, hfix.2.2]; exact hw) (by simp only [hfix.2.2]; exact hu)
    refine ⟨i1, i2, ⟨i3.1.trans hfix.1, i3.2.1.trans hfix.2.1, i3.2.2.trans hfix.2.2⟩, ?_⟩
    rw [i4, readChain_cons, List.take_append, readAt_length, show room - min room k = room - k by omega]
    congr 1
    simp [readAt, ← List.map_take, List.take_range]

/-! ### Histories -/

/-- The blocks of all messages. -/
def allIdxs (bs : Nat) (ms : List (Nat × Chain)) : List Nat := ms.flatMap fun x => idxs bs x.2

/-- The system agrees with what happened; blocks that failed to be sent are lost. -/
def Agrees (m : Machine) (bs : Nat) (s : Sys) (es : List Event) : Prop :=
  Right es ∧ s.v.a.bs = bs ∧ (∀ i, i < s.v.a.n → s.v.a.base + s.v.a.bs * i < m.W) ∧ 2 * s.v.a.n < m.U ∧
  (s.msgs.map (·.1)).Nodup ∧ (∀ x ∈ s.msgs, x.1 < s.count) ∧ (∀ x ∈ s.msgs, Good bs x.2) ∧
  (∃ lost, State s.v.a (allIdxs bs s.msgs ++ lost) ∧ ((∀ d, .failed d ∉ es) → lost = [])) ∧
  (∀ id, s.count ≤ id → content id es = none) ∧
  ∀ id, content id es = (find id s.msgs).map (readChain s.v.mem)

theorem find_cons (id : Nat) (x : Nat × Chain) (ms : List (Nat × Chain)) : find id (x :: ms) = if x.1 = id then some x.2 else find id ms := by
  unfold find
  rw [List.find?_cons]
  by_cases h : x.1 = id
  · simp [h]
  · rw [if_neg h, beq_eq_false_iff_ne.mpr h]

theorem find_mem {id : Nat} {ms : List (Nat × Chain)} {c : Chain} (h : find id ms = some c) : (id, c) ∈ ms := by
  induction ms with
  | nil => simp [find] at h
  | cons x ms ih =>
    rw [find_cons] at h
    by_cases hx : x.1 = id
    · rw [if_pos hx] at h
      simp only [Option.some.injEq] at h
      subst h
      subst hx
      simp
    · rw [if_neg hx] at h
      exact List.mem_cons_of_mem _ (ih h)

theorem find_filter (i id : Nat) (ms : List (Nat × Chain)) : find id (ms.filter (fun x => !(x.1 == i))) = if i = id then none else find id ms := by
  induction ms with
  | nil => simp [find]
  | cons x ms ih =>
    rw [List.filter_cons]
    by_cases hx : x.1 = i
    · subst hx
      simp only [beq_self_eq_true, Bool.not_true, Bool.false_eq_true, if_false, ih, find_cons]
      by_cases h : x.1 = id
      · simp [h]
      · simp [h]
    · simp only [beq_eq_false_iff_ne.mpr hx, Bool.not_false, if_true, find_cons, ih]
      by_cases h1 : x.1 = id
      · have : ¬ i = id := by omega
        simp [h1, this]
      · simp [h1]

theorem mem_allIdxs {bs : Nat} {ms : List (Nat × Chain)} {x : Nat × Chain} (hx : x ∈ ms) : ∀ j ∈ idxs bs x.2, j ∈ allIdxs bs ms := by
  intro j hj
  exact List.mem_flatMap.mpr ⟨x, hx, hj⟩

theorem allIdxs_split {bs : Nat} {ms : List (Nat × Chain)} {id : Nat} {c : Chain} (hn : (ms.map (·.1)).Nodup) (h : (id, c) ∈ ms) :
    (allIdxs bs ms).Perm (idxs bs c ++ allIdxs bs (ms.filter (fun x => !(x.1 == id)))) := by
  induction ms with
  | nil => cases h
  | cons x ms ih =>
    rw [List.map_cons, List.nodup_cons] at hn
    rw [List.filter_cons]
    rcases List.mem_cons.mp h with h | h
    · subst h
      have : ms.filter (fun x => !(x.1 == id)) = ms := by
        rw [List.filter_eq_self]
        intro y hy
        have : y.1 ≠ id := fun he => hn.1 (List.mem_map.mpr ⟨y, hy, he⟩)
        simp [this]
      simp only [beq_self_eq_true, Bool.not_true, Bool.false_eq_true, if_false, this, allIdxs, List.flatMap_cons]
      exact List.Perm.refl _
    · have hx : x.1 ≠ id := by
        rintro rfl
        exact hn.1 (List.mem_map.mpr ⟨(x.1, c), h, rfl⟩)
      simp only [beq_eq_false_iff_ne.mpr hx, Bool.not_false, if_true, allIdxs, List.flatMap_cons]
      have := ih hn.2 h
      simp only [allIdxs] at this
      refine (List.Perm.append_left (idxs bs x.2) this).trans ?_
      rw [← List.append_assoc, ← List.append_assoc]
      exact List.Perm.append_right _ List.perm_append_comm

theorem step_agrees {m : Machine} {bs : Nat} {s : Sys} {es : List Event} (h : Agrees m bs s es) (a : Act) :
    Agrees m bs (step m s a).1 ((step m s a).2 :: es) := by
  obtain ⟨hr, hbs, hw, hu, hnd, hlt, hg, ⟨lost, hs, hlost⟩, hnew, hc⟩ := h
  have hl : ∀ e : Event, (∀ d, .failed d ∉ e :: es) → lost = [] := fun e h => hlost fun d hd => h d (List.mem_cons_of_mem _ hd)
  have hunknown : Agrees m bs s (.unknown :: es) := ⟨hr, hbs, hw, hu, hnd, hlt, hg, ⟨lost, hs, hl _⟩, hnew, hc⟩
  cases a with
  | send data ring =>
    obtain ⟨ext, i1, i2, i3, ⟨j1, j2, j3⟩, i5⟩ := send_spec data.length s.v data ring [] _ hs (Nat.le_refl _)
    rw [hbs] at i1 i2 i3
    have hw' : ∀ i, i < (send s.v data.length data ring []).1.a.n →
        (send s.v data.length data ring []).1.a.base + (send s.v data.length data ring []).1.a.bs * i < m.W := by
      rw [j1, j2, j3]; exact hw
    have hu' : 2 * (send s.v data.length data ring []).1.a.n < m.U := by rw [j3]; exact hu
    have hkeep : ∀ x ∈ s.msgs, readChain (send s.v data.length data ring []).1.mem x.2 = readChain s.v.mem x.2 := by
      intro x hx
      exact readChain_same (hg x hx) (fun j hj => i3 j (List.mem_append_left _ (mem_allIdxs hx j hj)))
    have hcont : ∀ id, (find id s.msgs).map (readChain (send s.v data.length data ring []).1.mem) = (find id s.msgs).map (readChain s.v.mem) := by
      intro id
      cases hf : find id s.msgs with
      | none => rfl
      | some c => simp only [Option.map_some]; rw [hkeep _ (find_mem hf)]
    simp only [step]
    rcases hsend : send s.v data.length data ring [] with ⟨v', _ | c'⟩
    · rw [hsend] at i1 i3 j2 hcont hw' hu'
      refine ⟨hr, j2.trans hbs, hw', hu', hnd, hlt, hg, ⟨idxs bs ext ++ lost, ?_, fun h => absurd (List.mem_cons_self ..) (h data)⟩, hnew, ?_⟩
      · refine state_perm i1 ?_
        rw [← List.append_assoc, ← List.append_assoc]
        exact List.Perm.append_right _ List.perm_append_comm
      · intro id
        rw [content]
        rw [hcont id, hc id]
        all_goals simp
    · rw [hsend] at i1 i3 j2 i5 hcont hw' hu'
      obtain ⟨e1, e2⟩ := i5 c' rfl
      simp only [List.nil_append] at e1
      subst e1
      refine ⟨hr, j2.trans hbs, hw', hu', ?_, ?_, ?_, ⟨lost, ?_, hl _⟩, ?_, ?_⟩
      · rw [List.map_cons, List.nodup_cons]
        refine ⟨?_, hnd⟩
        intro hm
        obtain ⟨x, hx, he⟩ := List.mem_map.mp hm
        have := hlt x hx
        simp only at he
        omega
      · intro x hx
        rcases List.mem_cons.mp hx with rfl | hx
        · simp
        · have := hlt x hx; simp only; omega
      · intro x hx
        rcases List.mem_cons.mp hx with rfl | hx
        · exact i2
        · exact hg x hx
      · simpa [allIdxs, List.append_assoc] using i1
      · intro id hid
        simp only at hid
        simp only [content]
        rw [if_neg (by omega)]
        exact hnew id (by omega)
      · intro id
        simp only [content, find_cons]
        by_cases h : s.count = id
        · simp only [if_pos h, Option.map_some, e2]
        · simp only [if_neg h]
          rw [hcont id, hc id]
  | receive id size =>
    simp only [step]
    cases hf : find id s.msgs with
    | none => exact hunknown
    | some chain =>
      simp only
      obtain ⟨g1, g2⟩ := gatherCopy_spec s.v.mem chain size
      refine ⟨⟨⟨readChain s.v.mem chain, by rw [hc id, hf]; rfl, g1, g2⟩, hr⟩, hbs, hw, hu, hnd, hlt, hg, ⟨lost, hs, hl _⟩, hnew, hc⟩
  | respond id data =>
    simp only [step]
    cases hf : find id s.msgs with
    | none => exact hunknown
    | some chain =>
      simp only
      have hmem := find_mem hf
      have hsplit := allIdxs_split (bs := bs) hnd hmem
      have hall : (allIdxs bs s.msgs ++ lost).Nodup := state_nodup hs
      have hall2 : (idxs bs chain ++ allIdxs bs (s.msgs.filter (fun x => !(x.1 == id)))).Nodup :=
        hsplit.nodup_iff.mp hall.of_append_left
      obtain ⟨g1, g2, g3⟩ := scatterCopy_spec chain s.v.mem data (hg _ hmem) hall2.of_append_left
      refine ⟨⟨⟨readChain s.v.mem chain, by rw [hc id, hf]; rfl, g3⟩, hr⟩, hbs, hw, hu, hnd, hlt, hg, ⟨lost, hs, hl _⟩, ?_, ?_⟩
      · intro i hi
        simp only [content]
        rw [hnew i hi]
        split <;> rfl
      · intro i
        simp only [content]
        by_cases hi : id = i
        · subst hi
          rw [if_pos rfl, hc id, hf]
          simp only [Option.map_some]
          rw [g1]
        · rw [if_neg hi, hc i]
          cases hfi : find i s.msgs with
          | none => rfl
          | some c =>
            simp only [Option.map_some, Option.some.injEq]
            have hmi := find_mem hfi
            refine (readChain_same (hg _ hmi) (g2 _ ?_)).symm
            intro j hj hjc
            rw [List.nodup_append] at hall2
            refine hall2.2.2 j hjc j ?_ rfl
            exact mem_allIdxs (x := (i, c)) (List.mem_filter.mpr ⟨hmi, by simp; omega⟩) j hj
  | collect id size =>
    simp only [step]
    cases hf : find id s.msgs with
    | none => exact hunknown
    | some chain =>
      simp only
      have hmem := find_mem hf
      have hsplit := allIdxs_split (bs := bs) hnd hmem
      have hs2 : State s.v.a (idxs s.v.a.bs chain ++ (allIdxs bs (s.msgs.filter (fun x => !(x.1 == id))) ++ lost)) := by
        rw [hbs, ← List.append_assoc]
        exact state_perm hs (List.Perm.append_right _ hsplit)
      obtain ⟨k1, k2, ⟨k3, k4, k5⟩, k6⟩ := collect_spec (m := m) chain s.v size _ hs2 (by rw [hbs]; exact hg _ hmem) hw hu
      refine ⟨⟨⟨readChain s.v.mem chain, by rw [hc id, hf]; rfl, k6⟩, hr⟩, k4.trans hbs, by simp only [k3, k4, k5]; exact hw, by simp only [k5]; exact hu,
        ?_, ?_, ?_, ⟨lost, k1, hl _⟩, ?_, ?_⟩
      · exact hnd.sublist (List.Sublist.map _ List.filter_sublist)
      · exact fun x hx => hlt x (List.mem_filter.mp hx).1
      · exact fun x hx => hg x (List.mem_filter.mp hx).1
      · intro i hi
        simp only [content]
        split
        · rfl
        · exact hnew i hi
      · intro i
        simp only [content, find_filter, k2]
        split
        · rfl
        · exact hc i

theorem run_agrees {m : Machine} {bs : Nat} : ∀ (as : List Act) (s : Sys) (es : List Event), Agrees m bs s es →
    Agrees m bs (run m s es as).1 (run m s es as).2 := by
  intro as
  induction as with
  | nil => intro s es h; exact h
  | cons a as ih => intro s es h; exact ih _ _ (step_agrees h a)

theorem start_agrees {m : Machine} {base len bs : Nat} (hf : Fits m base len bs) (mem : Nat → Nat) : Agrees m bs (start base len bs mem) [] := by
  refine ⟨trivial, rfl, ?_, hf.2.2, by simp [start], by simp [start], by simp [start], ⟨[], state_init base len bs hf.1, fun _ => rfl⟩, fun _ _ => rfl, fun _ => rfl⟩
  intro i hi
  have := block_bound (show i < len / bs from hi)
  obtain ⟨f1, f2, _⟩ := hf
  simp only [start, init]
  omega

/-- C57: in every history of sending, receiving, answering and collecting, with any number of messages in
flight, what the device receives and what the driver collects is what the message contains. -/
theorem messages_right (m : Machine) (base len bs : Nat) (hf : Fits m base len bs) (mem : Nat → Nat) (as : List Act) :
    Right (run m (start base len bs mem) [] as).2 :=
  (run_agrees as _ [] (start_agrees hf mem)).1

theorem need_step {bs : Nat} (hb : 0 < bs) {data : List Nat} (h : data ≠ []) : need bs data = need bs (data.drop (min data.length bs)) + 1 := by
  have hpos : 0 < data.length := List.length_pos_iff.mpr h
  unfold need
  rw [List.length_drop]
  rcases Nat.le_total data.length bs with hle | hle
  · rw [Nat.min_eq_left hle, Nat.sub_self, Nat.zero_add, show data.length + bs - 1 = (data.length - 1) + bs by omega,
      Nat.add_div_right _ hb, Nat.div_eq_of_lt (show data.length - 1 < bs by omega), Nat.div_eq_of_lt (show bs - 1 < bs by omega)]
  · rw [Nat.min_eq_right hle, show data.length + bs - 1 = (data.length - bs + bs - 1) + bs by omega, Nat.add_div_right _ hb]

/-- Sending succeeds exactly if there are enough free blocks and enough room in the ring. -/
theorem send_succeeds : ∀ (fuel : Nat) (v : Vq) (data : List Nat) (ring : Nat) (chain : Chain) (used : List Nat), State v.a used → data.length ≤ fuel →
    ((send v fuel data ring chain).2.isSome = true ↔ need v.a.bs data + used.length ≤ v.a.n ∧ need v.a.bs data ≤ ring) := by
  have hle : ∀ (a : Alloc) (used : List Nat), State a used → used.length ≤ a.n := by
    rintro a used ⟨_, fs, _, h⟩
    have := h.length_eq
    rw [List.length_append, List.length_range] at this
    omega
  have hnil : ∀ bs, 0 < bs → need bs [] = 0 := fun bs hb => by
    rw [need, List.length_nil, Nat.zero_add, Nat.div_eq_of_lt (by omega)]
  intro fuel
  induction fuel with
  | zero =>
    intro v data ring chain used hs hd
    have : data = [] := List.length_eq_zero_iff.mp (by omega)
    subst this
    have := hle _ _ hs
    rw [hnil _ hs.1]
    simp [send, this]
  | succ fuel ih =>
    intro v data ring chain used hs hd
    rw [send]
    have hb := hs.1
    by_cases hn : data = []
    · subst hn
      have := hle _ _ hs
      rw [hnil _ hb]
      simp [this]
    · rw [if_neg hn, need_step hb hn]
      have hpos : 0 < data.length := List.length_pos_iff.mpr hn
      rcases state_alloc hs (min data.length v.a.bs) with ⟨h1, h2⟩ | ⟨i, hi, hni, hsz, hlt, h1, hs'⟩
      · simp only [h1]
        constructor
        · intro h; cases h
        · rintro ⟨h, _⟩
          rcases h2 with h2 | h2 <;> omega
      · simp only [h1]
        cases ring with
        | zero =>
          simp
        | succ ring =>
          simp only
          rw [ih _ _ _ _ (i :: used) hs' (by simp; omega)]
          simp only [List.length_cons]
          omega

theorem send_n : ∀ (fuel : Nat) (v : Vq) (data : List Nat) (ring : Nat) (chain : Chain), (send v fuel data ring chain).1.a.n = v.a.n := by
  intro fuel
  induction fuel with
  | zero => intro v data ring chain; rfl
  | succ fuel ih =>
    intro v data ring chain
    rw [send]
    by_cases hn : data = []
    · rw [if_pos hn]
    · rw [if_neg hn]
      cases ha : alloc v.a (min data.length v.a.bs) with
      | none => simp only [ha]
      | some r =>
        simp only [ha]
        cases ring with
        | zero => exact (alloc_fixed ha).2.2
        | succ ring =>
          simp only
          rw [ih]
          exact (alloc_fixed ha).2.2

theorem collect_n (m : Machine) : ∀ (chain : Chain) (v : Vq) (room : Nat), (collect m v room chain).1.a.n = v.a.n := by
  intro chain
  induction chain with
  | nil => intro v room; rfl
  | cons c chain ih =>
    intro v room
    obtain ⟨o, k⟩ := c
    rw [collect]
    simp only
    rw [ih]
    exact (free_fixed m v.a _).2.2

theorem run_n (m : Machine) : ∀ (as : List Act) (s : Sys) (es : List Event), (run m s es as).1.v.a.n = s.v.a.n := by
  intro as
  induction as with
  | nil => intro s es; rfl
  | cons a as ih =>
    intro s es
    rw [run, ih]
    cases a with
    | send data ring =>
      have := send_n data.length s.v data ring []
      simp only [step]
      rcases hsend : send s.v data.length data ring [] with ⟨v', _ | c'⟩ <;> (rw [hsend] at this; exact this)
    | receive id size =>
      simp only [step]
      cases find id s.msgs <;> rfl
    | respond id data =>
      simp only [step]
      cases find id s.msgs <;> rfl
    | collect id size =>
      simp only [step]
      cases find id s.msgs with
      | none => rfl
      | some c => exact collect_n m c s.v size

/-- C57: when no message is in flight and no sending failed, a message can be sent exactly if it fits in
the shared memory and the ring. -/
theorem send_when_idle (m : Machine) (base len bs : Nat) (hf : Fits m base len bs) (mem : Nat → Nat) (as : List Act)
    (hidle : ∀ id, content id (run m (start base len bs mem) [] as).2 = none)
    (hok : ∀ d, .failed d ∉ (run m (start base len bs mem) [] as).2)
    (data : List Nat) (ring : Nat) :
    (∃ id, (step m (run m (start base len bs mem) [] as).1 (.send data ring)).2 = .sent id data) ↔ need bs data ≤ len / bs ∧ need bs data ≤ ring := by
  obtain ⟨_, hbs, _, _, _, _, _, ⟨lost, hs, hlost⟩, _, hc⟩ := run_agrees as _ [] (start_agrees (m := m) hf mem)
  have hm : (run m (start base len bs mem) [] as).1.msgs = [] := by
    cases hmsgs : (run m (start base len bs mem) [] as).1.msgs with
    | nil => rfl
    | cons x xs =>
      have := hc x.1
      rw [hidle, hmsgs, find_cons, if_pos rfl] at this
      cases this
  rw [hm, hlost hok] at hs
  have hss := send_succeeds data.length _ data ring [] _ hs (Nat.le_refl _)
  rw [hbs, run_n m as, show (start base len bs mem).v.a.n = len / bs from rfl] at hss
  simp only [allIdxs, List.flatMap_nil, List.append_nil, List.length_nil, Nat.add_zero] at hss
  rw [← hss]
  simp only [step]
  rcases hsend : send (run m (start base len bs mem) [] as).1.v data.length data ring [] with ⟨v', _ | c'⟩ <;> simp

/-- Two messages of several blocks, answered and collected in the other order. -/
example : (run ⟨1000, 1000⟩ (start 100 20 4 (fun _ => 0)) []
    [.send [1, 2, 3, 4, 5, 6] 9, .send [7, 8, 9] 9, .receive 1 3, .respond 1 [70, 80], .receive 0 6, .respond 0 [10, 20, 30, 40, 50],
     .collect 0 6, .send [11, 12, 13, 14, 15] 9, .collect 1 9, .receive 2 5, .receive 2 6]).2 =
    [.received 2 6 [11, 12, 13, 14, 15] false, .received 2 5 [11, 12, 13, 14, 15] true, .collected 1 9 [70, 80, 9], .sent 2 [11, 12, 13, 14, 15],
     .collected 0 6 [10, 20, 30, 40, 50, 6], .responded 0 [10, 20, 30, 40, 50] true, .received 0 6 [1, 2, 3, 4, 5, 6] true, .responded 1 [70, 80] true,
     .received 1 3 [7, 8, 9] true, .sent 1 [7, 8, 9], .sent 0 [1, 2, 3, 4, 5, 6]] := by
  decide

/-- C57 fails in one respect: a message that does not fit takes all blocks with it, and nothing can be sent
any more, although no message is in flight. -/
theorem failed_send_leaks : (run ⟨1000, 1000⟩ (start 100 8 4 (fun _ => 0)) [] [.send [1, 2, 3, 4, 5, 6, 7, 8, 9] 9, .send [1] 9]).2 =
    [.failed [1], .failed [1, 2, 3, 4, 5, 6, 7, 8, 9]] ∧
    (run ⟨1000, 1000⟩ (start 100 8 4 (fun _ => 0)) [] [.send [1] 9]).2 = [.sent 0 [1]] := by
  decide

end Verif.VqMsg
