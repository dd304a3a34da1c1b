import Verif.DmaCheck.Loops
import Verif.Dma.Props

/-! # C118: the consistency check of the DMA free list -/

namespace Verif.DmaCheck

theorem linked_le (m : Mem) (hm : Machine m) : ∀ (l : List Nat) (h : Nat), h ≤ m.umax → Linked m.next h l →
    ∀ r ∈ l, r ≤ m.umax
  | [], _, _, _, _, hr => by simp at hr
  | a :: l, h, hh, hl, r, hr => by
    obtain ⟨rfl, _, hl'⟩ := hl
    rcases List.mem_cons.1 hr with rfl | hr
    · exact hh
    · exact linked_le m hm l _ (hm.next_le _) hl' r hr

/-- The result on a list that ends. -/
def onList (m : Mem) (l : List Nat) : Res :=
  match l.findSome? (regionBad m) with
  | some w => .fail w
  | none => toRes (firstPair m [] l)

theorem check_list (m : Mem) (l : List Nat) (n head : Nat) (hn : 2 * l.length < n) (hl : Linked m.next head l) :
    check m n head = onList m l := by
  unfold check onList
  cases l with
  | nil =>
    have : head = 0 := hl
    simp [this, firstPair, toRes]
  | cons a l =>
    have hd := linked_nodup m.next _ _ hl
    have hr := regions_eq m _ n head (by omega) hl
    have ho := outer_eq m head (a :: l) [] n head (by simp at hn ⊢; omega) hl hd hl
    have hl0 := hl
    obtain ⟨rfl, h0, hl'⟩ := hl0
    have hb := brent_pass m l n head (m.next head) 1 1 (by simp at hn; omega) hl' (List.nodup_cons.1 hd).1
    rw [if_neg h0, hb, hr, ho]
    cases hf : (head :: l).findSome? (regionBad m) <;> rfl

theorem onList_pass {m : Mem} (hm : Machine m) (l : List Nat) (head : Nat) (hh : head ≤ m.umax)
    (hl : Linked m.next head l) : onList m l = .pass ↔ (∀ r ∈ l, Sound m r) ∧ l.Pairwise (Separate m) := by
  have hle := linked_le m hm l head hh hl
  unfold onList
  cases hf : l.findSome? (regionBad m) with
  | some w =>
    simp only [reduceCtorEq, false_iff]
    rintro ⟨h1, -⟩
    obtain ⟨r, hr, hb⟩ := List.exists_of_findSome?_eq_some hf
    rw [(regionBad_none hm r (hle r hr)).2 (h1 r hr)] at hb
    cases hb
  | none =>
    have hs : ∀ r ∈ l, Sound m r := fun r hr =>
      (regionBad_none hm r (hle r hr)).1 (List.findSome?_eq_none_iff.1 hf r hr)
    have hres : toRes (firstPair m [] l) = .pass ↔ firstPair m [] l = none := by
      cases firstPair m [] l <;> simp [toRes]
    simp only
    rw [hres, firstPair_none]
    have hsym : ∀ p r, Separate m r p → Separate m p r := by
      rintro p r ⟨h1, h2⟩
      exact ⟨fun x hx => h1 x ⟨hx.2, hx.1⟩, fun x hx => h2 x ⟨hx.2, hx.1⟩⟩
    constructor
    · rintro ⟨-, h⟩
      refine ⟨hs, ?_⟩
      exact List.Pairwise.imp_of_mem (fun {p r} hp hr hb => hsym _ _ ((pairBad_none hm r p (hs r hr) (hs p hp)).1 hb)) h
    · rintro ⟨-, h⟩
      refine ⟨by simp, ?_⟩
      exact List.Pairwise.imp_of_mem (fun {p r} hp hr hb => (pairBad_none hm r p (hs r hr) (hs p hp)).2 (hsym _ _ hb)) h

theorem onList_fail {m : Mem} (hm : Machine m) (l : List Nat) (head : Nat) (hh : head ≤ m.umax)
    (hl : Linked m.next head l) (w : Why) (h : onList m l = .fail w) : Defect m head w := by
  have hle := linked_le m hm l head hh hl
  unfold onList at h
  cases hf : l.findSome? (regionBad m) with
  | some v =>
    rw [hf] at h
    simp only [Res.fail.injEq] at h
    subst h
    obtain ⟨r, hr, hb⟩ := List.exists_of_findSome?_eq_some hf
    have hd := regionBad_some hm r (hle r hr) v hb
    cases v <;> first | exact absurd hd id | exact ⟨l, hl, r, hr, hd⟩
  | none =>
    rw [hf] at h
    have hs : ∀ r ∈ l, Sound m r := fun r hr =>
      (regionBad_none hm r (hle r hr)).1 (List.findSome?_eq_none_iff.1 hf r hr)
    simp only at h
    cases hp : firstPair m [] l with
    | none => rw [hp] at h; cases h
    | some v =>
      rw [hp] at h
      simp only [toRes, Res.fail.injEq] at h
      subst h
      obtain ⟨r, hr, p, hp', hne, hb⟩ := firstPair_some m v l [] (linked_nodup m.next l head hl) hp
      have hd := pairBad_some hm r p (hs r hr) (hs p hp') v hb
      cases v <;> first | exact absurd hd id | exact ⟨l, hl, r, hr, p, hp', hne, hd⟩

theorem ends_unique {m : Mem} {head : Nat} {x y : Res} (h1 : Ends m head x) (h2 : Ends m head y) : x = y := by
  obtain ⟨a, ha⟩ := h1
  obtain ⟨b, hb⟩ := h2
  rw [← ha (max a b) (Nat.le_max_left _ _), hb (max a b) (Nat.le_max_right _ _)]

theorem ends_list (m : Mem) (l : List Nat) (head : Nat) (hl : Linked m.next head l) : Ends m head (onList m l) :=
  ⟨2 * l.length + 1, fun k hk => check_list m l k head (by omega) hl⟩

theorem ends_cycle {m : Mem} (hm : Machine m) (head : Nat) (hno : ∀ l, ¬ Linked m.next head l) :
    Ends m head (.fail .cycle) := by
  obtain ⟨n, hn⟩ := brent_cycle m hm.next_le head hno
  refine ⟨n, fun k hk => ?_⟩
  have h0 : head ≠ 0 := fun e => hno [] e
  unfold check
  rw [if_neg h0, hn k hk]

/-! ## The theorems -/

/-- C118: whatever is in memory, the check comes to an end, and it does so in one way only: it passes or
an assertion fails. -/
theorem check_ends (m : Mem) (hm : Machine m) (head : Nat) :
    (Ends m head .pass ∨ ∃ w, Ends m head (.fail w)) ∧ ∀ x y, Ends m head x → Ends m head y → x = y := by
  refine ⟨?_, fun x y => ends_unique⟩
  by_cases h : ∃ l, Linked m.next head l
  · obtain ⟨l, hl⟩ := h
    have he := ends_list m l head hl
    have : onList m l = .pass ∨ ∃ w, onList m l = .fail w := by
      unfold onList
      cases l.findSome? (regionBad m) with
      | some w => exact Or.inr ⟨w, rfl⟩
      | none => cases firstPair m [] l with
        | some w => exact Or.inr ⟨w, rfl⟩
        | none => exact Or.inl rfl
    rcases this with h1 | ⟨w, h1⟩
    · exact Or.inl (h1 ▸ he)
    · exact Or.inr ⟨w, h1 ▸ he⟩
  · exact Or.inr ⟨.cycle, ends_cycle hm head (fun l hl => h ⟨l, hl⟩)⟩

/-- C118: the check passes exactly if the free list is sound: it ends, every region is sound, and no two
regions share memory. -/
theorem check_exact (m : Mem) (hm : Machine m) (head : Nat) (hh : head ≤ m.umax) :
    Ends m head .pass ↔ SoundList m head := by
  constructor
  · intro he
    by_cases h : ∃ l, Linked m.next head l
    · obtain ⟨l, hl⟩ := h
      have := ends_unique (ends_list m l head hl) he
      exact ⟨l, hl, (onList_pass hm l head hh hl).1 this⟩
    · have := ends_unique (ends_cycle hm head (fun l hl => h ⟨l, hl⟩)) he
      cases this
  · rintro ⟨l, hl, h⟩
    have := ends_list m l head hl
    rw [(onList_pass hm l head hh hl).2 h] at this
    exact this

/-- C118: the assertion that fails names a defect that is there. -/
theorem report_true (m : Mem) (hm : Machine m) (head : Nat) (hh : head ≤ m.umax) (w : Why)
    (h : Ends m head (.fail w)) : Defect m head w := by
  by_cases hex : ∃ l, Linked m.next head l
  · obtain ⟨l, hl⟩ := hex
    exact onList_fail hm l head hh hl w (ends_unique (ends_list m l head hl) h)
  · have hno : ∀ l, ¬ Linked m.next head l := fun l hl => hex ⟨l, hl⟩
    have := ends_unique (ends_cycle hm head hno) h
    cases this
    exact hno

/-- C118: a list that does not end is always reported as such, before anything else is looked at. -/
theorem cycle_reported (m : Mem) (hm : Machine m) (head : Nat) (hno : ∀ l, ¬ Linked m.next head l) :
    Ends m head (.fail .cycle) := ends_cycle hm head hno

/-- C118: if the list ends, `2 * length + 1` rounds of each loop are enough. -/
theorem rounds_enough (m : Mem) (head : Nat) (l : List Nat) (hl : Linked m.next head l) (n k : Nat)
    (hn : 2 * l.length < n) (hk : 2 * l.length < k) : check m n head = check m k head := by
  rw [check_list m l n head hn hl, check_list m l k head hk hl]

/-- C118: that physical addresses which the check looks up are kept in the nodes makes no difference: with
the record of any nodes filled in, every physical address reads the same. -/
theorem saving_changes_nothing (m : Mem) (hm : Machine m) (saved : Nat → Bool) (n head : Nat) :
    check { m with pu := fun a => if saved a then m.lookup a / 4096 else m.pu a } n head = check m n head := by
  have hm' : Machine { m with pu := fun a => if saved a then m.lookup a / 4096 else m.pu a } := by
    refine ⟨hm.next_le, hm.node_pos, hm.lookup_le, hm.page, fun a => ?_⟩
    simp only
    split
    · exact Or.inr rfl
    · exact hm.recorded a
  have hx : extract { m with pu := fun a => if saved a then m.lookup a / 4096 else m.pu a } = extract m := by
    funext r
    rcases Nat.lt_or_ge (m.lookup r) 4096 with h | h
    · rw [extract_none hm r h, extract_none hm' r h]
    · rw [extract_some hm r h, extract_some hm' r h]
  generalize hg : ({ m with pu := fun a => if saved a then m.lookup a / 4096 else m.pu a } : Mem) = m' at *
  have hnext : m'.next = m.next := by rw [← hg]
  have hsize : m'.size = m.size := by rw [← hg]
  have hnode : m'.node = m.node := by rw [← hg]
  have humax : m'.umax = m.umax := by rw [← hg]
  have hb : ∀ n t h p la, brent m' n t h p la = brent m n t h p la := by
    intro n
    induction n with
    | zero => intros; rfl
    | succ n ih => intro t h p la; simp only [brent, ih, hnext]
  have hrb : regionBad m' = regionBad m := by
    funext r
    simp only [regionBad, hx, hsize, hnode, humax]
  have hr : ∀ n r, regions m' n r = regions m n r := by
    intro n
    induction n with
    | zero => intros; rfl
    | succ n ih => intro r; simp only [regions, ih, hnext, hrb]
  have hpb : pairBad m' = pairBad m := by
    funext r p
    simp only [pairBad, hx, hsize, meets, wrap, humax]
    cases extract m r <;> cases extract m p <;> rfl
  have hi : ∀ r n p, inner m' r n p = inner m r n p := by
    intro r n
    induction n with
    | zero => intros; rfl
    | succ n ih => intro p; simp only [inner, ih, hnext, hpb]
  have ho : ∀ n r, outer m' head n r = outer m head n r := by
    intro n
    induction n with
    | zero => intros; rfl
    | succ n ih => intro r; simp only [outer, ih, hnext, hi]
  simp only [check, hb, hr, ho, hnext]

/-! ## The allocator keeps to it -/

/-- The memory holds the free list `free` of the allocator. -/
def Holds (m : Mem) (head : Nat) (free : List Verif.Dma.Region) : Prop :=
  Linked m.next head (free.map (·.vaddr)) ∧ ∀ r ∈ free, m.size r.vaddr = r.size ∧ m.pu r.vaddr = r.pu

/-- C118 and C43: in every history of the allocator the check passes, if the memory that was given to it
lies within the address space, outside physical frame 0, and no two bytes of it are at the same physical
address. -/
theorem allocator_passes (e : Verif.Dma.Env) (he : Verif.Dma.EnvOk e) (J : (Nat → Bool) → Prop) (s : Verif.Dma.State)
    (hs : Verif.Dma.Reachable e J s) (m : Mem) (hm : Machine m) (head : Nat) (hh : head ≤ m.umax)
    (hlook : m.lookup = e.paddr) (hnode : m.node = e.R) (hold : Holds m head s.free)
    (hvirt : ∀ x, Verif.Dma.count x s.given ≠ 0 → x < m.umax)
    (hphys : ∀ x, Verif.Dma.count x s.given ≠ 0 → 4096 ≤ e.paddr x ∧ e.paddr x < m.umax)
    (hinj : ∀ x y, Verif.Dma.count x s.given ≠ 0 → Verif.Dma.count y s.given ≠ 0 → e.paddr x = e.paddr y → x = y) :
    Ends m head .pass := by
  rw [check_exact m hm head hh]
  have hinv := Verif.Dma.reachable_inv he J s hs
  have hpart := (Verif.Dma.pool_partition he J s hs).2.2
  have hgiven : ∀ r ∈ s.free, ∀ x, r.vaddr ≤ x → x < r.vaddr + r.size → Verif.Dma.count x s.given ≠ 0 := by
    intro r hr x h1 h2
    rw [← hinv.partition x]
    have := Verif.Dma.count_pos (x := x) (l := Verif.Dma.freeBlocks s.free) (b := (r.vaddr, r.size))
      (List.mem_map.2 ⟨r, hr, rfl⟩) ⟨h1, h2⟩
    omega
  refine ⟨_, hold.1, ?_, ?_⟩
  · intro a ha
    obtain ⟨r, hr, rfl⟩ := List.mem_map.1 ha
    have hok := hinv.free r hr
    have hsz := (hold.2 r hr).1
    have hpos : 0 < r.size := Nat.lt_of_lt_of_le he.R_pos hok.large
    have hfirst := hgiven r hr r.vaddr (Nat.le_refl _) (by omega)
    have hlast := hgiven r hr (r.vaddr + (r.size - 1)) (by omega) (by omega)
    have hc := hok.contiguous (r.size - 1) (by omega)
    have h1 := hphys _ hfirst
    have h2 := hphys _ hlast
    have h3 := hvirt _ hlast
    refine ⟨by rw [hlook]; exact h1.1, by rw [hnode, hsz]; exact hok.large, by rw [hsz]; omega, ?_⟩
    rw [hlook, hsz]
    omega
  · rw [List.pairwise_map]
    have hfree : (Verif.Dma.freeBlocks s.free).Pairwise Verif.Dma.Apart := (List.pairwise_append.1 hpart).1
    unfold Verif.Dma.freeBlocks at hfree
    rw [List.pairwise_map] at hfree
    refine List.Pairwise.imp_of_mem (fun {a b} ha hb hab => ?_) hfree
    have hsa := (hold.2 a ha).1
    have hsb := (hold.2 b hb).1
    refine ⟨?_, ?_⟩
    · intro x hx
      rw [hsa, hsb] at hx
      exact hab x hx
    · intro x hx
      rw [hsa, hsb, hlook] at hx
      obtain ⟨⟨a1, a2⟩, b1, b2⟩ := hx
      have ca := (hinv.free a ha).contiguous (x - e.paddr a.vaddr) (by omega)
      have cb := (hinv.free b hb).contiguous (x - e.paddr b.vaddr) (by omega)
      have heq := hinj _ _ (hgiven a ha (a.vaddr + (x - e.paddr a.vaddr)) (by omega) (by omega))
        (hgiven b hb (b.vaddr + (x - e.paddr b.vaddr)) (by omega) (by omega)) (by omega)
      exact hab (a.vaddr + (x - e.paddr a.vaddr)) ⟨⟨by omega, by omega⟩, by omega, by omega⟩

/-! ## Examples -/

/-- A free list of two regions, at 0x10000 and 0x20000, and beside it a circle of two and regions that
are not sound. -/
def demoMem : Mem where
  umax := 2 ^ 32 - 1
  node := 32
  next a := if a = 65536 then 131072 else if a = 4 then 8 else if a = 8 then 12 else if a = 12 then 8
    else if a = 69632 then 65536 else 0
  size a := if a = 65536 then 8192 else if a = 16384 then 16 else if a = 20480 then 0
    else if a = 4294963200 then 8192 else 64
  pu a := if a = 65536 then 16 else 0
  lookup a := a

theorem demo_machine : Machine demoMem := by
  refine ⟨fun a => ?_, by decide, fun a h => h, fun a => rfl, fun a => ?_⟩
  · simp only [demoMem]
    split_ifs <;> omega
  · simp only [demoMem]
    split_ifs with h1
    · right; subst h1; rfl
    · left; rfl

/-- Two regions that touch nothing of each other: the check passes, and the list is sound. -/
theorem demo_pass : check demoMem 5 65536 = .pass ∧ SoundList demoMem 65536 := by
  have hl : Linked demoMem.next 65536 [65536, 131072] := ⟨rfl, by decide, rfl, by decide, rfl⟩
  have hp : check demoMem 5 65536 = .pass := by decide +kernel
  refine ⟨hp, (check_exact demoMem demo_machine 65536 (by decide)).1 ⟨5, fun k hk => ?_⟩⟩
  rw [rounds_enough demoMem 65536 _ hl k 5 (by simp; omega) (by simp)]
  exact hp

/-- Each defect is reported: a circle that does not contain the head, frame 0, no size, a small size, the
end of the address space, and an overlap. -/
theorem demo_fail : check demoMem 9 4 = .fail .cycle ∧ check demoMem 9 64 = .fail .unknown ∧
    check demoMem 9 20480 = .fail .empty ∧ check demoMem 9 16384 = .fail .small ∧
    check demoMem 9 4294963200 = .fail .virtOver ∧ check demoMem 9 69632 = .fail .virtOverlap := by
  decide +kernel

/-- The hypotheses of `allocator_passes` are met: the allocator has been given one page. -/
theorem demo_allocator :
    Ends { demoMem with next := fun _ => 0, size := fun _ => 4096, pu := fun _ => 0 } 4096 .pass := by
  have hmem : ∀ x, Verif.Dma.count x [(4096, 4096)] ≠ 0 → 4096 ≤ x ∧ x < 8192 := by
    intro x hx
    simp only [Verif.Dma.count] at hx
    split_ifs at hx with h
    · omega
    · exact absurd rfl hx
  refine allocator_passes Verif.Dma.demoEnv Verif.Dma.demoEnv_ok (fun _ => True) _ (Verif.Dma.demo_init _) _
    ⟨fun a => Nat.zero_le _, by decide, fun a h => h, fun a => rfl, fun a => Or.inl rfl⟩ 4096 (by decide) rfl rfl
    ⟨⟨rfl, by decide, rfl⟩, ?_⟩ ?_ ?_ ?_
  · intro r hr
    simp at hr
    subst hr
    exact ⟨rfl, rfl⟩
  · intro x hx
    have := hmem x hx
    simp only [demoMem]
    omega
  · intro x hx
    have := hmem x hx
    simp only [demoMem, Verif.Dma.demoEnv, id]
    omega
  · exact fun x y _ _ h => h

end Verif.DmaCheck
