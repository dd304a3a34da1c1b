import Verif.DmaPtr.Spec
import Verif.Dma.Props

/-! # Steps: lists of nodes in the memory -/

namespace Verif.DmaPtr

open Verif.Dma (Env Region EnvOk RegOk fcount ind count Contiguous freeBlocks fcount_append fcount_cons fcount_nil count_pos
  follows precedes findPartner)

/-- The node of a region. -/
structure Node (e : Env) (l : Lay) (m : Mem) (r : Region) : Prop where
  size : size l m r.vaddr = r.size
  flag : flag l m r.vaddr = r.cached
  pu : pu l m r.vaddr = 0 ∨ pu l m r.vaddr = e.paddr r.vaddr / 4096

/-- A part of the list, from the pointer `a` to the pointer `b`. -/
def Seg (l : Lay) (m : Mem) : Nat → List Region → Nat → Prop
  | a, [], b => a = b
  | a, r :: rs, b => a = r.vaddr ∧ Seg l m (next l m r.vaddr) rs b

/-- The memory contains the free list. -/
structure Rep (e : Env) (l : Lay) (m : Mem) (free : List Region) : Prop where
  seg : Seg l m m.head free 0
  node : ∀ r ∈ free, Node e l m r

/-- A free list that is all right. -/
structure Good (e : Env) (free : List Region) : Prop where
  reg : ∀ r ∈ free, RegOk e r
  phys : ∀ r ∈ free, 4096 ≤ e.paddr r.vaddr
  once : ∀ x, fcount x free ≤ 1

/-- Nothing outside of the free blocks has changed. -/
def Within (m m' : Mem) (free : List Region) : Prop := ∀ x, fcount x free = 0 → m'.cell x = m.cell x

/-- Two nodes do not overlap. -/
def Sep (R a b : Nat) : Prop := a + R ≤ b ∨ b + R ≤ a

/-- The address of the last node. -/
def lastAddr (a : List Region) : Nat := match a.getLast? with
  | none => 0
  | some r => r.vaddr

theorem lastAddr_nil : lastAddr [] = 0 := rfl

theorem lastAddr_concat (a : List Region) (r : Region) : lastAddr (a ++ [r]) = r.vaddr := by simp [lastAddr]

theorem snoc_cases (a : List Region) : a = [] ∨ ∃ b r, a = b ++ [r] := by
  rcases List.eq_nil_or_concat a with h | ⟨b, r, h⟩
  · exact .inl h
  · exact .inr ⟨b, r, by rw [h, List.concat_eq_append]⟩

theorem lastAddr_mem {a : List Region} (h : a ≠ []) : ∃ r ∈ a, lastAddr a = r.vaddr := by
  rcases snoc_cases a with h' | ⟨b, r, rfl⟩
  · exact absurd h' h
  · exact ⟨r, by simp, lastAddr_concat b r⟩

theorem lastAddr_append {a b : List Region} (h : b ≠ []) : lastAddr (a ++ b) = lastAddr b := by
  rcases snoc_cases b with h' | ⟨c, r, rfl⟩
  · exact absurd h' h
  · rw [← List.append_assoc, lastAddr_concat, lastAddr_concat]

theorem cell_set (m : Mem) (a v x : Nat) : (m.set a v).cell x = if x = a then v else m.cell x := rfl

theorem head_set (m : Mem) (a v : Nat) : (m.set a v).head = m.head := rfl

/-! ### Regions of a free list -/

theorem mem_fcount {r : Region} {free : List Region} (hr : r ∈ free) {x : Nat} (h : r.vaddr ≤ x ∧ x < r.vaddr + r.size) : 1 ≤ fcount x free :=
  count_pos (b := (r.vaddr, r.size)) (List.mem_map.mpr ⟨r, hr, rfl⟩) h

/-- Two different regions of a free list have no byte in common. -/
theorem Good.disj {e : Env} (he : EnvOk e) {a b : List Region} {p : Region} (h : Good e (a ++ p :: b)) :
    ∀ r ∈ a ++ b, p.vaddr + p.size ≤ r.vaddr ∨ r.vaddr + r.size ≤ p.vaddr := by
  intro r hr
  have hR := he.R_pos
  have h1 := (h.reg p (by simp)).large
  have h2 := (h.reg r (by rcases List.mem_append.mp hr with h | h <;> simp [h])).large
  by_contra hc
  have key : ∀ x, p.vaddr ≤ x → x < p.vaddr + p.size → r.vaddr ≤ x → x < r.vaddr + r.size → False := by
    intro x x1 x2 x3 x4
    have h3 := h.once x
    have h4 := mem_fcount hr ⟨x3, x4⟩
    rw [fcount_append] at h4
    rw [fcount_append, fcount_cons, ind, if_pos ⟨x1, x2⟩] at h3
    omega
  by_cases hle : p.vaddr ≤ r.vaddr
  · exact key r.vaddr hle (by omega) (by omega) (by omega)
  · exact key p.vaddr (by omega) (by omega) (by omega) (by omega)

theorem Good.sub {e : Env} {free free' : List Region} (h : Good e free) (h1 : ∀ r ∈ free', r ∈ free)
    (h2 : ∀ x, fcount x free' ≤ fcount x free) : Good e free' :=
  ⟨fun r hr => h.reg r (h1 r hr), fun r hr => h.phys r (h1 r hr), fun x => Nat.le_trans (h2 x) (h.once x)⟩

theorem Good.nsep {e : Env} (he : EnvOk e) : ∀ {free : List Region}, Good e free →
    free.Pairwise (fun r s => Sep e.R r.vaddr s.vaddr) := by
  intro free
  induction free with
  | nil => intro _; exact .nil
  | cons p ps ih =>
    intro h
    refine List.pairwise_cons.mpr ⟨?_, ih (h.sub (fun r hr => by simp [hr]) (fun x => by rw [fcount_cons]; omega))⟩
    intro r hr
    have h1 := (h.reg p (by simp)).large
    have h2 := (h.reg r (by simp [hr])).large
    have := Good.disj he (a := []) h r (by simpa using hr)
    unfold Sep
    omega

theorem Good.sep {e : Env} (he : EnvOk e) {a b : List Region} {p : Region} (h : Good e (a ++ p :: b)) :
    ∀ r ∈ a ++ b, Sep e.R p.vaddr r.vaddr := by
  intro r hr
  have h1 := (h.reg p (by simp)).large
  have h2 := (h.reg r (by rcases List.mem_append.mp hr with h | h <;> simp [h])).large
  have := h.disj he r hr
  unfold Sep
  omega

theorem Good.nz {e : Env} {free : List Region} (h : Good e free) {r : Region} (hr : r ∈ free) : r.vaddr ≠ 0 := by
  have := (h.reg r hr).pos; omega

/-! ### Parts of the list -/

theorem seg_append {l : Lay} {m : Mem} : ∀ {a : List Region} {x z : Nat} {b : List Region},
    Seg l m x (a ++ b) z ↔ ∃ y, Seg l m x a y ∧ Seg l m y b z := by
  intro a
  induction a with
  | nil => intro x z b; simp [Seg]
  | cons r a ih =>
    intro x z b
    simp only [List.cons_append, Seg, ih]
    constructor
    · rintro ⟨h, y, h1, h2⟩; exact ⟨y, ⟨h, h1⟩, h2⟩
    · rintro ⟨y, ⟨h, h1⟩, h2⟩; exact ⟨h, y, h1, h2⟩

theorem seg_frame {l : Lay} {m m' : Mem} : ∀ {a : List Region} {x z : Nat},
    (∀ r ∈ a, next l m' r.vaddr = next l m r.vaddr) → Seg l m x a z → Seg l m' x a z := by
  intro a
  induction a with
  | nil => intro x z _ h; exact h
  | cons r a ih =>
    intro x z hn h
    refine ⟨h.1, ?_⟩
    rw [hn r (by simp)]
    exact ih (fun r hr => hn r (by simp [hr])) h.2

/-- Changing the pointer to what comes after `prev`. -/
def link (l : Lay) (m : Mem) (prev v : Nat) : Mem := if prev = 0 then { m with head := v } else m.set (prev + l.n) v

theorem remove_eq (l : Lay) (m : Mem) (prev p : Nat) : remove l m prev p = link l m prev (next l m p) := rfl

theorem replace_eq (l : Lay) (m : Mem) (prev p r : Nat) : replace l m prev p r = link l (m.set (r + l.n) (next l m p)) prev r := rfl

theorem link_cell (l : Lay) (m : Mem) (prev v x : Nat) (h : x ≠ prev + l.n) : (link l m prev v).cell x = m.cell x := by
  unfold link
  split
  · rfl
  · rw [cell_set, if_neg h]

theorem seg_link {e : Env} {l : Lay} (hl : LayOk e l) {m : Mem} {a : List Region} {c v : Nat} (h : Seg l m m.head a c)
    (hnz : ∀ r ∈ a, r.vaddr ≠ 0) (hs : a.Pairwise (fun r s => Sep e.R r.vaddr s.vaddr)) :
    Seg l (link l m (lastAddr a) v) (link l m (lastAddr a) v).head a v := by
  rcases snoc_cases a with rfl | ⟨b, r, rfl⟩
  · simp [lastAddr, link, Seg]
  · rw [lastAddr_concat]
    have hr := hnz r (by simp)
    obtain ⟨y, h1, h2⟩ := seg_append.mp h
    obtain ⟨_, _, h3⟩ := List.pairwise_append.mp hs
    have hn := hl.n_lt
    simp only [link, if_neg hr, head_set]
    refine seg_append.mpr ⟨y, ?_, h2.1, ?_⟩
    · refine seg_frame ?_ h1
      intro s hsb
      have := h3 s hsb r (by simp)
      unfold Sep at this
      simp only [next, cell_set]
      rw [if_neg (by omega)]
    · simp only [Seg, next, cell_set, if_true]

/-! ### Changing a node -/

theorem Node.frame {e : Env} {l : Lay} (hl : LayOk e l) {m m' : Mem} {r : Region} (h : Node e l m r)
    (hc : ∀ k < e.R, k ≠ l.n → m'.cell (r.vaddr + k) = m.cell (r.vaddr + k)) : Node e l m' r := by
  have h1 := hc l.c hl.c_lt hl.cn
  have h2 := hc l.s hl.s_lt hl.sn
  have h3 := hc l.p hl.p_lt (fun h => hl.np h.symm)
  refine ⟨?_, ?_, ?_⟩
  · have := h.size; simp only [DmaPtr.size] at this ⊢; rw [h2]; exact this
  · have := h.flag; simp only [DmaPtr.flag] at this ⊢; rw [h1]; exact this
  · have := h.pu; simp only [DmaPtr.pu] at this ⊢; rw [h3]; exact this

/-- A change outside of the nodes of the list. -/
theorem Rep.frame {e : Env} {l : Lay} (hl : LayOk e l) {m m' : Mem} {free : List Region} (h : Rep e l m free) (hh : m'.head = m.head)
    (hc : ∀ r ∈ free, ∀ k < e.R, m'.cell (r.vaddr + k) = m.cell (r.vaddr + k)) : Rep e l m' free := by
  refine ⟨?_, fun r hr => (h.node r hr).frame hl (fun k hk _ => hc r hr k hk)⟩
  rw [hh]
  exact seg_frame (fun r hr => hc r hr l.n hl.n_lt) h.seg

/-- A change of one node that keeps its pointer. -/
theorem Rep.node_set {e : Env} {l : Lay} (he : EnvOk e) (hl : LayOk e l) {m : Mem} {a b : List Region} {p p' : Region}
    (h : Rep e l m (a ++ p :: b)) (hg : Good e (a ++ p :: b)) {k v : Nat} (hk : k < e.R) (hkn : k ≠ l.n) (hv : p'.vaddr = p.vaddr)
    (hn : Node e l (m.set (p.vaddr + k) v) p') : Rep e l (m.set (p.vaddr + k) v) (a ++ p' :: b) := by
  have hsep := hg.sep he
  have hn' := hl.n_lt
  have hother : ∀ r ∈ a ++ b, ∀ j < e.R, (m.set (p.vaddr + k) v).cell (r.vaddr + j) = m.cell (r.vaddr + j) := by
    intro r hr j hj
    have := hsep r hr
    unfold Sep at this
    rw [cell_set, if_neg (by omega)]
  obtain ⟨y, h1, h2⟩ := seg_append.mp h.seg
  refine ⟨?_, ?_⟩
  · rw [head_set]
    refine seg_append.mpr ⟨y, seg_frame (fun r hr => hother r (by simp [hr]) l.n hn') h1, ?_, ?_⟩
    · rw [hv]; exact h2.1
    · rw [hv]
      have : next l (m.set (p.vaddr + k) v) p.vaddr = next l m p.vaddr := by
        simp only [next, cell_set]; rw [if_neg (by omega)]
      rw [this]
      exact seg_frame (fun r hr => hother r (by simp [hr]) l.n hn') h2.2
  · intro r hr
    rcases List.mem_append.mp hr with hr | hr
    · exact (h.node r (by simp [hr])).frame hl (fun j hj _ => hother r (by simp [hr]) j hj)
    · rcases List.mem_cons.mp hr with rfl | hr
      · exact hn
      · exact (h.node r (by simp [hr])).frame hl (fun j hj _ => hother r (by simp [hr]) j hj)

theorem Rep.set_size {e : Env} {l : Lay} (he : EnvOk e) (hl : LayOk e l) {m : Mem} {a b : List Region} {p : Region}
    (h : Rep e l m (a ++ p :: b)) (hg : Good e (a ++ p :: b)) (v : Nat) :
    Rep e l (m.set (p.vaddr + l.s) v) (a ++ { p with size := v } :: b) := by
  refine h.node_set he hl hg hl.s_lt hl.sn rfl ?_
  have hn := h.node p (by simp)
  have h1 := hl.cs
  have h2 := hl.sp
  refine ⟨?_, ?_, ?_⟩
  · simp [DmaPtr.size, cell_set]
  · have := hn.flag; simp only [DmaPtr.flag, cell_set] at this ⊢; rw [if_neg (by omega)]; exact this
  · have := hn.pu; simp only [DmaPtr.pu, cell_set] at this ⊢; rw [if_neg (by omega)]; exact this

theorem Rep.set_pu {e : Env} {l : Lay} (he : EnvOk e) (hl : LayOk e l) {m : Mem} {a b : List Region} {p : Region}
    (h : Rep e l m (a ++ p :: b)) (hg : Good e (a ++ p :: b)) :
    Rep e l (m.set (p.vaddr + l.p) (e.paddr p.vaddr / 4096)) (a ++ p :: b) := by
  refine h.node_set he hl hg hl.p_lt (fun h => hl.np h.symm) rfl ?_
  have hn := h.node p (by simp)
  have h1 := hl.cp
  have h2 := hl.sp
  refine ⟨?_, ?_, ?_⟩
  · have := hn.size; simp only [DmaPtr.size, cell_set] at this ⊢; rw [if_neg (by omega)]; exact this
  · have := hn.flag; simp only [DmaPtr.flag, cell_set] at this ⊢; rw [if_neg (by omega)]; exact this
  · right; simp [DmaPtr.pu, cell_set]

/-! ### Changing the list -/

/-- Letting the first part of the list go on with another part. -/
theorem Rep.relink {e : Env} {l : Lay} (he : EnvOk e) (hl : LayOk e l) {m : Mem} {a b : List Region} {y v : Nat}
    (h1 : Seg l m m.head a y) (h2 : Seg l m v b 0) (hn : ∀ r ∈ a ++ b, Node e l m r) (hg : Good e (a ++ b)) :
    Rep e l (link l m (lastAddr a) v) (a ++ b) := by
  obtain ⟨n1, n2, n3⟩ := List.pairwise_append.mp (hg.nsep he)
  have hn' := hl.n_lt
  refine ⟨?_, ?_⟩
  · refine seg_append.mpr ⟨v, seg_link hl h1 (fun r hr => hg.nz (by simp [hr])) n1, ?_⟩
    refine seg_frame ?_ h2
    intro r hr
    rcases Classical.em (a = []) with rfl | hne
    · rfl
    · obtain ⟨z, hz, hz'⟩ := lastAddr_mem hne
      have := n3 z hz r hr
      unfold Sep at this
      simp only [next]
      rw [link_cell _ _ _ _ _ (by omega)]
  · intro r hr
    refine (hn r hr).frame hl ?_
    intro k hk hkn
    rcases Classical.em (a = []) with rfl | hne
    · rfl
    · obtain ⟨z, hz, hz'⟩ := lastAddr_mem hne
      apply link_cell
      rw [hz']
      by_cases heq : r.vaddr = z.vaddr
      · omega
      · have hzr : Sep e.R z.vaddr r.vaddr := by
          obtain ⟨a1, a2, ha⟩ := List.append_of_mem hz
          subst ha
          have hg' : Good e (a1 ++ z :: (a2 ++ b)) := by simpa using hg
          refine hg'.sep he r ?_
          simp only [List.append_assoc, List.cons_append, List.mem_append, List.mem_cons] at hr ⊢
          rcases hr with hr | hr | hr | hr
          · exact .inl hr
          · exact absurd (congrArg Region.vaddr hr) heq
          · exact .inr (.inl hr)
          · exact .inr (.inr hr)
        unfold Sep at hzr
        omega

theorem Good.drop {e : Env} {a b : List Region} {p : Region} (h : Good e (a ++ p :: b)) : Good e (a ++ b) :=
  h.sub (fun r hr => by rcases List.mem_append.mp hr with h | h <;> simp [h])
    (fun x => by rw [fcount_append, fcount_append, fcount_cons]; omega)

/-- Removing a node. -/
theorem Rep.remove {e : Env} {l : Lay} (he : EnvOk e) (hl : LayOk e l) {m : Mem} {a b : List Region} {p : Region}
    (h : Rep e l m (a ++ p :: b)) (hg : Good e (a ++ p :: b)) : Rep e l (remove l m (lastAddr a) p.vaddr) (a ++ b) := by
  rw [remove_eq]
  obtain ⟨y, h1, h2⟩ := seg_append.mp h.seg
  exact Rep.relink he hl h1 h2.2 (fun r hr => h.node r (by rcases List.mem_append.mp hr with h | h <;> simp [h])) hg.drop

/-- A new node in the place of a node. -/
theorem Rep.replace {e : Env} {l : Lay} (he : EnvOk e) (hl : LayOk e l) {m : Mem} {a b : List Region} {p r : Region}
    (h : Rep e l m (a ++ p :: b)) (hr : Node e l m r) (hg' : Good e (a ++ r :: b)) :
    Rep e l (replace l m (lastAddr a) p.vaddr r.vaddr) (a ++ r :: b) := by
  rw [replace_eq]
  have hn' := hl.n_lt
  have hsep := hg'.sep he
  obtain ⟨y, h1, h2⟩ := seg_append.mp h.seg
  have hother : ∀ s ∈ a ++ b, ∀ k < e.R, (m.set (r.vaddr + l.n) (next l m p.vaddr)).cell (s.vaddr + k) = m.cell (s.vaddr + k) := by
    intro s hs k hk
    have := hsep s hs
    unfold Sep at this
    rw [cell_set, if_neg (by omega)]
  refine Rep.relink he hl (y := y) ?_ ?_ ?_ hg'
  · rw [head_set]
    exact seg_frame (fun s hs => hother s (by simp [hs]) _ hn') h1
  · refine ⟨rfl, ?_⟩
    have : next l (m.set (r.vaddr + l.n) (next l m p.vaddr)) r.vaddr = next l m p.vaddr := by simp [next, cell_set]
    rw [this]
    exact seg_frame (fun s hs => hother s (by simp [hs]) _ hn') h2.2
  · intro s hs
    rcases List.mem_append.mp hs with hs | hs
    · exact (h.node s (by simp [hs])).frame hl (fun k hk _ => hother s (by simp [hs]) k hk)
    · rcases List.mem_cons.mp hs with rfl | hs
      · exact hr.frame hl (fun k hk hkn => by rw [cell_set, if_neg (by omega)])
      · exact (h.node s (by simp [hs])).frame hl (fun k hk _ => hother s (by simp [hs]) k hk)

/-- A new node at the head. -/
theorem Rep.prepend {e : Env} {l : Lay} (he : EnvOk e) (hl : LayOk e l) {m : Mem} {free : List Region} {r : Region}
    (h : Rep e l m free) (hr : Node e l m r) (hg' : Good e (r :: free)) : Rep e l (prepend l m r.vaddr) (r :: free) := by
  have hn' := hl.n_lt
  have hsep := Good.sep he (a := []) hg'
  have hother : ∀ s ∈ free, ∀ k < e.R, (DmaPtr.prepend l m r.vaddr).cell (s.vaddr + k) = m.cell (s.vaddr + k) := by
    intro s hs k hk
    have := hsep s (by simpa using hs)
    unfold Sep at this
    simp only [DmaPtr.prepend, cell_set]
    rw [if_neg (by omega)]
  refine ⟨⟨rfl, ?_⟩, ?_⟩
  · have : next l (DmaPtr.prepend l m r.vaddr) r.vaddr = m.head := by simp [next, DmaPtr.prepend, cell_set]
    rw [this]
    exact seg_frame (fun s hs => hother s hs _ hn') h.seg
  · intro s hs
    rcases List.mem_cons.mp hs with rfl | hs
    · refine hr.frame hl (fun k hk hkn => ?_)
      simp only [DmaPtr.prepend, cell_set]
      rw [if_neg (by omega)]
    · exact (h.node s hs).frame hl (fun k hk _ => hother s hs k hk)

/-! ### Looking up a physical address -/

/-- Only physical addresses of nodes have been stored. -/
structure PuOnly (l : Lay) (m m' : Mem) (free : List Region) : Prop where
  head : m'.head = m.head
  cell : ∀ x, (∀ r ∈ free, x ≠ r.vaddr + l.p) → m'.cell x = m.cell x

theorem PuOnly.refl (l : Lay) (m : Mem) (free : List Region) : PuOnly l m m free := ⟨rfl, fun _ _ => rfl⟩

theorem PuOnly.trans {l : Lay} {m1 m2 m3 : Mem} {free : List Region} (h1 : PuOnly l m1 m2 free) (h2 : PuOnly l m2 m3 free) :
    PuOnly l m1 m3 free := ⟨h2.head.trans h1.head, fun x hx => (h2.cell x hx).trans (h1.cell x hx)⟩

theorem PuOnly.within {e : Env} {l : Lay} (hl : LayOk e l) {m m' : Mem} {free : List Region} (hg : Good e free)
    (h : PuOnly l m m' free) : Within m m' free := by
  intro x hx
  apply h.cell
  intro r hr hxr
  have h1 := (hg.reg r hr).large
  have h2 := hl.p_lt
  have := mem_fcount hr (x := x) (by omega)
  omega

theorem extract_sim {e : Env} {l : Lay} (he : EnvOk e) (hl : LayOk e l) {m : Mem} {free : List Region} {r : Region}
    (h : Rep e l m free) (hg : Good e free) (hr : r ∈ free) :
    ∃ m', extract e l m r.vaddr = some (e.paddr r.vaddr, m') ∧ Rep e l m' free ∧ PuOnly l m m' free := by
  have hp := hg.phys r hr
  have hpage := he.page r.vaddr
  have hne : e.paddr r.vaddr / 4096 ≠ 0 := by omega
  rcases (h.node r hr).pu with h0 | h0
  · have ht : tryPaddr l m r.vaddr = 0 := by simp [tryPaddr, h0]
    have ht' : tryPaddr l (savePaddr l m r.vaddr (e.paddr r.vaddr)) r.vaddr = e.paddr r.vaddr := by
      have : pu l (savePaddr l m r.vaddr (e.paddr r.vaddr)) r.vaddr = e.paddr r.vaddr / 4096 := by simp [pu, savePaddr, cell_set]
      rw [tryPaddr, this, if_pos hne]
      omega
    refine ⟨savePaddr l m r.vaddr (e.paddr r.vaddr), ?_, ?_, ?_⟩
    · simp only [extract]
      rw [if_pos ht, if_neg (by omega), ht', if_neg (by omega)]
    · obtain ⟨a, b, rfl⟩ := List.append_of_mem hr
      exact h.set_pu he hl hg
    · refine ⟨rfl, fun x hx => ?_⟩
      simp only [savePaddr, cell_set]
      rw [if_neg (hx r hr)]
  · have ht : tryPaddr l m r.vaddr = e.paddr r.vaddr := by
      rw [tryPaddr, h0, if_pos hne]; omega
    refine ⟨m, ?_, h, .refl _ _ _⟩
    simp only [extract]
    rw [ht, if_neg (by omega)]

end Verif.DmaPtr
