import Verif.VqAlloc.Spec
import Mathlib.Tactic.Tauto
import Mathlib.Tactic.Ring

namespace Verif.VqAlloc

/-- The linked list of free blocks. -/
def Linked (next : Nat → Nat) (n : Nat) : Nat → List Nat → Prop
  | h, [] => h = n
  | h, x :: xs => h = x ∧ x < n ∧ Linked next n (next x) xs

theorem linked_congr {next next' : Nat → Nat} {n : Nat} : ∀ {xs : List Nat} {h : Nat}, (∀ x ∈ xs, next x = next' x) → Linked next n h xs → Linked next' n h xs := by
  intro xs
  induction xs with
  | nil => intro h _ hl; exact hl
  | cons x xs ih =>
    intro h hc hl
    obtain ⟨h1, h2, h3⟩ := hl
    refine ⟨h1, h2, ?_⟩
    rw [← hc x (by simp)]
    exact ih (fun y hy => hc y (by simp [hy])) h3

theorem linked_init (n : Nat) : ∀ k, k ≤ n → Linked (fun i => i + 1) n (n - k) ((List.range k).map (fun j => n - k + j)) := by
  intro k
  induction k with
  | zero => intro _; exact rfl
  | succ k ih =>
    intro hk
    rw [List.range_succ_eq_map]
    refine ⟨rfl, show n - (k + 1) + 0 < n by omega, ?_⟩
    have := ih (by omega)
    rw [List.map_map]
    have e1 : n - (k + 1) + 0 + 1 = n - k := by omega
    change Linked _ n (n - (k + 1) + 0 + 1) _
    rw [e1]
    have e2 : (List.range k).map ((fun j => n - (k + 1) + j) ∘ Nat.succ) = (List.range k).map (fun j => n - k + j) := by
      apply List.map_congr_left
      intro j _
      simp only [Function.comp_apply, Nat.succ_eq_add_one]
      omega
    rw [e2]
    exact this

/-- The allocator with some blocks in use. -/
def State (a : Alloc) (used : List Nat) : Prop :=
  0 < a.bs ∧ ∃ fs, Linked a.next a.n a.head fs ∧ (fs ++ used).Perm (List.range a.n)

theorem state_init (base len bs : Nat) (hb : 0 < bs) : State (init base len bs) [] := by
  refine ⟨hb, List.range (len / bs), ?_, by simp [init]⟩
  have := linked_init (len / bs) (len / bs) (Nat.le_refl _)
  simpa [init] using this

theorem state_lt {a : Alloc} {used : List Nat} (h : State a used) : ∀ i ∈ used, i < a.n := by
  obtain ⟨_, fs, _, h2⟩ := h
  intro i hi
  have := h2.subset (List.mem_append_right _ hi)
  simpa using this

theorem state_nodup {a : Alloc} {used : List Nat} (h : State a used) : used.Nodup := by
  obtain ⟨_, fs, _, h2⟩ := h
  exact (h2.nodup_iff.mpr List.nodup_range).of_append_right

theorem state_alloc {a : Alloc} {used : List Nat} (h : State a used) (size : Nat) :
    (alloc a size = none ∧ (a.bs < size ∨ used.length = a.n)) ∨
    (∃ i, i < a.n ∧ i ∉ used ∧ size ≤ a.bs ∧ used.length < a.n ∧ alloc a size = some (a.base + a.bs * i, { a with head := a.next i }) ∧
      State { a with head := a.next i } (i :: used)) := by
  obtain ⟨hb, fs, h1, h2⟩ := h
  have hlen := h2.length_eq
  rw [List.length_append, List.length_range] at hlen
  unfold alloc
  by_cases hs : size > a.bs
  · rw [if_pos hs]; exact .inl ⟨rfl, .inl hs⟩
  · rw [if_neg hs]
    cases fs with
    | nil =>
      rw [if_pos (show a.head = a.n from h1)]
      simp only [List.length_nil, Nat.zero_add] at hlen
      exact .inl ⟨rfl, .inr hlen⟩
    | cons x xs =>
      obtain ⟨e1, e2, e3⟩ := h1
      rw [if_neg (by omega)]
      have hnd := h2.nodup_iff.mpr List.nodup_range
      simp only [List.length_cons] at hlen
      refine .inr ⟨x, e2, ?_, by omega, by omega, by rw [e1], hb, xs, e3, ?_⟩
      · intro hx
        simp only [List.cons_append, List.nodup_cons] at hnd
        exact hnd.1 (List.mem_append_right _ hx)
      · exact List.perm_middle.trans h2

theorem index_block {m : Machine} {a : Alloc} (hb : 0 < a.bs) {i : Nat} (hi : a.base + a.bs * i < m.W) (hu : 2 * i < m.U) :
    index m a (a.base + a.bs * i) = some i := by
  unfold index
  have e1 : a.base + a.bs * i + m.W - a.base = a.bs * i + m.W := by omega
  have e2 : (a.bs * i + m.W) % m.W = a.bs * i := by
    rw [Nat.add_mod_right, Nat.mod_eq_of_lt (by omega)]
  have e3 : a.bs * i / a.bs = i := Nat.mul_div_cancel_left i hb
  have e4 : i % m.U = i := Nat.mod_eq_of_lt (by omega)
  simp only [e1, e2, e3, e4, if_pos hu]

theorem state_free {m : Machine} {a : Alloc} {used : List Nat} (h : State a used) {i : Nat} (hi : i ∈ used)
    (hw : ∀ i, i < a.n → a.base + a.bs * i < m.W) (hu : 2 * a.n < m.U) :
    free m a (a.base + a.bs * i) = { a with next := fun k => if k = i then a.head else a.next k, head := i } ∧
    State { a with next := fun k => if k = i then a.head else a.next k, head := i } (used.erase i) := by
  have hlt := state_lt h i hi
  obtain ⟨hb, fs, h1, h2⟩ := h
  refine ⟨?_, hb, i :: fs, ⟨rfl, hlt, ?_⟩, ?_⟩
  · rw [free, index_block hb (hw i hlt) (by omega)]
    simp only
    rw [if_neg (by omega)]
  · simp only [if_true]
    refine linked_congr ?_ h1
    intro x hx
    have hnd := h2.nodup_iff.mpr List.nodup_range
    have hne : x ≠ i := by
      rintro rfl
      rw [List.nodup_append] at hnd
      exact hnd.2.2 x hx x hi rfl
    simp [hne]
  · refine List.Perm.trans ?_ h2
    have : (i :: used.erase i).Perm used := (List.perm_cons_erase hi).symm
    calc (i :: fs ++ used.erase i) = i :: (fs ++ used.erase i) := rfl
      _ |>.Perm (fs ++ i :: used.erase i) := List.perm_middle.symm
      _ |>.Perm (fs ++ used) := List.Perm.append_left fs this

theorem alloc_fixed {a a' : Alloc} {size p : Nat} (h : alloc a size = some (p, a')) : a'.base = a.base ∧ a'.bs = a.bs ∧ a'.n = a.n := by
  unfold alloc at h
  split at h
  · cases h
  · split at h
    · cases h
    · simp only [Option.some.injEq, Prod.mk.injEq] at h
      obtain ⟨_, rfl⟩ := h
      exact ⟨rfl, rfl, rfl⟩

theorem free_fixed (m : Machine) (a : Alloc) (p : Nat) : (free m a p).base = a.base ∧ (free m a p).bs = a.bs ∧ (free m a p).n = a.n := by
  unfold free
  split
  · exact ⟨rfl, rfl, rfl⟩
  · split <;> exact ⟨rfl, rfl, rfl⟩

/-- The allocator agrees with what happened. -/
def Agrees (base len bs : Nat) (a : Alloc) (es : List Event) : Prop :=
  a.base = base ∧ a.bs = bs ∧ a.n = len / bs ∧ ∃ used, State a used ∧ live es = used.map (fun i => base + bs * i)

theorem block_bound {len bs i : Nat} (hi : i < len / bs) : bs * i + bs ≤ len := by
  have h1 : bs * (i + 1) ≤ bs * (len / bs) := Nat.mul_le_mul_left _ hi
  have h2 : bs * (len / bs) ≤ len := Nat.mul_div_le len bs
  rw [Nat.mul_add] at h1
  omega

theorem ptr_injective {base bs : Nat} (hb : 0 < bs) : Function.Injective (fun i => base + bs * i) := by
  intro i j h
  simp only at h
  exact Nat.eq_of_mul_eq_mul_left hb (by omega)

theorem step_agrees {m : Machine} {base len bs : Nat} (hf : Fits m base len bs) {a : Alloc} {es : List Event} (h : Agrees base len bs a es)
    (c : Call) (hl : Legal ((step m a c).2 :: es)) : Agrees base len bs (step m a c).1 ((step m a c).2 :: es) := by
  obtain ⟨e1, e2, e3, used, hs, hlive⟩ := h
  cases c with
  | alloc size =>
    simp only [step]
    rcases state_alloc hs size with ⟨h1, _⟩ | ⟨i, hi, _, _, _, h1, h2⟩
    · rw [h1]; exact ⟨e1, e2, e3, used, hs, hlive⟩
    · rw [h1]
      refine ⟨e1, e2, e3, i :: used, h2, ?_⟩
      simp only [live, List.map_cons, hlive, e1, e2]
  | free p =>
    simp only [step] at hl ⊢
    obtain ⟨hp, _⟩ := hl
    rw [hlive] at hp
    obtain ⟨i, hi, rfl⟩ := List.mem_map.mp hp
    have hw : ∀ i, i < a.n → a.base + a.bs * i < m.W := by
      intro j hj
      rw [e3] at hj
      have := block_bound hj
      obtain ⟨f1, f2, _⟩ := hf
      rw [e1, e2]
      omega
    have hfree := state_free (m := m) hs hi hw (by rw [e3]; exact hf.2.2)
    rw [e1, e2] at hfree
    rw [hfree.1]
    refine ⟨rfl, rfl, e3, used.erase i, ?_, ?_⟩
    · have := hfree.2; simpa only [e1, e2] using this
    · rw [live, hlive, List.map_erase (ptr_injective hf.1)]

theorem legal_tail {e : Event} {es : List Event} (h : Legal (e :: es)) : Legal es := by
  cases e <;> first | exact h | exact h.2

theorem run_legal (m : Machine) : ∀ (cs : List Call) (a : Alloc) (es : List Event), Legal (run m a es cs).2 → Legal es := by
  intro cs
  induction cs with
  | nil => intro a es h; exact h
  | cons c cs ih => intro a es h; exact legal_tail (ih _ _ h)

theorem run_agrees {m : Machine} {base len bs : Nat} (hf : Fits m base len bs) : ∀ (cs : List Call) (a : Alloc) (es : List Event),
    Agrees base len bs a es → Legal (run m a es cs).2 → Agrees base len bs (run m a es cs).1 (run m a es cs).2 := by
  intro cs
  induction cs with
  | nil => intro a es h _; exact h
  | cons c cs ih =>
    intro a es h hl
    exact ih _ _ (step_agrees hf h c (run_legal m cs _ _ hl)) hl

theorem init_agrees {base len bs : Nat} (hb : 0 < bs) : Agrees base len bs (init base len bs) [] :=
  ⟨rfl, rfl, rfl, [], state_init base len bs hb, rfl⟩

/-- C53: after every legal history, an allocated buffer is a block inside of the pool, different from all
buffers in use; a request that fits in a block is refused only if all blocks are in use. -/
theorem alloc_correct (m : Machine) (base len bs : Nat) (hf : Fits m base len bs) (cs : List Call)
    (hl : Legal (run m (init base len bs) [] cs).2) (size : Nat) :
    let r := run m (init base len bs) [] cs
    (∀ p a', alloc r.1 size = some (p, a') → Block base len bs p ∧ p ∉ live r.2 ∧ size ≤ bs) ∧
    (alloc r.1 size = none ↔ bs < size ∨ (live r.2).length = len / bs) ∧ (live r.2).Nodup ∧ ∀ p ∈ live r.2, Block base len bs p := by
  intro r
  obtain ⟨e1, e2, e3, used, hs, hlive⟩ := run_agrees hf cs _ [] (init_agrees hf.1) hl
  have hlive' : live r.2 = used.map (fun i => base + bs * i) := hlive
  have hblock : ∀ i, i < len / bs → Block base len bs (base + bs * i) := by
    intro i hi
    have := block_bound hi
    exact ⟨i, rfl, by omega⟩
  have hend : (live r.2).Nodup ∧ ∀ p ∈ live r.2, Block base len bs p := by
    rw [hlive']
    refine ⟨(state_nodup hs).map (ptr_injective hf.1), ?_⟩
    intro p hp
    obtain ⟨i, hi, rfl⟩ := List.mem_map.mp hp
    exact hblock i (by rw [← e3]; exact state_lt hs i hi)
  have hlen : (live r.2).length = used.length := by rw [hlive']; simp
  rcases state_alloc hs size with ⟨h1, h2⟩ | ⟨i, hi, hni, hsz, hlt, h1, _⟩
  · have h1' : alloc r.1 size = none := h1
    rw [h1']
    refine ⟨fun p a' h => (by cases h), ⟨fun _ => ?_, fun _ => rfl⟩, hend⟩
    rw [hlen]
    rw [e2, e3] at h2
    exact h2
  · have h1' := h1
    change alloc r.1 size = _ at h1'
    rw [h1']
    refine ⟨?_, ⟨fun h => (by cases h), ?_⟩, hend⟩
    · intro p a' h
      simp only [Option.some.injEq, Prod.mk.injEq] at h
      obtain ⟨rfl, _⟩ := h
      rw [e1, e2]
      refine ⟨hblock i (by rw [← e3]; exact hi), ?_, by rw [← e2]; exact hsz⟩
      rw [hlive']
      intro hm
      obtain ⟨j, hj, he⟩ := List.mem_map.mp hm
      have := ptr_injective hf.1 he
      subst this
      exact hni hj
    · rintro (h | h)
      · rw [e2] at hsz; omega
      · rw [hlen, ← e3] at h; omega

/-- C53: a buffer that is freed is the next one to be allocated. -/
theorem freed_available (m : Machine) (base len bs : Nat) (hf : Fits m base len bs) (cs : List Call)
    (hl : Legal (run m (init base len bs) [] cs).2) (p : Nat) (hp : p ∈ live (run m (init base len bs) [] cs).2) (size : Nat) (hsz : size ≤ bs) :
    ∃ a', alloc (free m (run m (init base len bs) [] cs).1 p) size = some (p, a') := by
  obtain ⟨e1, e2, e3, used, hs, hlive⟩ := run_agrees hf cs _ [] (init_agrees hf.1) hl
  rw [hlive] at hp
  obtain ⟨i, hi, rfl⟩ := List.mem_map.mp hp
  have hw : ∀ i, i < (run m (init base len bs) [] cs).1.n → (run m (init base len bs) [] cs).1.base + (run m (init base len bs) [] cs).1.bs * i < m.W := by
    intro j hj
    rw [e3] at hj
    have := block_bound hj
    obtain ⟨f1, f2, _⟩ := hf
    rw [e1, e2]
    omega
  have hfree := (state_free (m := m) hs hi hw (by rw [e3]; exact hf.2.2)).1
  rw [e1, e2] at hfree
  rw [hfree, alloc, if_neg (by simp only; omega), if_neg (by simp only; have := state_lt hs i hi; omega)]
  exact ⟨_, rfl⟩

/-- Buffers are allocated, freed in another order, and allocated again. -/
example : (run ⟨100000, 1000⟩ (init 4096 520 128) [] [.alloc 100, .alloc 128, .alloc 1, .free 4224, .alloc 5, .alloc 129, .alloc 0, .alloc 0]).2 =
    [.refused 0, .allocated 4480, .refused 129, .allocated 4224, .freed 4224, .allocated 4352, .allocated 4224, .allocated 4096] := by
  decide

example : Fits ⟨100000, 1000⟩ 4096 520 128 := by simp [Fits]

/-- Freeing a buffer twice is not detected: the same buffer is then allocated twice. -/
theorem double_free : (run ⟨100000, 1000⟩ (init 4096 512 128) [] [.alloc 1, .free 4096, .free 4096, .alloc 1, .alloc 1]).2.take 2 =
    [.allocated 4096, .allocated 4096] := by decide

/-- C53: a pointer that is not in the pool, but not so far behind it that the index wraps, is ignored. -/
theorem free_outside_partial (m : Machine) (base len bs : Nat) (hf : Fits m base len bs) (cs : List Call)
    (hl : Legal (run m (init base len bs) [] cs).2) (p : Nat) (hp : base + bs * (len / bs) ≤ p) (hw : p < m.W) (hu : (p - base) / bs < m.U) :
    free m (run m (init base len bs) [] cs).1 p = (run m (init base len bs) [] cs).1 := by
  obtain ⟨e1, e2, e3, _⟩ := run_agrees hf cs _ [] (init_agrees hf.1) hl
  have hi : len / bs ≤ (p - base) / bs := by
    rw [Nat.le_div_iff_mul_le hf.1, Nat.mul_comm]; omega
  have hidx : ∀ i, index m (run m (init base len bs) [] cs).1 p = some i → len / bs ≤ i := by
    intro i h
    unfold index at h
    rw [e1, e2, show p + m.W - base = (p - base) + m.W by omega, Nat.add_mod_right, Nat.mod_eq_of_lt (a := p - base) (by omega),
      Nat.mod_eq_of_lt hu] at h
    simp only at h
    split at h
    · cases h; exact hi
    · cases h
  unfold free
  cases h : index m (run m (init base len bs) [] cs).1 p with
  | none => rfl
  | some i => simp only; rw [if_pos (by rw [e3]; exact hidx i h)]

/-- The condition is needed: the index is an `int`, so a pointer far behind the pool frees a block that is in
use. -/
theorem free_far_outside : (run ⟨100000, 10⟩ (init 4096 512 128) [] [.alloc 1, .free (4096 + 1280), .alloc 1]).2 =
    [.allocated 4096, .freed (4096 + 1280), .allocated 4096] := by decide

/-- C53, for the memory shared by two components: if the rings fit, then after every legal history the buffers
in use and the next one to be allocated lie behind the rings and inside of it. -/
theorem driver_blocks_partial (m : Machine) (buffer size rings bs : Nat) (hr : rings ≤ size) (hw : buffer + size ≤ m.W) (hu : 2 * size < m.U)
    (hu' : size < m.W) (hb : 0 < bs) (cs : List Call) (hl : Legal (run m (driverInit m buffer size rings bs) [] cs).2) (n : Nat) :
    let r := run m (driverInit m buffer size rings bs) [] cs
    (∀ p a', alloc r.1 n = some (p, a') → buffer + rings ≤ p ∧ p + bs ≤ buffer + size ∧ p ∉ live r.2) ∧
    (∀ p ∈ live r.2, buffer + rings ≤ p ∧ p + bs ≤ buffer + size) ∧
    (alloc r.1 n = none ↔ bs < n ∨ (live r.2).length = (size - rings) / bs) := by
  have e1 : driverInit m buffer size rings bs = init (buffer + rings) (size - rings) bs := by
    unfold driverInit
    rw [show size + m.W - rings = (size - rings) + m.W by omega, Nat.add_mod_right, Nat.mod_eq_of_lt (a := size - rings) (by omega),
      Nat.mod_eq_of_lt (by omega)]
  rw [e1] at hl ⊢
  have hdiv := Nat.div_le_self (size - rings) bs
  obtain ⟨h1, h2, _, h4⟩ := alloc_correct m (buffer + rings) (size - rings) bs ⟨hb, by omega, by omega⟩ cs hl n
  refine ⟨fun p a' h => ?_, fun p h => ?_, h2⟩
  · obtain ⟨⟨i, hi, hle⟩, h6, _⟩ := h1 p a' h
    exact ⟨by omega, by omega, h6⟩
  · obtain ⟨i, hi, hle⟩ := h4 p h
    omega

example : (run ⟨100000, 10000⟩ (driverInit ⟨100000, 10000⟩ 4096 1000 700 128) [] [.alloc 100, .alloc 128, .alloc 1]).2 =
    [.refused 1, .allocated 4924, .allocated 4796] := by decide

/-- C53 fails for rings that do not fit: the length wraps, the initialisation succeeds, and the first buffer
lies outside of the shared memory. -/
theorem rings_too_large (m : Machine) (buffer size rings bs : Nat) (hb : 0 < bs) (hr : size < rings) (hu : rings - size + bs ≤ m.U)
    (hd : m.U ∣ m.W) (hw : rings ≤ m.W) (hW : 0 < m.W) :
    ∃ a', alloc (driverInit m buffer size rings bs) bs = some (buffer + rings, a') ∧ buffer + size < buffer + rings := by
  have e1 : (size + m.W - rings) % m.W = m.W - (rings - size) := by
    rw [show size + m.W - rings = m.W - (rings - size) by omega, Nat.mod_eq_of_lt (by omega)]
  have e2 : (m.W - (rings - size)) % m.U = m.U - (rings - size) := by
    obtain ⟨k, hk⟩ := hd
    have hk0 : 0 < k := by
      rcases Nat.eq_zero_or_pos k with h | h
      · subst h; simp at hk; omega
      · exact h
    obtain ⟨j, rfl⟩ : ∃ j, k = j + 1 := ⟨k - 1, by omega⟩
    rw [hk, show m.U * (j + 1) - (rings - size) = (m.U - (rings - size)) + m.U * j by rw [Nat.mul_add]; omega,
      Nat.add_mul_mod_self_left, Nat.mod_eq_of_lt (by omega)]
  have e3 : 0 < (m.U - (rings - size)) / bs := Nat.div_pos (by omega) hb
  unfold driverInit
  rw [e1, e2, alloc, if_neg (by simp [init]), if_neg (by simp only [init]; omega)]
  exact ⟨_, rfl, by omega⟩

end Verif.VqAlloc
