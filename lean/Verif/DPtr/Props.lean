import Verif.DPtr.Spec

/-!
# C63: a wrapped pointer denotes the same byte in every component that shares the dataport
-/

namespace Verif.DPtr

/-- The machine makes sense: offsets have at least as many bits as addresses. -/
def Env.Ok (e : Env) : Prop := e.W ≤ 2 * e.half

theorem toOff_mod (e : Env) (x : Nat) (h : x < 2 * e.half) : toOff e x % (2 * e.half : Int) = x := by
  unfold toOff
  split
  · exact Int.emod_eq_of_lt (by omega) (by omega)
  · rw [Int.sub_emod_right]
    exact Int.emod_eq_of_lt (by omega) (by omega)

theorem toOff_back (e : Env) (he : e.W = 2 * e.half ∨ e.W ≤ e.half) (x : Nat) (h : x < e.W) : (toOff e x % (e.W : Int)).toNat = x := by
  rcases he with he | he
  · have := toOff_mod e x (by omega)
    rw [show (e.W : Int) = 2 * (e.half : Int) by omega, this]
    rfl
  · unfold toOff
    rw [if_pos (by omega), Int.emod_eq_of_lt (by omega) (by omega)]
    rfl

theorem wrapOne_exact {e : Env} (he : e.Ok) {d : Port} (h1 : d.base + d.size < e.W) (h2 : e.W ≤ e.half ∨ d.kind ≠ .mmioLiteral) (p : Nat) (hp : p < e.W) :
    wrapOne e d p = if d.base ≤ p ∧ p < d.base + d.size then some ⟨d.id, toOff e (p - d.base)⟩ else none := by
  unfold Env.Ok at he
  have hsub : d.base ≤ p → sub e p d.base = p - d.base := by
    intro h
    unfold sub
    rw [show p + e.W - d.base = (p - d.base) + e.W by omega, Nat.add_mod_right, Nat.mod_eq_of_lt (by omega)]
  have hsub2 : p < d.base → sub e p d.base = p + e.W - d.base := by
    intro h
    unfold sub
    rw [Nat.mod_eq_of_lt (by omega)]
  unfold wrapOne
  cases hk : d.kind with
  | shared =>
    simp only
    rw [Nat.mod_eq_of_lt h1]
    by_cases hh : d.base ≤ p ∧ p < d.base + d.size
    · rw [if_neg (by omega), if_pos hh, hsub hh.1]
    · rw [if_pos (by omega), if_neg hh]
  | mmioSizeof =>
    simp only
    by_cases hb : d.base ≤ p
    · rw [hsub hb, toOff_mod e _ (by omega)]
      by_cases hh : d.base ≤ p ∧ p < d.base + d.size
      · rw [if_pos (by omega), if_pos hh]
      · rw [if_neg (by omega), if_neg hh]
    · rw [hsub2 (by omega), toOff_mod e _ (by omega), if_neg (by omega), if_neg (by omega)]
  | mmioLiteral =>
    have h3 : e.W ≤ e.half := by rcases h2 with h2 | h2; exact h2; exact absurd hk h2
    simp only
    by_cases hb : d.base ≤ p
    · rw [hsub hb]
      by_cases hh : d.base ≤ p ∧ p < d.base + d.size
      · rw [if_pos (by unfold toOff; split <;> omega), if_pos hh]
      · rw [if_neg (by unfold toOff; split <;> omega), if_neg hh]
    · rw [hsub2 (by omega), if_neg (by unfold toOff; split <;> omega), if_neg (by omega)]

/-- What wrapping gives: the number of the connection and the offset of the byte, or failure. -/
theorem wrap_exact_partial (e : Env) (he : e.Ok) (ds : List Port) (hl : Layout e ds) (hx : Exact e ds) (p : Nat) (hp : p < e.W) :
    (∀ id off, At ds p id off → wrap e ds p = ⟨id, toOff e off⟩) ∧ ((∀ d ∈ ds, ¬ d.Has p) → wrap e ds p = failed) := by
  induction ds with
  | nil => exact ⟨fun id off ⟨d, hd, _⟩ => (by cases hd), fun _ => rfl⟩
  | cons d ds ih =>
    have ih := ih ⟨fun x hx => hl.inside x (List.mem_cons_of_mem _ hx), (List.pairwise_cons.mp hl.apart).2⟩
      (hx.imp id fun h x hx => h x (List.mem_cons_of_mem _ hx))
    have hin := hl.inside d List.mem_cons_self
    have hxd : e.W ≤ e.half ∨ d.kind ≠ .mmioLiteral := hx.imp id fun h => h d List.mem_cons_self
    have hw := wrapOne_exact he hin.2 hxd p hp
    by_cases hhas : d.Has p
    · have hlk := hhas.1
      have hval : wrap e (d :: ds) p = ⟨d.id, toOff e (p - d.base)⟩ := by
        rw [wrap, if_pos hlk, hw, if_pos hhas.2]
      refine ⟨?_, fun h => absurd hhas (h d List.mem_cons_self)⟩
      rintro id off ⟨d', hd', hh, rfl, rfl⟩
      rcases List.mem_cons.mp hd' with rfl | hd'
      · rw [hval, Nat.add_sub_cancel_left]
      · exact absurd hh ((List.pairwise_cons.mp hl.apart).1 d' hd' _ hhas)
    · have hval : wrap e (d :: ds) p = wrap e ds p := by
        rw [wrap]
        split
        · rename_i hlk
          rw [hw, if_neg (fun h => hhas ⟨hlk, h⟩)]
        · rfl
      rw [hval]
      refine ⟨?_, fun h => ih.2 fun x hx => h x (List.mem_cons_of_mem _ hx)⟩
      rintro id off ⟨d', hd', hh, h1, h2⟩
      rcases List.mem_cons.mp hd' with rfl | hd'
      · exact absurd hh hhas
      · exact ih.1 id off ⟨d', hd', hh, h1, h2⟩

theorem unwrap_none (e : Env) (ds : List Port) (q : Ptr) (h : ∀ d ∈ ds, d.linked = true → q.id ≠ d.id) : unwrap e ds q = 0 := by
  induction ds with
  | nil => rfl
  | cons d ds ih =>
    have ih := ih fun x hx => h x (List.mem_cons_of_mem _ hx)
    rw [unwrap]
    split
    · rename_i hl
      rw [unwrapOne, if_neg (h d List.mem_cons_self hl), if_neg (by simp)]
      exact ih
    · exact ih

theorem unwrap_some (e : Env) (he : e.W = 2 * e.half ∨ e.W ≤ e.half) (ds : List Port) (id off : Nat) (hoff : off < e.W)
    (hin : ∀ d ∈ ds, 0 < d.base ∧ d.base + d.size < e.W) (hbig : ∀ d ∈ ds, d.linked = true → d.id = id → off < d.size)
    (hex : ∃ d ∈ ds, d.linked = true ∧ d.id = id) :
    ∃ d ∈ ds, d.linked = true ∧ d.id = id ∧ unwrap e ds ⟨id, toOff e off⟩ = d.base + off := by
  induction ds with
  | nil => obtain ⟨d, hd, _⟩ := hex; cases hd
  | cons d ds ih =>
    by_cases hd : d.linked = true ∧ d.id = id
    · refine ⟨d, List.mem_cons_self, hd.1, hd.2, ?_⟩
      have hs := hbig d List.mem_cons_self hd.1 hd.2
      have hi := hin d List.mem_cons_self
      have hv : unwrapOne e d ⟨id, toOff e off⟩ = d.base + off := by
        rw [unwrapOne, if_pos (by simp [hd.2])]
        simp only
        rw [toOff_back e he off hoff, Nat.mod_eq_of_lt (by omega)]
      rw [unwrap, if_pos hd.1, hv, if_pos (by omega)]
    · obtain ⟨x, hx, hx2⟩ := hex
      have hx3 : x ∈ ds := by
        rcases List.mem_cons.mp hx with rfl | h
        · exact absurd hx2 hd
        · exact h
      obtain ⟨y, hy, h1, h2, h3⟩ := ih (fun z hz => hin z (List.mem_cons_of_mem _ hz)) (fun z hz => hbig z (List.mem_cons_of_mem _ hz)) ⟨x, hx3, hx2⟩
      refine ⟨y, List.mem_cons_of_mem _ hy, h1, h2, ?_⟩
      rw [unwrap]
      split
      · rename_i hl
        have : unwrapOne e d ⟨id, toOff e off⟩ = 0 := by
          rw [unwrapOne, if_neg]
          intro h
          simp only at h
          exact hd ⟨hl, by omega⟩
        rw [if_neg (by simp [this]), h3]
      · exact h3

/-- A pointer to a byte of a dataport, wrapped by one component and unwrapped by another one (or the same)
in which the dataports of that connection are large enough, points to the same byte of the same
connection. -/
theorem same_byte_partial (e : Env) (he : e.W = 2 * e.half ∨ e.W ≤ e.half) (src dst : List Port) (hs : Layout e src) (hx : Exact e src) (hd : Layout e dst)
    (p : Nat) (id off : Nat) (hp : At src p id off) (hshared : ∃ d ∈ dst, d.linked = true ∧ d.id = id)
    (hbig : ∀ d ∈ dst, d.linked = true → d.id = id → off < d.size) :
    At dst (unwrap e dst (wrap e src p)) id off := by
  have hok : e.Ok := by unfold Env.Ok; omega
  obtain ⟨d0, hd0, hh0, rfl, rfl⟩ := (fun x => x) hp
  have hb0 := hs.inside d0 hd0
  have hlt : d0.base + off < e.W := by have := hh0.2.2; omega
  rw [(wrap_exact_partial e hok src hs hx _ hlt).1 _ _ hp]
  obtain ⟨d, hdm, h1, h2, h3⟩ := unwrap_some e he dst d0.id off (by omega) hd.inside hbig hshared
  rw [h3]
  exact ⟨d, hdm, ⟨h1, by omega, by have := hbig d hdm h1 h2; omega⟩, h2, rfl⟩

/-- Within a component in which no two dataports are on the same connection, unwrapping undoes wrapping. -/
theorem round_trip_partial (e : Env) (he : e.W = 2 * e.half ∨ e.W ≤ e.half) (ds : List Port) (hl : Layout e ds) (hx : Exact e ds)
    (hid : ∀ a ∈ ds, ∀ b ∈ ds, a.linked = true → b.linked = true → a.id = b.id → a = b) (p : Nat) (d : Port) (hd : d ∈ ds) (hp : d.Has p) :
    unwrap e ds (wrap e ds p) = p := by
  have hat : At ds p d.id (p - d.base) := ⟨d, hd, hp, rfl, by have := hp.2.1; omega⟩
  obtain ⟨d', hd', hh, h1, h2⟩ := same_byte_partial e he ds ds hl hx hl p d.id (p - d.base) hat ⟨d, hd, hp.1, rfl⟩ (by
    intro x hxm hxl hxi
    have := hid x hxm d hd hxl hp.1 hxi
    subst this
    have := hp.2
    omega)
  have := hid d' hd' d hd hh.1 hp.1 h1
  subst this
  have := hp.2.1
  omega

/-- A pointer that is in no dataport cannot be wrapped, and what cannot be wrapped unwraps to `NULL`. -/
theorem outside_fails_partial (e : Env) (he : e.Ok) (src dst : List Port) (hs : Layout e src) (hx : Exact e src) (p : Nat) (hp : p < e.W) (ho : ∀ d ∈ src, ¬ d.Has p) :
    unwrap e dst (wrap e src p) = 0 := by
  rw [(wrap_exact_partial e he src hs hx p hp).2 ho]
  exact unwrap_none e dst _ fun d _ _ => by simp only [failed]; omega

/-- A pointer into a dataport that the receiver does not share unwraps to `NULL`. -/
theorem unshared_fails (e : Env) (he : e.Ok) (src dst : List Port) (hs : Layout e src) (hx : Exact e src) (p : Nat) (id off : Nat) (hp : At src p id off)
    (hno : ∀ d ∈ dst, d.linked = true → d.id ≠ id) : unwrap e dst (wrap e src p) = 0 := by
  obtain ⟨d0, hd0, hh0, h1, h2⟩ := (fun x => x) hp
  have hb0 := hs.inside d0 hd0
  have hlt : p < e.W := by have := hh0.2.2; omega
  rw [(wrap_exact_partial e he src hs hx _ hlt).1 _ _ hp]
  refine unwrap_none e dst _ fun d hd hl h => hno d hd hl ?_
  simp only at h
  omega

/-! ## Non-vacuity and what does not hold -/

/-- A toy machine with 8-bit addresses and offsets. -/
def small : Env := ⟨256, 128⟩
def portA : Port := ⟨16, 8, 3, .shared, true⟩
def portB : Port := ⟨32, 8, 5, .mmioSizeof, true⟩
def portA' : Port := ⟨64, 8, 3, .shared, true⟩

example : Layout small [portA, portB] ∧ Exact small [portA, portB] ∧ At [portA, portB] 34 5 2 ∧ At [portA, portB] 17 3 1 := by
  refine ⟨⟨by decide, ?_⟩, .inr (by decide), ⟨portB, by decide, ⟨rfl, by decide, by decide⟩, rfl, rfl⟩, ⟨portA, by decide, ⟨rfl, by decide, by decide⟩, rfl, rfl⟩⟩
  simp only [List.pairwise_cons, List.mem_singleton, forall_eq, List.not_mem_nil, false_imp_iff, implies_true, List.Pairwise.nil, and_true]
  rintro p ⟨_, _, h⟩ ⟨_, h', _⟩
  simp only [portA, portB] at h h'
  omega

example : unwrap small [portA'] (wrap small [portA, portB] 17) = 65 ∧ unwrap small [portA'] (wrap small [portA, portB] 34) = 0 := by decide

/-- **Full C63 fails**: with addresses as long as offsets, every pointer below an MMIO dataport of type
`Buf(size)` (up to half of the address space away) is taken to be inside it. -/
theorem below_mmio_accepted (e : Env) (he : e.W = 2 * e.half) (d : Port) (hk : d.kind = .mmioLiteral) (hb : d.base < e.W) (p : Nat) (hp : p < d.base)
    (hn : d.base - p ≤ e.half) : wrapOne e d p = some ⟨d.id, (p : Int) - d.base⟩ := by
  unfold wrapOne
  rw [hk]
  simp only
  have : sub e p d.base = p + e.W - d.base := by unfold sub; rw [Nat.mod_eq_of_lt (by omega)]
  rw [this]
  have : toOff e (p + e.W - d.base) = (p : Int) - d.base := by
    unfold toOff
    rw [if_neg (by omega)]
    omega
  rw [this, if_pos (by omega)]

/-- So a pointer into a dataport that is shared can fail to arrive, although both sides share it. -/
theorem shared_pointer_lost : ∃ e src dst p id off, e.W = 2 * e.half ∧ Layout e src ∧ Layout e dst ∧ At src p id off ∧
    (∃ d ∈ dst, d.linked = true ∧ d.id = id) ∧ (∀ d ∈ dst, d.linked = true → d.id = id → off < d.size) ∧ unwrap e dst (wrap e src p) = 0 := by
  refine ⟨small, [⟨32, 8, 5, .mmioLiteral, true⟩, portA], [portA'], 17, 3, 1, rfl, ⟨by decide, ?_⟩, ⟨by decide, by simp⟩,
    ⟨portA, by decide, ⟨rfl, by decide, by decide⟩, rfl, rfl⟩, ⟨portA', by decide, rfl, rfl⟩, by decide, by decide⟩
  simp only [List.pairwise_cons, List.mem_singleton, forall_eq, List.not_mem_nil, false_imp_iff, implies_true, List.Pairwise.nil, and_true]
  rintro p ⟨_, h', _⟩ ⟨_, _, h⟩
  simp only [portA] at h h'
  omega

/-- Unwrapping does not check the offset: for every address there is a value that unwraps to it. -/
theorem unwrap_unchecked (e : Env) (d : Port) (hl : d.linked = true) (hb : d.base < e.W) (a : Nat) (h0 : 0 < a) (ha : a < e.W) : ∃ q : Ptr, unwrap e [d] q = a := by
  refine ⟨⟨d.id, (a : Int) - d.base⟩, ?_⟩
  have : (d.base + (((a : Int) - d.base) % (e.W : Int)).toNat) % e.W = a := by
    by_cases h : d.base ≤ a
    · rw [Int.emod_eq_of_lt (by omega) (by omega), Nat.mod_eq_of_lt (by omega)]; omega
    · have : ((a : Int) - d.base) % (e.W : Int) = (a : Int) - d.base + e.W := by
        rw [← Int.add_emod_right, Int.emod_eq_of_lt (by omega) (by omega)]
      rw [this, show d.base + ((a : Int) - d.base + e.W).toNat = a + e.W by omega, Nat.add_mod_right, Nat.mod_eq_of_lt ha]
  rw [unwrap, if_pos hl, unwrapOne, if_pos rfl]
  simp only [this]
  rw [if_pos (by omega)]

/-- A component with two dataports on one connection gets another pointer back (to the same byte). -/
theorem other_mapping : ∃ ds p, Layout small ds ∧ Exact small ds ∧ (∃ d ∈ ds, d.Has p) ∧ unwrap small ds (wrap small ds p) ≠ p := by
  refine ⟨[portA, portA'], 65, ⟨by decide, ?_⟩, .inr (by decide), ⟨portA', by decide, rfl, by decide, by decide⟩, by decide⟩
  simp only [List.pairwise_cons, List.mem_singleton, forall_eq, List.not_mem_nil, false_imp_iff, implies_true, List.Pairwise.nil, and_true]
  rintro p ⟨_, _, h⟩ ⟨_, h', _⟩
  simp only [portA, portA'] at h h'
  omega

/-- A dataport that is smaller on the side of the receiver makes the pointer point outside of it. -/
theorem smaller_receiver : ∃ src dst p id off, Layout small src ∧ Exact small src ∧ Layout small dst ∧ At src p id off ∧
    (∃ d ∈ dst, d.linked = true ∧ d.id = id) ∧ unwrap small dst (wrap small src p) ≠ 0 ∧ ∀ d ∈ dst, ¬ d.Has (unwrap small dst (wrap small src p)) := by
  refine ⟨[portA], [⟨64, 4, 3, .shared, true⟩], 22, 3, 6, ⟨by decide, by simp⟩, .inr (by decide), ⟨by decide, by simp⟩,
    ⟨portA, by decide, ⟨rfl, by decide, by decide⟩, rfl, rfl⟩, ⟨_, List.mem_singleton.mpr rfl, rfl, rfl⟩, by decide, ?_⟩
  intro d hd
  rw [List.mem_singleton] at hd
  subst hd
  rintro ⟨_, _, h⟩
  revert h
  decide

end Verif.DPtr
