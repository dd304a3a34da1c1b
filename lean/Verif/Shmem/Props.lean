import Verif.Shmem.Spec
import Verif.Context.Props
import Mathlib.Tactic.ByContra

/-!
# Theorems for C85
-/

namespace Verif.Shmem

open Verif.Context (Text St objAlloc registerShared ObjInv frameNames allocAll)
open Verif.Macros (getPageSize)
open Spec

theorem getPageSize_dvd (size : Nat) (ps : List Nat) (h : getPageSize size ps ≠ 0) :
    getPageSize size ps ∣ size ∧ getPageSize size ps ≤ size ∧ getPageSize size ps ∈ ps := by
  unfold getPageSize at *
  cases hf : ps.reverse.find? (fun sz => decide (size ≥ sz) && decide (size % sz = 0)) with
  | none => rw [hf] at h; exact absurd rfl h
  | some z =>
    have h1 := List.find?_some hf
    simp only [Bool.and_eq_true, decide_eq_true_eq] at h1
    exact ⟨Nat.dvd_of_mod_eq_zero h1.2, h1.1, List.mem_reverse.1 (List.mem_of_find?_eq_some hf)⟩

theorem getPageSize_ne_zero (size : Nat) (ps : List Nat) (hpos : ∀ p ∈ ps, 0 < p) :
    getPageSize size ps ≠ 0 ↔ ∃ p ∈ ps, p ≤ size ∧ p ∣ size := by
  constructor
  · intro h
    obtain ⟨a, b, c⟩ := getPageSize_dvd size ps h
    exact ⟨_, c, b, a⟩
  · rintro ⟨p, hp, h1, h2⟩
    unfold getPageSize
    cases hf : ps.reverse.find? (fun sz => decide (size ≥ sz) && decide (size % sz = 0)) with
    | none =>
      have := List.find?_eq_none.1 hf p (List.mem_reverse.2 hp)
      simp [h1, Nat.mod_eq_zero_of_dvd h2] at this
    | some z =>
      have := hpos z (List.mem_reverse.1 (List.mem_of_find?_eq_some hf))
      simp only
      omega

theorem roundUpUnsafe_le (x y z : Nat) (hy : 0 < y) (hz : y ∣ z) : roundUpUnsafe x y ≤ z ↔ x ≤ z := by
  obtain ⟨k, rfl⟩ := hz
  rw [roundUpUnsafe, Nat.mul_comm _ y, Nat.mul_le_mul_left_iff hy, ← Nat.lt_succ_iff, Nat.div_lt_iff_lt_mul hy,
    Nat.succ_mul, Nat.mul_comm k y]
  omega

theorem roundUpUnsafe_mod (x y : Nat) : roundUpUnsafe x y % y = 0 := by
  rw [roundUpUnsafe, Nat.mul_mod_left]

theorem le_roundUpUnsafe (x y : Nat) (hy : 0 < y) : x ≤ roundUpUnsafe x y :=
  (roundUpUnsafe_le x y _ hy (Nat.dvd_of_mod_eq_zero (roundUpUnsafe_mod x y))).1 (Nat.le_refl _)

theorem typeSize_eq (t : DType) : typeSize t = typeBytes t := by cases t <;> rfl

/-- The size that is registered. -/
def sizeOf' (st : Settings) (e : PortEnd) : Nat :=
  match e.connector with
  | .sharedData => portSize st e
  | .dmaSharedData => (st.size e.conn).getD 4096

/-- The frame size that is registered. -/
def pageOf (ps : List Nat) (st : Settings) (e : PortEnd) : Nat :=
  match e.connector with
  | .sharedData => getPageSize (portSize st e) ps
  | .dmaSharedData => 4096

/-- The name of the region of a connection. -/
def region (conn : Text) : Text := conn ++ ['_', 'd', 'a', 't', 'a']

theorem region_inj {a b : Text} (h : region a = region b) : a = b := List.append_cancel_right h

/-- What is known of an end that has been rendered. -/
structure Good (ps : List Nat) (st : Settings) (objs : List (Text × Nat)) (e : PortEnd) (m : Mapped) : Prop where
  pos : 0 < pageOf ps st e
  dvd : pageOf ps st e ∣ sizeOf' st e
  fits : bytes st e ≤ sizeOf' st e
  frameSize : m.frameSize = pageOf ps st e
  symbol : m.symbolBytes = sizeOf' st e
  frames : List.Forall₂ (fun n o => (n, o) ∈ objs) (frameNames (region e.conn) (sizeOf' st e / pageOf ps st e)) m.frames

theorem register_spec (ps : List Nat) (s : St) (conn : Text) (size page symbol : Nat) (paddr : Option Nat) (perm : Text)
    (cached : Bool) (hp : 0 < page) (hs : ObjInv s) :
    (register ps s conn size page symbol paddr perm cached).toOption.isSome = decide (symbol ≤ size ∧ symbol % page = 0) ∧
    ∀ s' m, register ps s conn size page symbol paddr perm cached = .ok (s', m) →
      ObjInv s' ∧ (∀ x ∈ s.objects, x ∈ s'.objects) ∧ symbol ≤ size ∧ symbol % page = 0 ∧ m.frameSize = page ∧
      m.symbolBytes = symbol ∧ m.rights = rightsOf perm ∧ m.cached = cached ∧
      m.paddrs = paddr.map (fun p => (List.range (size / page)).map fun i => p + i * page) ∧
      List.Forall₂ (fun n o => (n, o) ∈ s'.objects) (frameNames (region conn) (size / page)) m.frames := by
  obtain ⟨k, rfl⟩ : ∃ k, page = k + 1 := ⟨page - 1, by omega⟩
  obtain ⟨b1, b2, b3⟩ := Verif.Context.allocAll_spec (frameNames (region conn) (size / (k + 1))) s hs
  have hr : registerShared ps s (conn ++ ['_', 'd', 'a', 't', 'a']) size (some (k + 1)) paddr =
      .ok ((allocAll s (frameNames (region conn) (size / (k + 1)))).1,
        (allocAll s (frameNames (region conn) (size / (k + 1)))).2, List.replicate (size / (k + 1)) (k + 1),
        paddr.map (fun p => (List.range (size / (k + 1))).map fun i => p + i * (k + 1))) := rfl
  rw [register, hr]
  simp only
  split
  · rename_i h
    refine ⟨by simp [h, Except.toOption], ?_⟩
    intro s' m he
    cases he
    exact ⟨b1, b2, h.1, h.2, rfl, rfl, rfl, rfl, rfl, b3⟩
  · rename_i h
    refine ⟨by simp [h, Except.toOption], ?_⟩
    intro s' m he
    cases he

theorem renderEnd_spec (ps : List Nat) (st : Settings) (s : St) (e : PortEnd) (s' : St) (m : Mapped) (hs : ObjInv s)
    (h : renderEnd ps st s e = .ok (s', m)) :
    ObjInv s' ∧ (∀ x ∈ s.objects, x ∈ s'.objects) ∧ Good ps st s'.objects e m ∧
    ∃ perm, getPerm (st.access e.inst e.iface) = .ok perm ∧ m.rights = rightsOf perm := by
  obtain ⟨conn, ct, inst, iface, ty⟩ := e
  rw [renderEnd] at h
  cases ct with
  | sharedData =>
    simp only at h
    split at h
    · cases h
    · rename_i hp
      split at h
      · cases h
      · rename_i perm hperm
        obtain ⟨hd, _, _⟩ := getPageSize_dvd _ _ hp
        have hpos : 0 < getPageSize (portSize st ⟨conn, .sharedData, inst, iface, ty⟩) ps := by omega
        obtain ⟨h1, h2, h3, h4, h5, h6, h7, h8, h9, h10⟩ := (register_spec ps s conn _ _ _ none perm true hpos hs).2 s' m h
        have hle := (roundUpUnsafe_le _ _ _ hpos hd).1 h3
        refine ⟨h1, h2, ⟨hpos, hd, ?_, h5, ?_, h10⟩, perm, hperm, h7⟩
        · simp only [bytes, sizeOf', ← typeSize_eq]
          omega
        · rw [h6]
          simp only [sizeOf']
          have := le_roundUpUnsafe (max (typeSize ty) (portSize st ⟨conn, .sharedData, inst, iface, ty⟩)) _ hpos
          omega
  | dmaSharedData =>
    simp only at h
    split at h
    · cases h
    · rename_i perm hperm
      obtain ⟨h1, h2, h3, h4, h5, h6, h7, h8, h9, h10⟩ := (register_spec ps s conn _ _ _ _ perm _ (by decide) hs).2 s' m h
      have hle := le_roundUpUnsafe ((st.size conn).getD 4096) 4096 (by decide)
      have heq : roundUpUnsafe ((st.size conn).getD 4096) 4096 = (st.size conn).getD 4096 := by omega
      refine ⟨h1, h2, ⟨by simp [pageOf], ?_, Nat.le_refl _, h5, ?_, h10⟩, perm, hperm, h7⟩
      · simp only [pageOf, sizeOf']
        rw [heq] at h4
        exact Nat.dvd_of_mod_eq_zero h4
      · rw [h6]; exact heq

theorem render_spec (ps : List Nat) (st : Settings) : ∀ (steps : List Step) (s s' : St) (ms : List (PortEnd × Mapped)),
    ObjInv s → render ps st s steps = .ok (s', ms) →
    ObjInv s' ∧ (∀ x ∈ s.objects, x ∈ s'.objects) ∧
    (steps.filterMap fun | .port e => some e | .other _ => none) = ms.map (·.1) ∧
    ∀ x ∈ ms, Good ps st s'.objects x.1 x.2 ∧
      ∃ perm, getPerm (st.access x.1.inst x.1.iface) = .ok perm ∧ x.2.rights = rightsOf perm
  | [], s, s', ms, hs, h => by
    cases h
    exact ⟨hs, fun _ h => h, rfl, by simp⟩
  | .other name :: rest, s, s', ms, hs, h => by
    rw [render] at h
    obtain ⟨a1, _, a3, _, _⟩ := Verif.Context.objAlloc_spec s name hs
    obtain ⟨b1, b2, b3, b4⟩ := render_spec ps st rest _ s' ms a1 h
    exact ⟨b1, fun x hx => b2 x (a3 x hx), by simpa using b3, b4⟩
  | .port e :: rest, s, s', ms, hs, h => by
    rw [render] at h
    split at h
    · cases h
    · rename_i s1 m he
      split at h
      · cases h
      · rename_i s2 ms' hr
        cases h
        obtain ⟨a1, a2, a3, a4⟩ := renderEnd_spec ps st s e s1 m hs he
        obtain ⟨b1, b2, b3, b4⟩ := render_spec ps st rest s1 _ ms' a1 hr
        refine ⟨b1, fun x hx => b2 x (a2 x hx), by simpa using b3, ?_⟩
        intro x hx
        rcases List.mem_cons.1 hx with rfl | hx
        · exact ⟨⟨a3.pos, a3.dvd, a3.fits, a3.frameSize, a3.symbol, a3.frames.imp fun _ _ h => b2 _ h⟩, a4⟩
        · exact b4 x hx

theorem frameNames_length (g : Text) (n : Nat) : (frameNames g n).length = n := by simp [frameNames]

/-- The frame behind an offset. -/
theorem Good.backing_some {ps : List Nat} {st : Settings} {objs : List (Text × Nat)} {e : PortEnd} {m : Mapped}
    (h : Good ps st objs e m) {off : Nat} (ho : off < sizeOf' st e) :
    ∃ f n, backing m off = some (f, off % pageOf ps st e) ∧ (n, f) ∈ objs ∧
      (frameNames (region e.conn) (sizeOf' st e / pageOf ps st e))[off / pageOf ps st e]? = some n := by
  have hlt : off / pageOf ps st e < sizeOf' st e / pageOf ps st e := Nat.div_lt_div_of_lt_of_dvd h.dvd ho
  have hl := h.frames.length_eq
  rw [frameNames_length] at hl
  have hf : off / pageOf ps st e < m.frames.length := by omega
  have hn : off / pageOf ps st e < (frameNames (region e.conn) (sizeOf' st e / pageOf ps st e)).length := by
    rw [frameNames_length]; omega
  refine ⟨m.frames[off / pageOf ps st e], _, ?_, h.frames.get hn hf, List.getElem?_eq_getElem hn⟩
  rw [backing, h.frameSize, List.getElem?_eq_getElem hf]
  rfl

/-- **C85 (memory).** In every assembly, whatever the order in which the templates are rendered: every byte of a
dataport is backed by memory, and two bytes of any two dataports are the same byte of memory exactly if they
have the same offset and belong to the same connection. -/
theorem same_byte_iff (ps : List Nat) (st : Settings) (steps : List Step) (s : St) (ms : List (PortEnd × Mapped))
    (h : render ps st Verif.Context.start steps = .ok (s, ms)) (hs : Sound steps) :
    (steps.filterMap fun | .port e => some e | .other _ => none) = ms.map (·.1) ∧
    ∀ e m e' m', (e, m) ∈ ms → (e', m') ∈ ms → ∀ off off', off < bytes st e → off' < bytes st e' →
      (backing m off).isSome = true ∧ (backing m off = backing m' off' ↔ e.conn = e'.conn ∧ off = off') := by
  obtain ⟨hinv, _, hsteps, hall⟩ := render_spec ps st steps _ s ms Verif.Context.start_objInv h
  refine ⟨hsteps, ?_⟩
  intro e m e' m' hm hm' off off' ho ho'
  have g := (hall _ hm).1
  have g' := (hall _ hm').1
  obtain ⟨f, n, hb, hf, hn⟩ := g.backing_some (Nat.lt_of_lt_of_le ho g.fits)
  obtain ⟨f', n', hb', hf', hn'⟩ := g'.backing_some (Nat.lt_of_lt_of_le ho' g'.fits)
  simp only at hb hb' hn hn'
  refine ⟨by rw [hb]; rfl, ?_⟩
  have hport : ∀ x ∈ ms, Step.port x.1 ∈ steps := by
    intro x hx
    have : x.1 ∈ ms.map (·.1) := List.mem_map_of_mem hx
    rw [← hsteps, List.mem_filterMap] at this
    obtain ⟨st', hst, he⟩ := this
    cases st' with
    | other _ => cases he
    | port y => simp only [Option.some.injEq] at he; exact he ▸ hst
  have hsame : e.conn = e'.conn → sizeOf' st e = sizeOf' st e' ∧ pageOf ps st e = pageOf ps st e' := by
    intro hc
    obtain ⟨h1, h2⟩ := hs e e' (hport _ hm) (hport _ hm') hc
    constructor <;> simp only [sizeOf', pageOf, portSize, h1, h2, hc]
  rw [hb, hb', Option.some.injEq, Prod.mk.injEq]
  constructor
  · rintro ⟨rfl, hmod⟩
    have hnn : n = n' := congrArg Prod.fst (List.inj_on_of_nodup_map hinv.objs hf hf' rfl)
    subst hnn
    have hc : e.conn = e'.conn := by
      by_contra hne
      exact Verif.Context.frameNames_disjoint _ _ _ _ (fun hr => hne (region_inj hr)) n (List.mem_of_getElem? hn)
        (List.mem_of_getElem? hn')
    refine ⟨hc, ?_⟩
    obtain ⟨h1, h2⟩ := hsame hc
    rw [← h1, ← h2, ← hc] at hn'
    rw [← h2] at hmod
    have hdiv : off / pageOf ps st e = off' / pageOf ps st e := by
      have hlt : off / pageOf ps st e < (frameNames (region e.conn) (sizeOf' st e / pageOf ps st e)).length := by
        rw [List.getElem?_eq_some_iff] at hn
        exact hn.1
      exact (List.getElem?_inj hlt (Verif.Context.frameNames_nodup _ _)).1 (hn.trans hn'.symm)
    rw [← Nat.div_add_mod off (pageOf ps st e), ← Nat.div_add_mod off' (pageOf ps st e), hdiv, hmod]
  · rintro ⟨hc, rfl⟩
    obtain ⟨h1, h2⟩ := hsame hc
    rw [← h1, ← h2, ← hc] at hn'
    rw [hn] at hn'
    cases hn'
    have : (n, f) = (n, f') := List.inj_on_of_nodup_map hinv.names hf hf' rfl
    exact ⟨congrArg Prod.snd this, by rw [h2]⟩

/-! ### Rights -/

theorem skip_cases (ch : Char) (l : Text) : ∃ b : Bool, l = (if b then [ch] else []) ++ skip ch l := by
  cases l with
  | nil => exact ⟨false, rfl⟩
  | cons x l =>
    by_cases h : x = ch
    · exact ⟨true, by simp [skip, h]⟩
    · exact ⟨false, by simp [skip, h]⟩

theorem permMatch_proper (l : Text) : permMatch l = true ↔ Proper l ∨ ∃ r, Proper r ∧ l = r ++ ['\n'] := by
  constructor
  · intro h
    simp only [permMatch, Bool.or_eq_true, beq_iff_eq] at h
    obtain ⟨r, hr⟩ := skip_cases 'R' l
    obtain ⟨w, hw⟩ := skip_cases 'W' (skip 'R' l)
    obtain ⟨x, hx⟩ := skip_cases 'X' (skip 'W' (skip 'R' l))
    obtain ⟨p, hp⟩ := skip_cases 'P' (skip 'X' (skip 'W' (skip 'R' l)))
    have e : l = (if r then ['R'] else []) ++ (if w then ['W'] else []) ++ (if x then ['X'] else []) ++
        (if p then ['P'] else []) ++ skip 'P' (skip 'X' (skip 'W' (skip 'R' l))) := by
      conv => lhs; rw [hr, hw, hx, hp]
      simp only [List.append_assoc]
    rcases h with h | h
    · rw [h, List.append_nil] at e
      exact .inl ⟨r, w, x, p, e⟩
    · rw [h] at e
      exact .inr ⟨_, ⟨r, w, x, p, rfl⟩, e⟩
  · rintro (⟨r, w, x, p, rfl⟩ | ⟨_, ⟨r, w, x, p, rfl⟩, rfl⟩) <;> revert r w x p <;> decide

/-- **C85 (rights).** Every dataport is mapped with exactly the rights that the access setting gives it, or all
if there is none. Missing is the empty setting (`empty_access_gives_all`). -/
theorem rights_partial (ps : List Nat) (st : Settings) (steps : List Step) (s : St) (ms : List (PortEnd × Mapped))
    (h : render ps st Verif.Context.start steps = .ok (s, ms)) (e : PortEnd) (m : Mapped) (hm : (e, m) ∈ ms)
    (hne : st.access e.inst e.iface ≠ some []) : m.rights = allowed (st.access e.inst e.iface) := by
  obtain ⟨_, _, _, hall⟩ := render_spec ps st steps _ s ms Verif.Context.start_objInv h
  obtain ⟨_, perm, hp, hr⟩ := hall _ hm
  rw [hr]
  simp only at hp
  generalize st.access e.inst e.iface = a at hp hne
  cases a with
  | none => cases hp; rfl
  | some l =>
    cases l with
    | nil => exact absurd rfl hne
    | cons ch l =>
      simp only [getPerm] at hp
      split at hp
      · cases hp
        simp only [rightsOf, allowed, List.contains_eq_mem]
      · cases hp

/-- **C85 (what is accepted).** An end is accepted exactly if its size is a multiple of a page size, its type is
not larger, and its access setting is proper (or proper with a newline). -/
theorem accepted_iff (ps : List Nat) (hps : ∀ p ∈ ps, 0 < p) (st : Settings) (s : St) (hs : ObjInv s) (e : PortEnd) :
    (∃ r, renderEnd ps st s e = .ok r) ↔
      (∀ l, st.access e.inst e.iface = some l → Proper l ∨ ∃ r, Proper r ∧ l = r ++ ['\n']) ∧
      match e.connector with
      | .sharedData => (∃ p ∈ ps, p ≤ requested st e ∧ p ∣ requested st e) ∧ typeBytes e.type ≤ requested st e
      | .dmaSharedData => 4096 ∣ requested st e := by
  have hperm : (∃ p, getPerm (st.access e.inst e.iface) = .ok p) ↔
      ∀ l, st.access e.inst e.iface = some l → Proper l ∨ ∃ r, Proper r ∧ l = r ++ ['\n'] := by
    generalize st.access e.inst e.iface = a
    cases a with
    | none => exact ⟨fun _ l h => (by cases h), fun _ => ⟨_, rfl⟩⟩
    | some l =>
      cases l with
      | nil =>
        refine ⟨fun _ l h => ?_, fun _ => ⟨_, rfl⟩⟩
        cases h
        exact .inl ⟨false, false, false, false, rfl⟩
      | cons ch l =>
        constructor
        · rintro ⟨p, hp⟩ l' h
          cases h
          simp only [getPerm] at hp
          split at hp
          · rename_i hm
            exact (permMatch_proper _).1 hm
          · cases hp
        · intro h
          have := (permMatch_proper _).2 (h _ rfl)
          exact ⟨_, by simp only [getPerm]; rw [if_pos this]⟩
  have hreg : ∀ (conn : Text) (size page symbol : Nat) (paddr : Option Nat) (perm : Text) (cached : Bool), 0 < page →
      ((∃ r, register ps s conn size page symbol paddr perm cached = .ok r) ↔ symbol ≤ size ∧ symbol % page = 0) := by
    intro conn size page symbol paddr perm cached hp
    have := (register_spec ps s conn size page symbol paddr perm cached hp hs).1
    cases hr : register ps s conn size page symbol paddr perm cached with
    | error x =>
      rw [hr] at this
      simp only [Except.toOption, Option.isSome_none] at this
      have := of_decide_eq_false this.symm
      simp only [this, iff_false]
      rintro ⟨r, h⟩
      cases h
    | ok r =>
      rw [hr] at this
      simp only [Except.toOption, Option.isSome_some] at this
      have := of_decide_eq_true this.symm
      exact ⟨fun _ => this, fun _ => ⟨r, rfl⟩⟩
  rw [← hperm, renderEnd]
  obtain ⟨conn, ct, inst, iface, ty⟩ := e
  cases ct with
  | sharedData =>
    have hreq : requested st ⟨conn, .sharedData, inst, iface, ty⟩ = portSize st ⟨conn, .sharedData, inst, iface, ty⟩ := by
      cases ty <;> rfl
    simp only
    rw [hreq, ← typeSize_eq, ← getPageSize_ne_zero _ _ hps]
    split
    · rename_i h0
      constructor
      · rintro ⟨r, h⟩; cases h
      · rintro ⟨_, h, _⟩; exact absurd h0 h
    · rename_i h0
      have hpos : 0 < getPageSize (portSize st ⟨conn, .sharedData, inst, iface, ty⟩) ps := by omega
      obtain ⟨hd, _, _⟩ := getPageSize_dvd _ _ h0
      split
      · rename_i x hx
        constructor
        · rintro ⟨r, h⟩; cases h
        · rintro ⟨⟨p, h⟩, _⟩; rw [hx] at h; cases h
      · rename_i perm hx
        rw [hreg _ _ _ _ _ _ _ hpos, roundUpUnsafe_le _ _ _ hpos hd]
        constructor
        · rintro ⟨h1, _⟩; exact ⟨⟨perm, hx⟩, h0, by omega⟩
        · rintro ⟨_, _, h⟩; exact ⟨by omega, roundUpUnsafe_mod _ _⟩
  | dmaSharedData =>
    have hreq : requested st ⟨conn, .dmaSharedData, inst, iface, ty⟩ = (st.size conn).getD 4096 := by
      cases ty <;> rfl
    simp only
    rw [hreq]
    split
    · rename_i x hx
      constructor
      · rintro ⟨r, h⟩; cases h
      · rintro ⟨⟨p, h⟩, _⟩; rw [hx] at h; cases h
    · rename_i perm hx
      rw [hreg _ _ _ _ _ _ _ (by decide)]
      have hle := le_roundUpUnsafe ((st.size conn).getD 4096) 4096 (by decide)
      constructor
      · rintro ⟨h1, h2⟩
        refine ⟨⟨perm, hx⟩, ?_⟩
        have : roundUpUnsafe ((st.size conn).getD 4096) 4096 = (st.size conn).getD 4096 := by omega
        rw [this] at h2
        exact Nat.dvd_of_mod_eq_zero h2
      · rintro ⟨_, h⟩
        exact ⟨(roundUpUnsafe_le _ _ _ (by decide) h).2 (Nat.le_refl _), roundUpUnsafe_mod _ _⟩

/-- **C85 (caching and addresses).** Dataports are cached, except those of DMA connections whose setting says
otherwise; the frames of a DMA connection lie at the address of its setting. -/
theorem dma_attributes (ps : List Nat) (st : Settings) (s s' : St) (hs : ObjInv s) (e : PortEnd) (m : Mapped)
    (h : renderEnd ps st s e = .ok (s', m)) :
    match e.connector with
    | .sharedData => m.cached = true ∧ m.paddrs = none
    | .dmaSharedData => m.cached = (st.cached e.inst e.iface).getD true ∧
      m.paddrs.isSome = (st.paddr e.conn).isSome ∧
      ∀ p l, st.paddr e.conn = some p → m.paddrs = some l → l.length = m.frames.length ∧
        ∀ i a, l[i]? = some a → a = p + i * 4096 := by
  obtain ⟨conn, ct, inst, iface, ty⟩ := e
  rw [renderEnd] at h
  cases ct with
  | sharedData =>
    simp only at h ⊢
    split at h
    · cases h
    · rename_i hp
      split at h
      · cases h
      · rename_i perm hperm
        have hpos : 0 < getPageSize (portSize st ⟨conn, .sharedData, inst, iface, ty⟩) ps := by omega
        obtain ⟨_, _, _, _, _, _, _, h8, h9, _⟩ := (register_spec ps s conn _ _ _ none perm true hpos hs).2 s' m h
        exact ⟨h8, h9⟩
  | dmaSharedData =>
    simp only at h ⊢
    split at h
    · cases h
    · rename_i perm hperm
      obtain ⟨_, _, _, _, _, _, _, h8, h9, h10⟩ := (register_spec ps s conn _ _ _ _ perm _ (by decide) hs).2 s' m h
      refine ⟨h8, by rw [h9]; simp, ?_⟩
      intro p l hp hl
      rw [h9, hp] at hl
      cases hl
      have hlen := h10.length_eq
      rw [frameNames_length] at hlen
      refine ⟨by simpa using hlen, ?_⟩
      intro i a ha
      rw [List.getElem?_map, Option.map_eq_some_iff] at ha
      obtain ⟨j, hj, rfl⟩ := ha
      rw [List.getElem?_eq_some_iff] at hj
      obtain ⟨_, hj⟩ := hj
      simp only [List.getElem_range] at hj
      rw [hj]

/-! ### Examples and disagreements -/

/-- Settings: `a` may read the dataport only; nothing is said about `b`; `c` is given no rights. -/
def demoSettings : Settings :=
  ⟨fun _ => some 8192, fun _ => none,
    fun i _ => if i = ['a'] then some ['R'] else if i = ['c'] then some [] else none, fun _ _ => none⟩

/-- An end of connection `n` in instance `i`. -/
def demoEnd (n i : Char) : PortEnd := ⟨[n], .sharedData, [i], ['d'], .named 5000⟩

/-- Two connections with two ends each. -/
def demoSteps : List Step :=
  [.port (demoEnd 'x' 'a'), .other ['o'], .port (demoEnd 'y' 'b'), .port (demoEnd 'y' 'a'), .port (demoEnd 'x' 'c')]

example : ((render [4096, 2097152] demoSettings Verif.Context.start demoSteps).toOption.map fun r =>
      r.2.map fun x => (x.2.frames, x.2.rights)) =
    some [([0, 1], ⟨true, false, false⟩), ([3, 4], ⟨true, true, true⟩), ([3, 4], ⟨true, false, false⟩),
      ([0, 1], ⟨true, true, true⟩)] := by decide

example : Sound demoSteps := by
  intro e e' h h'
  simp only [demoSteps, List.mem_cons, Step.port.injEq, List.not_mem_nil, or_false, reduceCtorEq, false_or] at h h'
  rcases h with rfl | rfl | rfl | rfl <;> rcases h' with rfl | rfl | rfl | rfl <;> simp [demoEnd]

/-- **Disagreement with C85.** An access setting without any letter gives all rights. -/
theorem empty_access_gives_all : (render [4096, 2097152] demoSettings Verif.Context.start [.port (demoEnd 'x' 'c')]).toOption.map
      (fun r => r.2.map fun x => x.2.rights) = some [⟨true, true, true⟩] ∧
    allowed (demoSettings.access ['c'] ['d']) = ⟨false, false, false⟩ := by
  constructor <;> decide

/-- **Disagreement with C85.** The letters in another order are refused. -/
theorem order_refused : getPerm (some ['W', 'R']) = .error .template := rfl

end Verif.Shmem
