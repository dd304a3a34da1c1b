import Verif.UntypedAddr.Spec
import Mathlib.Tactic.SplitIfs
import Mathlib.Data.List.Basic

/-! # C123: where the memory of a component is -/

namespace Verif.UntypedAddr

open Verif.Errors (Action)

theorem Same.rfl' (w : World) : Same w w := ⟨rfl, rfl, rfl, rfl, fun _ => rfl⟩

theorem Same.trans {a b c : World} (h : Same a b) (k : Same b c) : Same a c :=
  ⟨k.slot.trans h.slot, k.base.trans h.base, k.bits.trans h.bits, k.children.trans h.children,
    fun u => (k.free u).trans (h.free u)⟩

theorem pow_page {b : Nat} (h : 12 ≤ b) : 4096 ≤ 2 ^ b := by
  have := Nat.pow_le_pow_right (n := 2) (by omega) h
  simpa using this

/-- The page in an empty memory. -/
def paged (w : World) (u : Nat) : World :=
  { w with
    children := Function.update w.children u 1
    mark := Function.update w.mark u 4096
    slot := some (u, w.base u) }

theorem retype_fresh {w : World} {u : Nat} (hs : w.slot = none) (hc : w.children u = 0) (hb : 12 ≤ w.bits u) :
    retype w u = some (paged w u) := by
  have := pow_page hb
  simp [retype, hs, World.free, hc, this, paged]

theorem delete_paged {w : World} {u : Nat} (hs : w.slot = none) (hc : w.children u = 0) :
    Same w (delete (paged w u)) := by
  have hch : (delete (paged w u)).children = w.children := by
    simp only [delete, paged]
    funext j
    by_cases hj : j = u
    · subst hj; simp [hc]
    · simp [hj, Function.update_of_ne]
  refine ⟨by simp [delete, paged, hs], rfl, rfl, hch, ?_⟩
  intro j
  unfold World.free
  rw [hch]
  by_cases hj : j = u
  · subst hj; simp [hc]
  · simp [delete, paged, hj, Function.update_of_ne]

/-- A memory that is not at the address 0. -/
theorem makeFrame_fresh {h : Fault → Action} {w : World} {u : Nat} (hs : w.slot = none) (hc : w.children u = 0)
    (hb : 12 ≤ w.bits u) (h0 : w.base u ≠ 0 ∨ h .address = .ignore) :
    ∃ w', makeFrame h w u = some (w.base u, w') ∧ Same w w' := by
  refine ⟨delete (paged w u), ?_, delete_paged hs hc⟩
  rw [makeFrame, retype_fresh hs hc hb]
  simp only [address]
  have ha : getAddress (paged w u) = w.base u := rfl
  rw [ha]
  by_cases hz : w.base u = 0
  · rcases h0 with h0 | h0
    · exact absurd hz h0
    · simp [hz, after, h0]
  · simp [hz]

theorem loop_fresh {h : Fault → Action} {us : List (Nat × Nat)} : ∀ {w : World}, w.slot = none →
    (∀ u ∈ us, w.children u.1 = 0) → (∀ u ∈ us, w.bits u.1 = u.2) →
    (∀ u ∈ us, 12 ≤ u.2 → w.base u.1 ≠ 0 ∨ h .address = .ignore) →
    ∃ w', loop h w us = some (us.map (fun u => if 12 ≤ u.2 then ⟨u.1, w.base u.1, u.2, false⟩
      else Verif.Simple.Entry.zero), w') ∧ Same w w' := by
  induction us with
  | nil => intro w _ _ _ _; exact ⟨w, rfl, Same.rfl' w⟩
  | cons u us ih =>
    intro w hs hc hb h0
    by_cases h12 : 12 ≤ u.2
    · obtain ⟨w', he, hS⟩ := makeFrame_fresh (h := h) (w := w) (u := u.1) hs (hc u (by simp))
        (by rw [hb u (by simp)]; exact h12) (h0 u (by simp) h12)
      obtain ⟨w'', he', hS'⟩ := ih (w := w') (by rw [hS.slot, hs])
        (fun v hv => by rw [hS.children]; exact hc v (by simp [hv]))
        (fun v hv => by rw [hS.bits]; exact hb v (by simp [hv]))
        (fun v hv hv' => by rw [hS.base]; exact h0 v (by simp [hv]) hv')
      refine ⟨w'', ?_, hS.trans hS'⟩
      simp [loop, h12, he, he', hS.base]
    · obtain ⟨w', he, hS⟩ := ih (w := w) hs (fun v hv => hc v (by simp [hv])) (fun v hv => hb v (by simp [hv]))
        (fun v hv hv' => h0 v (by simp [hv]) hv')
      exact ⟨w', by simp [loop, h12, he], hS⟩

/-- **C123 (except for memory at the address 0).** The first call tells the component the true physical address of each
of its memories of at least a page, and leaves all of the memory as free as it was and the slot empty: what is stored
is what `Simple` takes for granted. What is missing: memory at the address 0 (`zero_stops`, `zero_spoils`), unless the
handler of the component ignores the error. -/
theorem told_partial {handler : Fault → Action} {g : Verif.Simple.Gen} {v : Vars} {w : World} (hv : v.init = false)
    (hw : Fresh g w) (h0 : (∀ u ∈ g.untypeds, 12 ≤ u.2 → w.base u.1 ≠ 0) ∨ handler .address = .ignore) :
    ∃ w', makeSimple handler g v w = some (⟨Verif.Simple.stored w.base g, true⟩, w') ∧ Same w w' := by
  obtain ⟨w', he, hS⟩ := loop_fresh (h := handler) (w := w) hw.slot hw.children hw.bits
    (fun u hu h12 => h0.imp (fun h => h u hu h12) id)
  exact ⟨w', by simp [makeSimple, hv, he, Verif.Simple.stored], hS⟩

/-- **C123.** A later call stores nothing and makes nothing, whatever has been made in the memories by then. -/
theorem told_once {handler : Fault → Action} {g : Verif.Simple.Gen} {v v' : Vars} {w w' : World}
    (h : makeSimple handler g v w = some (v', w')) (u : World) : makeSimple handler g v' u = some (v', u) := by
  have : v'.init = true := by
    unfold makeSimple at h
    split_ifs at h with hv
    · cases h; exact hv
    · split at h
      · cases h
      · cases h; rfl
  simp [makeSimple, this]

/-- The frame of a memory at the address 0. -/
theorem makeFrame_zero {h : Fault → Action} {w : World} {u : Nat} (hs : w.slot = none) (hc : w.children u = 0)
    (hb : 12 ≤ w.bits u) (h0 : w.base u = 0) :
    makeFrame h w u = match after h .address with
      | .left => some (0, paged w u)
      | .goesOn => some (0, delete (paged w u))
      | .stopped => none := by
  rw [makeFrame, retype_fresh hs hc hb]
  simp only [address]
  have ha : getAddress (paged w u) = 0 := h0
  rw [ha, if_pos rfl]
  cases after h .address <;> rfl

theorem loop_append {h : Fault → Action} {us vs : List (Nat × Nat)} : ∀ {w : World},
    loop h w (us ++ vs) = match loop h w us with
      | none => none
      | some (es, w') => (loop h w' vs).map (fun r => (es ++ r.1, r.2)) := by
  induction us with
  | nil => intro w; simp [loop]
  | cons u us ih =>
    intro w
    simp only [List.cons_append, loop]
    split
    · cases hm : makeFrame h w u.1 with
      | none => simp
      | some r =>
        obtain ⟨a, w'⟩ := r
        simp only [ih]
        cases hl : loop h w' us with
        | none => simp
        | some q => simp [Function.comp_def]
    · simp only [ih]
      cases hl : loop h w us with
      | none => simp
      | some q => simp [Function.comp_def]

/-- **Disagreement with C123.** Physical address 0 is taken for an error: if one of the memories is there, a component
with the usual handler (which halts) is stopped, although nothing has failed. -/
theorem zero_stops {handler : Fault → Action} {g : Verif.Simple.Gen} {v : Vars} {w : World} (hv : v.init = false)
    (hw : Fresh g w) (hh : handler .address = .halt ∨ handler .address = .abort)
    (hz : ∃ u ∈ g.untypeds, 12 ≤ u.2 ∧ w.base u.1 = 0) :
    makeSimple handler g v w = none := by
  have key : ∀ (us : List (Nat × Nat)) (w : World), w.slot = none → (∀ u ∈ us, w.children u.1 = 0) →
      (∀ u ∈ us, w.bits u.1 = u.2) → (∃ u ∈ us, 12 ≤ u.2 ∧ w.base u.1 = 0) → loop handler w us = none := by
    intro us
    induction us with
    | nil => intro w _ _ _ h; simp at h
    | cons u us ih =>
      intro w hs hc hb hz
      by_cases h12 : 12 ≤ u.2
      · by_cases hu : w.base u.1 = 0
        · simp only [loop, h12, if_true]
          rw [makeFrame_zero hs (hc u (by simp)) (by rw [hb u (by simp)]; exact h12) hu]
          rcases hh with hh | hh <;> simp [after, hh]
        · obtain ⟨w', he, hS⟩ := makeFrame_fresh (h := handler) (w := w) (u := u.1) hs (hc u (by simp))
            (by rw [hb u (by simp)]; exact h12) (.inl hu)
          have := ih w' (by rw [hS.slot, hs]) (fun v hv => by rw [hS.children]; exact hc v (by simp [hv]))
            (fun v hv => by rw [hS.bits]; exact hb v (by simp [hv])) (by
              obtain ⟨x, hx, hx12, hx0⟩ := hz
              rw [List.mem_cons] at hx
              rcases hx with rfl | hx
              · exact absurd hx0 hu
              · exact ⟨x, hx, hx12, by rw [hS.base]; exact hx0⟩)
          simp [loop, h12, he, this]
      · have := ih w hs (fun v hv => hc v (by simp [hv])) (fun v hv => hb v (by simp [hv])) (by
              obtain ⟨x, hx, hx12, hx0⟩ := hz
              rw [List.mem_cons] at hx
              rcases hx with rfl | hx
              · exact absurd hx12 h12
              · exact ⟨x, hx, hx12, hx0⟩)
        simp [loop, h12, this]
  simp [makeSimple, hv, key g.untypeds w hw.slot hw.children hw.bits hz]

/-- While the slot is in use every memory seems to be at 0. -/
theorem loop_spoiled {h : Fault → Action} (hr : h .retype = .discard) {us : List (Nat × Nat)} {w : World}
    (hs : w.slot ≠ none) : loop h w us = some (us.map (fun u => if 12 ≤ u.2 then ⟨u.1, 0, u.2, false⟩
      else Verif.Simple.Entry.zero), w) := by
  induction us with
  | nil => rfl
  | cons u us ih =>
    have : makeFrame h w u.1 = some (0, w) := by simp [makeFrame, retype, hs, after, hr]
    by_cases h12 : 12 ≤ u.2 <;> simp [loop, h12, this, ih]

/-- **Disagreement with C123.** If the handler discards errors (or the component is configured so), the page in a
memory at the address 0 stays where it is: its memory is not free any more, the slot is in use, and all memories after
it seem to be at the address 0. -/
theorem zero_spoils {handler : Fault → Action} {g : Verif.Simple.Gen} {v : Vars} {w : World} (hv : v.init = false)
    (hw : Fresh g w) (hh : ∀ f, handler f = .discard) {us vs : List (Nat × Nat)} {z : Nat × Nat}
    (hg : g.untypeds = us ++ z :: vs) (hz : 12 ≤ z.2) (h0 : w.base z.1 = 0)
    (hus : ∀ u ∈ us, 12 ≤ u.2 → w.base u.1 ≠ 0) :
    ∃ es w', makeSimple handler g v w = some (⟨es, true⟩, w') ∧
      (∀ n u, vs[n]? = some u → 12 ≤ u.2 → es[us.length + 1 + n]? = some ⟨u.1, 0, u.2, false⟩) ∧
      w'.slot = some (z.1, 0) ∧ w'.children z.1 = 1 ∧ w'.free z.1 = 4096 := by
  have hc : ∀ u ∈ us, w.children u.1 = 0 := fun u hu => hw.children u (by simp [hg, hu])
  have hb : ∀ u ∈ us, w.bits u.1 = u.2 := fun u hu => hw.bits u (by simp [hg, hu])
  obtain ⟨w1, he1, hS⟩ := loop_fresh (h := handler) (us := us) (w := w) hw.slot hc hb
    (fun u hu h12 => .inl (hus u hu h12))
  have hzc : w1.children z.1 = 0 := by rw [hS.children]; exact hw.children z (by simp [hg])
  have hm := makeFrame_zero (h := handler) (w := w1) (u := z.1) (by rw [hS.slot]; exact hw.slot) hzc
    (by rw [hS.bits, hw.bits z (by simp [hg])]; exact hz) (by rw [hS.base]; exact h0)
  simp only [after, hh] at hm
  have hl := loop_spoiled (h := handler) (hh .retype) (us := vs) (w := paged w1 z.1) (by simp [paged])
  refine ⟨us.map (fun u => if 12 ≤ u.2 then ⟨u.1, w.base u.1, u.2, false⟩ else Verif.Simple.Entry.zero) ++
    ⟨z.1, 0, z.2, false⟩ :: vs.map (fun u => if 12 ≤ u.2 then ⟨u.1, 0, u.2, false⟩ else Verif.Simple.Entry.zero) ++
    g.untypedMmio.map (fun u => ⟨u.2.2, u.1, u.2.1, true⟩), paged w1 z.1, ?_, ?_, ?_, by simp [paged],
    by simp [paged, World.free]⟩
  · simp only [makeSimple, hv, Bool.false_eq_true, if_false, hg, loop_append, he1, loop, hz, if_true, hm, hl,
      Option.map_some]
  · intro n u hn h12
    have hn' : n < vs.length := (List.getElem?_eq_some_iff.1 hn).1
    rw [List.getElem?_append_left (by simp; omega), List.getElem?_append_right (by simp; omega)]
    simp only [List.length_map]
    rw [show us.length + 1 + n - us.length = n + 1 by omega]
    simp [hn, h12]
  · simp [paged, hS.base, h0]

/-- **C123 (no room).** If there is no room for a page in the first memory and this error is ignored, the address is asked for nevertheless: the
component stops, unless that error is ignored, too, or discarded. -/
theorem no_room_stops {handler : Fault → Action} {g : Verif.Simple.Gen} {v : Vars} {w : World} (hv : v.init = false) (hs : w.slot = none)
    {z : Nat × Nat} {vs : List (Nat × Nat)} (hg : g.untypeds = z :: vs) (hz : 12 ≤ z.2) (hfull : 2 ^ w.bits z.1 < w.free z.1 + 4096)
    (hr : handler .retype = .ignore) (ha : handler .address ≠ .ignore) (hd : handler .address ≠ .discard) :
    makeSimple handler g v w = none := by
  have h1 : retype w z.1 = none := by
    unfold retype
    rw [if_neg (by rintro ⟨-, h⟩; omega)]
  have h2 : after handler .address = .stopped := by
    unfold after
    split
    · contradiction
    · contradiction
    · rfl
  have h3 : makeFrame handler w z.1 = none := by
    have h4 : after handler .retype = .goesOn := by simp [after, hr]
    simp [makeFrame, h1, h4, address, getAddress, hs, h2]
  simp [makeSimple, hv, hg, loop, hz, h3]

/-! ## An example -/


/-- Two memories of 64 KiB, a small one, and a device. -/
def gen2 : Verif.Simple.Gen := ⟨1, 2, [(3, 16), (4, 8), (5, 16)], [], [], [(0xE0000000, 12, 6)], [], [], 7⟩

def world (b : Nat) : World :=
  ⟨fun u => if u = 3 then b else if u = 4 then 0x20000 else 0x30000, fun u => if u = 4 then 8 else 16, fun _ => 0, fun _ => 0, none⟩

theorem demo_fresh (b : Nat) : Fresh gen2 (world b) := by
  constructor <;> simp [gen2, world]

theorem demo_told : ((makeSimple (fun _ => .halt) gen2 ⟨[], false⟩ (world 0x10000)).map (·.1.entries)) =
    some [⟨3, 0x10000, 16, false⟩, ⟨0, 0, 0, false⟩, ⟨5, 0x30000, 16, false⟩, ⟨6, 0xE0000000, 12, true⟩] := by
  decide +kernel

/-- The same with the first memory at 0, for a handler that halts, one that discards and one that ignores errors. -/
theorem demo_zero : ((makeSimple (fun _ => .halt) gen2 ⟨[], false⟩ (world 0)).map (·.1.entries)) = none ∧
    ((makeSimple (fun _ => .discard) gen2 ⟨[], false⟩ (world 0)).map (·.1.entries)) =
      some [⟨3, 0, 16, false⟩, ⟨0, 0, 0, false⟩, ⟨5, 0, 16, false⟩, ⟨6, 0xE0000000, 12, true⟩] ∧
    ((makeSimple (fun _ => .ignore) gen2 ⟨[], false⟩ (world 0)).map (·.1.entries)) =
      some [⟨3, 0, 16, false⟩, ⟨0, 0, 0, false⟩, ⟨5, 0x30000, 16, false⟩, ⟨6, 0xE0000000, 12, true⟩] := by
  decide +kernel

/-- A memory of 64 KiB with no room. -/
theorem demo_no_room : (makeSimple (fun f => if f = .retype then .ignore else .halt) gen2 ⟨[], false⟩
    { world 0x10000 with children := fun _ => 1, mark := fun _ => 0x10000 }).isNone = true := by
  decide +kernel

end Verif.UntypedAddr
