import Verif.VirtqueueIds.Model
import Mathlib.Data.List.Nodup
import Mathlib.Tactic.ByContra
import Batteries.Data.List.Perm

namespace Verif.VirtqueueIds

theorem tryId_spec (ids : List (Option Nat)) : ∀ (n cur : Nat),
    (∀ x c', tryId ids n cur = (some x, c') → cur ≤ x ∧ c' = x + 1 ∧ some x ∉ ids) ∧
    (∀ c', tryId ids n cur = (none, c') → ∀ i, cur ≤ i → i < cur + n → some i ∈ ids) := by
  intro n
  induction n with
  | zero =>
    intro cur
    refine ⟨fun x c' h => (by simp [tryId] at h), fun c' _ i h1 h2 => (by omega)⟩
  | succ n ih =>
    intro cur
    simp only [tryId]
    by_cases h : some cur ∈ ids
    · rw [if_pos h]
      obtain ⟨i1, i2⟩ := ih (cur + 1)
      constructor
      · intro x c' hx
        obtain ⟨a, b, c⟩ := i1 x c' hx
        exact ⟨by omega, b, c⟩
      · intro c' hc i h1 h2
        by_cases hi : i = cur
        · subst hi; exact h
        · exact i2 c' hc i (by omega) (by omega)
    · rw [if_neg h]
      constructor
      · intro x c' hx
        simp only [Prod.mk.injEq, Option.some.injEq] at hx
        obtain ⟨rfl, rfl⟩ := hx
        exact ⟨Nat.le_refl _, rfl, h⟩
      · intro c' hc; simp at hc

/-- The search succeeds if some id is still missing. -/
theorem tryId_succeeds (ids : List (Option Nat)) (hnone : none ∈ ids) (cur : Nat) :
    ∃ x, tryId ids ids.length cur = (some x, x + 1) ∧ some x ∉ ids := by
  cases ht : tryId ids ids.length cur with
  | mk o c' =>
    cases o with
    | some x =>
      obtain ⟨_, h2, h3⟩ := (tryId_spec ids ids.length cur).1 x c' ht
      exact ⟨x, by rw [h2], h3⟩
    | none =>
      exfalso
      have h := (tryId_spec ids ids.length cur).2 c' ht
      have hsub : (none :: (List.range' cur ids.length).map some) ⊆ ids := by
        intro x hx
        rcases List.mem_cons.mp hx with rfl | hx
        · exact hnone
        · obtain ⟨i, hi, rfl⟩ := List.mem_map.mp hx
          rw [List.mem_range'_1] at hi
          exact h i hi.1 hi.2
      have hnd : (none :: (List.range' cur ids.length).map some).Nodup := by
        rw [List.nodup_cons]
        exact ⟨by simp, List.Nodup.map (fun a b h => Option.some.inj h) List.nodup_range'⟩
      have := (List.subperm_of_subset hnd hsub).length_le
      simp only [List.length_cons, List.length_map, List.length_range'] at this
      omega

theorem fillIds_spec : ∀ (rest i cur : Nat) (ids : List (Option Nat)), i + rest = ids.length →
    (∀ j : Nat, j < i → ids[j]? ≠ some none) →
    (fillIds rest i cur ids).length = ids.length ∧ (∀ j : Nat, (fillIds rest i cur ids)[j]? ≠ some none) ∧
    (∀ j b : Nat, ids[j]? = some (some b) → (fillIds rest i cur ids)[j]? = some (some b)) ∧
    (∀ j b : Nat, ids[j]? = some none → (fillIds rest i cur ids)[j]? = some (some b) →
      ∀ j' : Nat, j' ≠ j → (fillIds rest i cur ids)[j']? ≠ some (some b)) := by
  intro rest
  induction rest with
  | zero =>
    intro i cur ids hi hdone
    simp only [fillIds]
    have hnn : ∀ j : Nat, ids[j]? ≠ some none := by
      intro j hj
      by_cases h : j < i
      · exact hdone j h hj
      · rw [List.getElem?_eq_none (by omega)] at hj; cases hj
    exact ⟨trivial, hnn, fun j b h => h, fun j b h => absurd h (hnn j)⟩
  | succ rest ih =>
    intro i cur ids hi hdone
    simp only [fillIds]
    have hlt : i < ids.length := by omega
    cases hb : ids[i]? with
    | none => rw [List.getElem?_eq_none_iff] at hb; omega
    | some o =>
      cases o with
      | some x =>
        simp only []
        apply ih (i + 1) cur ids (by omega)
        intro j hj
        by_cases hji : j = i
        · subst hji; rw [hb]; simp
        · exact hdone j (by omega)
      | none =>
        simp only []
        have hmem : none ∈ ids := List.mem_of_getElem? hb
        obtain ⟨n, ht, hun⟩ := tryId_succeeds ids hmem cur
        rw [ht]
        simp only []
        obtain ⟨l1, l2, l3, l4⟩ := ih (i + 1) (n + 1) (ids.set i (some n)) (by simp; omega) (by
          intro j hj
          by_cases hji : j = i
          · subst hji; rw [List.getElem?_set_self hlt]; simp
          · rw [List.getElem?_set_ne (fun x => hji x.symm)]; exact hdone j (by omega))
        have hset : ∀ j : Nat, j ≠ i → (ids.set i (some n))[j]? = ids[j]? :=
          fun j hj => List.getElem?_set_ne (fun x => hj x.symm)
        have hseti : (ids.set i (some n))[i]? = some (some n) := List.getElem?_set_self hlt
        refine ⟨by rw [l1]; simp, l2, ?_, ?_⟩
        · intro j b h
          have hji : j ≠ i := by rintro rfl; rw [hb] at h; cases h
          exact l3 j b (by rw [hset j hji]; exact h)
        · intro j b h h'
          by_cases hji : j = i
          · subst hji
            have := l3 j n hseti
            rw [this] at h'
            simp only [Option.some.injEq] at h'
            subst h'
            intro j' hne hj'
            have h0 : ids[j']? = some none := by
              cases hx : ids[j']? with
              | none =>
                rw [List.getElem?_eq_none_iff] at hx
                rw [List.getElem?_eq_none (by rw [l1]; simpa using hx)] at hj'
                cases hj'
              | some o =>
                cases o with
                | none => rfl
                | some y =>
                  have := l3 j' y (by rw [hset j' hne]; exact hx)
                  rw [this] at hj'
                  simp only [Option.some.injEq] at hj'
                  subst hj'
                  exact absurd (List.mem_of_getElem? hx) hun
            have := l4 j' n (by rw [hset j' hne]; exact h0) hj' j (fun x => hne x.symm)
            exact this (l3 j n hseti)
          · exact l4 j b (by rw [hset j hji]; exact h) h'

/-- C36: the search gives an id to every end; configured ids are kept; an id that is not configured
is different from the ids of all other ends of the instance. -/
theorem ids_spec (configured : List (Option Nat)) :
    (allIds configured).length = configured.length ∧
    (∀ i : Nat, i < configured.length → ∃ b, (allIds configured)[i]? = some (some b)) ∧
    (∀ i b : Nat, configured[i]? = some (some b) → (allIds configured)[i]? = some (some b)) ∧
    (∀ i b : Nat, configured[i]? = some none → (allIds configured)[i]? = some (some b) →
      ∀ j : Nat, j ≠ i → (allIds configured)[j]? ≠ some (some b)) := by
  obtain ⟨h1, h2, h3, h4⟩ := fillIds_spec configured.length 0 0 configured (by omega) (by intro j hj; omega)
  refine ⟨h1, ?_, h3, h4⟩
  intro i hi
  unfold allIds
  cases hx : (fillIds configured.length 0 0 configured)[i]? with
  | none => rw [List.getElem?_eq_none_iff] at hx; omega
  | some o =>
    cases o with
    | none => exact absurd hx (h2 i)
    | some b => exact ⟨b, rfl⟩

/-- C36: every end of the instance at a virtqueue connection gets an id, and an end without a
configured id gets one that no other end of the instance has. -/
theorem clientId_unique {K : Type} [DecidableEq K] (ends : List (K × Option Nat)) (hnd : (ends.map (·.1)).Nodup) :
    (∀ e o, (e, o) ∈ ends → ∃ x, clientId ends e = .ok (some x)) ∧
    (∀ e x, (e, some x) ∈ ends → clientId ends e = .ok (some x)) ∧
    (∀ e e' o' x, (e, none) ∈ ends → (e', o') ∈ ends → e' ≠ e → clientId ends e = .ok (some x) →
      clientId ends e' ≠ .ok (some x)) := by
  obtain ⟨h1, h2, h3, h4⟩ := ids_spec (ends.map (·.2))
  have hidx : ∀ e o, (e, o) ∈ ends → ∃ i, i < ends.length ∧ ends[i]? = some (e, o) ∧
      ends.findIdx? (fun x => x.1 = e) = some i := by
    intro e o hm
    obtain ⟨i, hi, hget⟩ := List.getElem_of_mem hm
    refine ⟨i, hi, by rw [List.getElem?_eq_getElem hi, hget], ?_⟩
    rw [List.findIdx?_eq_some_iff_getElem]
    refine ⟨hi, by simp [hget], ?_⟩
    intro j hj
    have hne : ends[j].1 ≠ e := by
      intro hc
      have hnd' := List.nodup_iff_getElem?_ne_getElem?.mp hnd j i (by omega) (by simpa using hi)
      apply hnd'
      rw [List.getElem?_map, List.getElem?_map, List.getElem?_eq_getElem hi, List.getElem?_eq_getElem (by omega)]
      simp [hget, hc]
    simp [hne]
  have hval : ∀ (e : K) (i : Nat) (v : Option Nat), ends.findIdx? (fun x => x.1 = e) = some i → i < ends.length →
      (clientId ends e = .ok v ↔ (allIds (ends.map (·.2)))[i]? = some v) := by
    intro e i v hf hi
    unfold clientId
    rw [hf]
    obtain ⟨b, hb⟩ := h2 i (by simpa using hi)
    simp only [hb, Except.ok.injEq, Option.some.injEq]
  refine ⟨?_, ?_, ?_⟩
  · intro e o hm
    obtain ⟨i, hi, _, hf⟩ := hidx e o hm
    obtain ⟨b, hb⟩ := h2 i (by simpa using hi)
    exact ⟨b, (hval e i _ hf hi).mpr hb⟩
  · intro e x hm
    obtain ⟨i, hi, hg, hf⟩ := hidx e _ hm
    exact (hval e i _ hf hi).mpr (h3 i x (by rw [List.getElem?_map, hg]; rfl))
  · intro e e' o' x hm hm' hne hc hc'
    obtain ⟨i, hi, hg, hf⟩ := hidx e _ hm
    obtain ⟨i', hi', hg', hf'⟩ := hidx e' _ hm'
    have hii : i' ≠ i := by
      rintro rfl
      rw [hg] at hg'
      simp only [Option.some.injEq, Prod.mk.injEq] at hg'
      exact hne hg'.1.symm
    exact h4 i x (by rw [List.getElem?_map, hg]; rfl) ((hval e i _ hf hi).mp hc) i' hii ((hval e' i' _ hf' hi').mp hc')

/-- The hypotheses can be met. -/
example : clientId [("a", none), ("b", some 0), ("c", none), ("d", some 2)] "c" = .ok (some 3) := rfl

/-- Ids that are configured twice are not rejected. -/
theorem configured_duplicates_kept : allIds [some 1, none, some 1] = [some 1, some 0, some 1] := rfl

end Verif.VirtqueueIds
