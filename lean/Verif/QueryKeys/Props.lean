import Verif.QueryKeys.Spec
import Mathlib.Data.List.Nodup
import Mathlib.Tactic.ByContra
import Mathlib.Data.List.Induction

namespace Verif.QueryKeys
open Spec

variable {V : Type}

theorem sanitise_normal (isWord : Char → Bool) (k : Key) (hn : '\n' ∉ k) : sanitise isWord k = normal isWord k := by
  unfold sanitise
  split
  · rename_i h
    unfold isIdent at h
    have hl : (k.getLast? == some '\n') = false := by
      cases hk : k.getLast? with
      | none => rfl
      | some c =>
        have := List.mem_of_getLast? hk
        by_contra hc
        simp only [Bool.not_eq_false, beq_iff_eq, Option.some.injEq] at hc
        exact hn (hc ▸ this)
    rw [hl] at h
    simp only [Bool.false_and, Bool.or_false, Bool.and_eq_true, List.all_eq_true] at h
    unfold normal
    have : k.map (fun c => if isWord c then c else '_') = k.map id := by
      apply List.map_congr_left
      intro c hc
      simp [h.2 c hc]
    rw [this, List.map_id]
  · rfl

theorem any_key (d : List (Key × V)) (k : Key) : d.any (fun e => decide (e.1 = k)) = true ↔ k ∈ d.map (·.1) := by
  simp [List.any_eq_true, List.mem_map]

theorem get_some_iff (d : List (Key × V)) (k : Key) : get d k = none ↔ k ∉ d.map (·.1) := by
  simp only [get, Option.map_eq_none_iff, List.find?_eq_none, decide_eq_true_eq, List.mem_map, not_exists, not_and]

theorem put_get (d : List (Key × V)) (k : Key) (v : V) (k' : Key) :
    get (put d k v) k' = if k' = k then some v else get d k' := by
  unfold put
  split
  · rename_i h
    induction d with
    | nil => simp at h
    | cons e d ih =>
      by_cases he : e.1 = k
      · by_cases hk : k' = k
        · subst hk; simp [get, List.map_cons, he]
        · have hk2 : ¬ k = k' := fun x => hk x.symm
          rw [if_neg hk]
          simp only [get, List.map_cons, he, if_true, List.find?_cons, hk2, decide_false]
          by_cases h2 : (d.any (fun e => decide (e.1 = k))) = true
          · have := ih h2; rw [if_neg hk] at this; exact this
          · have : d.map (fun e => if e.1 = k then (k, v) else e) = d.map id := by
              apply List.map_congr_left
              intro x hx
              rw [if_neg]
              · rfl
              · intro hxk; exact h2 (by rw [any_key]; exact List.mem_map.mpr ⟨x, hx, hxk⟩)
            rw [this, List.map_id]
      · have h2 : (d.any (fun e => decide (e.1 = k))) = true := by
          simpa [List.any_cons, he] using h
        have := ih h2
        simp only [get, List.map_cons, he, if_false, List.find?_cons] at this ⊢
        by_cases hk : e.1 = k'
        · have : ¬ k' = k := fun x => he (hk.trans x)
          simp [hk, this]
        · simp only [hk, decide_false]; exact this
  · rename_i h
    have hnk : k ∉ d.map (·.1) := by rw [← any_key]; exact h
    by_cases hk : k' = k
    · subst hk
      rw [if_pos rfl]
      have : d.find? (fun e => decide (e.1 = k')) = none := by
        rw [List.find?_eq_none]
        intro x hx
        simp only [decide_eq_true_eq]
        intro hxk; exact hnk (List.mem_map.mpr ⟨x, hx, hxk⟩)
      simp [get, List.find?_append, this]
    · rw [if_neg hk]
      have hk2 : ¬ k = k' := fun x => hk x.symm
      simp [get, List.find?_append, hk2]

theorem put_keys (d : List (Key × V)) (k : Key) (v : V) (x : Key) :
    x ∈ (put d k v).map (·.1) ↔ x = k ∨ x ∈ d.map (·.1) := by
  have h1 := get_some_iff (put d k v) x
  have h2 := get_some_iff d x
  rw [put_get] at h1
  by_cases hx : x = k
  · subst hx
    simp only [if_true, reduceCtorEq, false_iff, Decidable.not_not] at h1
    simp only [true_or, iff_true]; exact h1
  · rw [if_neg hx, h2, not_iff_not] at h1
    rw [← h1]; simp [hx]

theorem del_get (d d' : List (Key × V)) (k k' : Key) (h : del d k = some d') :
    get d' k' = if k' = k then none else get d k' := by
  unfold del at h
  split at h
  · cases h
    by_cases hk : k' = k
    · subst hk
      rw [if_pos rfl, get_some_iff]
      simp [List.mem_map]
    · rw [if_neg hk]
      unfold get
      congr 1
      rw [List.find?_filter]
      congr 1
      funext e
      by_cases he : e.1 = k'
      · have : ¬ k' = k := hk
        simp [he, this]
      · simp [he]
  · cases h

/-- The state of the loop after the entries `done`: entries of `done` are stored under their new
keys, the others are still there unless an earlier entry took their key. -/
theorem loop_get (isWord : Char → Bool) (d0 : List (Key × V)) (hnodup : (d0.map (·.1)).Nodup)
    (hnl : ∀ e ∈ d0, '\n' ∉ e.1) :
    ∀ (done rest : List (Key × V)), d0 = done ++ rest →
    ∃ d, done.foldlM (step isWord) d0 = some d ∧
      (∀ k, get d k = match lastValue isWord done k with
        | some v => some v
        | none => if k ∈ rest.map (·.1) then get d0 k else none) := by
  intro done
  induction done using List.reverseRecOn with
  | nil =>
    intro rest h
    refine ⟨d0, rfl, fun k => ?_⟩
    simp only [lastValue, List.reverse_nil, List.find?_nil, Option.map_none]
    simp only [List.nil_append] at h
    subst h
    split
    · rfl
    · rename_i hk; exact (get_some_iff d0 k).mpr hk
  | append_singleton done e ih =>
    intro rest h
    obtain ⟨d, h1, h2⟩ := ih (e :: rest) (by simp [h])
    have hkey : e.1 ∈ d.map (·.1) := by
      have : get d e.1 ≠ none := by
        rw [h2]
        split
        · simp
        · rw [if_pos (by simp), Ne, get_some_iff, not_not]
          rw [h]; simp
      rw [Ne, get_some_iff, not_not] at this
      exact this
    obtain ⟨d', hd'⟩ : ∃ d', del d e.1 = some d' := by
      unfold del
      rw [if_pos ((any_key d e.1).mpr hkey)]
      exact ⟨_, rfl⟩
    refine ⟨put d' (sanitise isWord e.1) e.2, ?_, ?_⟩
    · rw [List.foldlM_append, h1]
      simp [step, hd']
    · intro k
      have hs := sanitise_normal isWord e.1 (hnl e (by rw [h]; simp))
      rw [hs, put_get]
      have hlast : lastValue isWord (done ++ [e]) k = if k = normal isWord e.1 then some e.2 else lastValue isWord done k := by
        simp only [lastValue, List.reverse_append, List.reverse_cons, List.reverse_nil, List.nil_append,
          List.singleton_append, List.find?_cons]
        by_cases hk : k = normal isWord e.1
        · simp [hk]
        · have : ¬ normal isWord e.1 = k := fun x => hk x.symm
          simp [hk, this]
      rw [hlast]
      by_cases hk : k = normal isWord e.1
      · simp [hk]
      · rw [if_neg hk, if_neg hk, del_get d d' e.1 k hd', h2]
        by_cases hke : k = e.1
        · subst hke
          rw [if_pos rfl]
          -- an entry that is its own normal form is stored under it; otherwise it is not normal
          have hnd := hnodup
          rw [h] at hnd
          have hnr : e.1 ∉ rest.map (·.1) := by
            simp only [List.map_append, List.map_cons, List.append_assoc, List.singleton_append] at hnd
            exact (List.nodup_cons.mp (List.Nodup.of_append_right hnd)).1
          have hl : lastValue isWord done e.1 = none := by
            -- any entry stored under `e.1` has a normal form that consists of word characters
            cases hlv : lastValue isWord done e.1 with
            | none => rfl
            | some v =>
              exfalso
              unfold lastValue at hlv
              cases hf : done.reverse.find? (fun e' => decide (normal isWord e'.1 = e.1)) with
              | none => rw [hf] at hlv; cases hlv
              | some e' =>
                have := List.find?_some hf
                simp only [decide_eq_true_eq] at this
                apply hk
                rw [← this]
                unfold normal
                rw [List.map_map]
                apply List.map_congr_left
                intro c _
                simp only [Function.comp]
                split
                · rfl
                · split <;> rfl
          rw [hl]
          simp [hnr]
        · rw [if_neg hke]
          have : (k ∈ (e :: rest).map (·.1)) ↔ k ∈ rest.map (·.1) := by simp [hke]
          cases lastValue isWord done k with
          | some v => rfl
          | none =>
            simp only []
            by_cases hkr : k ∈ rest.map (·.1)
            · rw [if_pos (this.mpr hkr), if_pos hkr]
            · rw [if_neg (fun x => hkr (this.mp x)), if_neg hkr]

/-- C30: after normalisation the keys are exactly the normalised keys of the original entries, and
the value under a key is the value of the last original entry with that normalised key. Normalising
never fails. Partial: a key containing a newline may be kept as it is, and if several entries have
the same normalised key, only the last one remains. -/
theorem update_lookup_partial (isWord : Char → Bool) (d : List (Key × V)) (hnodup : (d.map (·.1)).Nodup)
    (hnl : ∀ e ∈ d, '\n' ∉ e.1) :
    ∃ d', updateKeys isWord d = some d' ∧ ∀ k, get d' k = lastValue isWord d k := by
  obtain ⟨d', h1, h2⟩ := loop_get isWord d hnodup hnl d [] (by simp)
  refine ⟨d', h1, fun k => ?_⟩
  rw [h2]
  cases lastValue isWord d k <;> simp

/-- C30: every key of the result consists of word characters. -/
theorem keys_are_words (isWord : Char → Bool) (hu : isWord '_' = true) (d d' : List (Key × V))
    (hnodup : (d.map (·.1)).Nodup) (hnl : ∀ e ∈ d, '\n' ∉ e.1) (h : updateKeys isWord d = some d') :
    ∀ k ∈ d'.map (·.1), ∀ c ∈ k, isWord c = true := by
  obtain ⟨d'', h1, h2⟩ := update_lookup_partial isWord d hnodup hnl
  rw [h] at h1; cases h1
  intro k hk
  have hg : get d' k ≠ none := by rw [Ne, get_some_iff, not_not]; exact hk
  rw [h2] at hg
  unfold lastValue at hg
  cases hf : d.reverse.find? (fun e => decide (normal isWord e.1 = k)) with
  | none => rw [hf] at hg; exact absurd rfl hg
  | some e =>
    have := List.find?_some hf
    simp only [decide_eq_true_eq] at this
    subst this
    intro c hc
    simp only [normal, List.mem_map] at hc
    obtain ⟨c', _, rfl⟩ := hc
    split <;> simp_all

/-- C30: when no two entries have the same normalised key, every entry is found under its
normalised key. -/
theorem update_lossless (isWord : Char → Bool) (d : List (Key × V)) (hnl : ∀ e ∈ d, '\n' ∉ e.1)
    (hinj : (d.map (fun e => normal isWord e.1)).Nodup) :
    ∃ d', updateKeys isWord d = some d' ∧ ∀ e ∈ d, get d' (normal isWord e.1) = some e.2 := by
  have hnodup : (d.map (·.1)).Nodup := by
    have : d.map (fun e => normal isWord e.1) = (d.map (·.1)).map (normal isWord) := by rw [List.map_map]; rfl
    rw [this] at hinj
    exact List.Nodup.of_map _ hinj
  obtain ⟨d', h1, h2⟩ := update_lookup_partial isWord d hnodup hnl
  refine ⟨d', h1, ?_⟩
  intro e he
  rw [h2]
  unfold lastValue
  cases hf : d.reverse.find? (fun e' => decide (normal isWord e'.1 = normal isWord e.1)) with
  | none =>
    rw [List.find?_eq_none] at hf
    exact absurd (decide_eq_true rfl) (hf e (by simpa using he))
  | some e' =>
    have hm := List.mem_of_find?_eq_some hf
    have := List.find?_some hf
    simp only [decide_eq_true_eq] at this
    have : e' = e := List.inj_on_of_nodup_map hinj (by simpa using hm) he this
    simp [this]

/-! ### Concrete cases -/

def word (c : Char) : Bool := c.isAlphanum || c == '_'

/-- The hypotheses can be met. -/
example : updateKeys word [("#size-cells".toList, 1), ("reg".toList, 2)] =
    some [("_size_cells".toList, 1), ("reg".toList, 2)] := by decide

/-- C30 does not hold in full: of two entries with the same normalised key, one is lost. -/
theorem collision_loses :
    updateKeys word [("a-b".toList, 1), ("c".toList, 2), ("a_b".toList, 3)] = some [("c".toList, 2), ("a_b".toList, 3)] := by
  decide

/-- ... and a key with a final newline is kept although it is no identifier. -/
theorem newline_kept : updateKeys word [("reg\n".toList, 1)] = some [("reg\n".toList, 1)] := by decide

end Verif.QueryKeys
