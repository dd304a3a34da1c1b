import Verif.Hash.Spec
import Mathlib.Data.List.Perm.Basic
import Mathlib.Data.List.Sort
import Mathlib.Data.String.Basic
import Mathlib.Data.List.Nodup
import Mathlib.Tactic.Tauto

namespace Verif.Hash
open Spec

/-! ### Entries -/

def Entries.Mem (k : String) (v : Val) : Entries → Prop
  | .nil => False
  | .cons k' v' r => (k = k' ∧ v = v') ∨ Entries.Mem k v r

theorem ignored_eq (c : String) : ignored c = noHash c := rfl

theorem mem_keys {k : String} {v : Val} : ∀ {e : Entries}, Entries.Mem k v e → k ∈ e.keys
  | .cons _ _ r, h => by
    rcases h with ⟨rfl, rfl⟩ | h
    · simp [Entries.keys]
    · simp [Entries.keys, mem_keys h]

theorem keys_mem {k : String} : ∀ {e : Entries}, k ∈ e.keys → ∃ v, Entries.Mem k v e
  | .nil, h => by simp [Entries.keys] at h
  | .cons k' v' r, h => by
    simp only [Entries.keys, List.mem_cons] at h
    rcases h with rfl | h
    · exact ⟨v', .inl ⟨rfl, rfl⟩⟩
    · obtain ⟨v, hv⟩ := keys_mem h; exact ⟨v, .inr hv⟩

theorem get_mem {k : String} {v : Val} : ∀ {e : Entries}, e.get k = some v → Entries.Mem k v e
  | .nil, h => by simp [Entries.get] at h
  | .cons k' v' r, h => by
    simp only [Entries.get] at h
    split at h
    · rename_i hk; cases h; exact .inl ⟨hk.symm, rfl⟩
    · exact .inr (get_mem h)

theorem mem_get {k : String} {v : Val} : ∀ {e : Entries}, e.keys.Nodup → Entries.Mem k v e → e.get k = some v
  | .cons k' v' r, hn, h => by
    simp only [Entries.keys, List.nodup_cons] at hn
    simp only [Entries.get]
    rcases h with ⟨rfl, rfl⟩ | h
    · simp
    · have hne : ¬ k' = k := by
        intro e; subst e; exact hn.1 (mem_keys h)
      rw [if_neg hne]
      exact mem_get hn.2 h

theorem get_some_of_key {k : String} {e : Entries} (hn : e.keys.Nodup) (h : k ∈ e.keys) : ∃ v, e.get k = some v := by
  obtain ⟨v, hv⟩ := keys_mem h
  exact ⟨v, mem_get hn hv⟩

theorem wfE_mem {shape : String → List String} : ∀ {e : Entries} {k : String} {v : Val}, WfE shape e →
    Entries.Mem k v e → Wf shape v
  | .cons k' v' r, k, v, hw, h => by
    cases hw with
    | cons _ _ _ h1 h2 =>
      rcases h with ⟨rfl, rfl⟩ | h
      · exact h1
      · exact wfE_mem h2 h

theorem veqD_eq (a b : Entries) : veqD a b = .eq ↔ ∀ k v, Entries.Mem k v a → ∃ w, b.get k = some w ∧ veq v w = .eq := by
  match a with
  | .nil => simp [veqD, Entries.Mem]
  | .cons k v rest =>
    have ih := veqD_eq rest b
    simp only [veqD]
    constructor
    · intro h k' v' hm
      split at h
      · cases h
      · rename_i w hw
        split at h
        · rename_i hv
          rcases hm with ⟨rfl, rfl⟩ | hm
          · exact ⟨w, hw, hv⟩
          · exact ih.mp h k' v' hm
        · rename_i hv; exact absurd h hv
    · intro h
      obtain ⟨w, hw, hv⟩ := h k v (.inl ⟨rfl, rfl⟩)
      rw [hw]
      simp only [hv]
      exact ih.mpr (fun k' v' hm => h k' v' (.inr hm))

theorem veqF_eq (skip : List String) (a b : Entries) :
    veqF skip a b = .eq ↔ ∀ k v, Entries.Mem k v a → k ∉ skip → ∃ w, b.get k = some w ∧ veq v w = .eq := by
  match a with
  | .nil => simp [veqF, Entries.Mem]
  | .cons k v rest =>
    have ih := veqF_eq skip rest b
    simp only [veqF]
    constructor
    · intro h k' v' hm hs
      split at h
      · rename_i hk
        rcases hm with ⟨rfl, rfl⟩ | hm
        · exact absurd hk hs
        · exact ih.mp h k' v' hm hs
      · split at h
        · cases h
        · rename_i w hw
          split at h
          · rename_i hv
            rcases hm with ⟨rfl, rfl⟩ | hm
            · exact ⟨w, hw, hv⟩
            · exact ih.mp h k' v' hm hs
          · cases h
          · split at h <;> cases h
    · intro h
      split
      · exact ih.mpr (fun k' v' hm => h k' v' (.inr hm))
      · rename_i hk
        obtain ⟨w, hw, hv⟩ := h k v (.inl ⟨rfl, rfl⟩) hk
        rw [hw]
        simp only [hv]
        exact ih.mpr (fun k' v' hm => h k' v' (.inr hm))

/-! ### Reflexivity -/

mutual
theorem veq_refl {shape : String → List String} : ∀ (a : Val), Wf shape a → veq a a = .eq
  | .none, _ => by simp [veq]
  | .str s, _ => by simp [veq]
  | .int n, _ => by simp [veq]
  | .ref n, _ => by simp [veq]
  | .list l, h => by
    cases h with | list _ h => simp only [veq, if_true]; exact veqL_refl l h
  | .tuple l, h => by
    cases h with | tuple _ h => simp only [veq, if_true]; exact veqL_refl l h
  | .dict f d, h => by
    cases h with
    | dict _ _ hn h =>
      simp only [veq, if_true]
      rw [veqD_eq]
      intro k v hm
      exact ⟨v, mem_get hn hm, veqE_refl d h k v hm⟩
  | .obj c fs, h => by
    cases h with
    | obj _ _ hn _ h =>
      simp only [veq, if_true]
      rw [veqF_eq]
      intro k v hm _
      exact ⟨v, mem_get hn hm, veqE_refl fs h k v hm⟩

theorem veqL_refl {shape : String → List String} : ∀ (l : Vals), WfL shape l → veqL l l = .eq
  | .nil, _ => by simp [veqL]
  | .cons v rest, h => by
    cases h with
    | cons _ _ h1 h2 => simp only [veqL, veq_refl v h1]; exact veqL_refl rest h2

theorem veqE_refl {shape : String → List String} : ∀ (e : Entries), WfE shape e → ∀ k v, Entries.Mem k v e → veq v v = .eq
  | .cons k' v' r, h, k, v, hm => by
    cases h with
    | cons _ _ _ h1 h2 =>
      rcases hm with ⟨rfl, rfl⟩ | hm
      · exact veq_refl v h1
      · exact veqE_refl r h2 k v hm
end

/-! ### Symmetry -/

theorem dict_keys_perm {a b : Entries} (ha : a.keys.Nodup) (hl : a.keys.length = b.keys.length)
    (h : ∀ k ∈ a.keys, k ∈ b.keys) : a.keys.Perm b.keys :=
  (List.subperm_of_subset ha h).perm_of_length_le (by omega)

theorem veqD_keys {a b : Entries} (h : veqD a b = .eq) : ∀ k ∈ a.keys, k ∈ b.keys := by
  intro k hk
  obtain ⟨v, hv⟩ := keys_mem hk
  obtain ⟨w, hw, _⟩ := (veqD_eq a b).mp h k v hv
  exact mem_keys (get_mem hw)

mutual
theorem veq_symm {shape : String → List String} : ∀ (a b : Val), Wf shape a → Wf shape b → veq a b = .eq → veq b a = .eq
  | .none, b, _, _, h => by cases b <;> simp_all [veq]
  | .str s, b, _, _, h => by cases b <;> simp_all [veq]
  | .int n, b, _, _, h => by cases b <;> simp_all [veq]
  | .ref n, b, _, _, h => by cases b <;> simp_all [veq]
  | .list l, b, ha, hb, h => by
    cases b with
    | list l' =>
      cases ha with | list _ ha => cases hb with | list _ hb =>
      simp only [veq] at h ⊢
      split at h
      · rename_i hl; rw [if_pos hl.symm]; exact veqL_symm l l' ha hb h
      · cases h
    | _ => simp [veq] at h
  | .tuple l, b, ha, hb, h => by
    cases b with
    | tuple l' =>
      cases ha with | tuple _ ha => cases hb with | tuple _ hb =>
      simp only [veq] at h ⊢
      split at h
      · rename_i hl; rw [if_pos hl.symm]; exact veqL_symm l l' ha hb h
      · cases h
    | _ => simp [veq] at h
  | .dict f d, b, ha, hb, h => by
    cases b with
    | dict f' d' =>
      cases ha with | dict _ _ hn ha => cases hb with | dict _ _ hn' hb =>
      simp only [veq] at h ⊢
      split at h
      · rename_i hl
        rw [if_pos hl.symm, veqD_eq]
        have hperm := dict_keys_perm hn hl (veqD_keys h)
        intro k w hm
        obtain ⟨v, hv⟩ := keys_mem (hperm.mem_iff.mpr (mem_keys hm))
        obtain ⟨w', hw', he⟩ := (veqD_eq d d').mp h k v hv
        rw [mem_get hn' hm] at hw'; cases hw'
        exact ⟨v, mem_get hn hv, veqE_symm d ha k v hv w (wfE_mem hb hm) he⟩
      · cases h
    | _ => simp [veq] at h
  | .obj c fs, b, ha, hb, h => by
    cases b with
    | obj c' fs' =>
      cases ha with | obj _ _ hn hs ha => cases hb with | obj _ _ hn' hs' hb =>
      simp only [veq] at h ⊢
      split at h
      · rename_i hc
        subst hc
        rw [ignored_eq] at hs hs'
        rw [if_pos rfl, veqF_eq]
        intro k w hm hk
        have hk1 : k ∈ fs'.keys.filter (fun k => !decide (k ∈ noHash c)) := by
          simp [List.mem_filter, mem_keys hm, hk]
        rw [hs', ← hs] at hk1
        obtain ⟨v, hv⟩ := keys_mem (List.mem_filter.mp hk1).1
        obtain ⟨w', hw', he⟩ := (veqF_eq _ fs fs').mp h k v hv hk
        rw [mem_get hn' hm] at hw'; cases hw'
        exact ⟨v, mem_get hn hv, veqE_symm fs ha k v hv w (wfE_mem hb hm) he⟩
      · cases h
    | _ => simp [veq] at h

theorem veqL_symm {shape : String → List String} : ∀ (a b : Vals), WfL shape a → WfL shape b → veqL a b = .eq → veqL b a = .eq
  | .nil, b, _, _, _ => by cases b <;> simp [veqL]
  | .cons x a, .nil, _, _, _ => by simp [veqL]
  | .cons x a, .cons y b, ha, hb, h => by
    cases ha with | cons _ _ ha1 ha2 => cases hb with | cons _ _ hb1 hb2 =>
    simp only [veqL] at h ⊢
    split at h
    · rename_i hv
      rw [veq_symm x y ha1 hb1 hv]
      exact veqL_symm a b ha2 hb2 h
    · rename_i hv; exact absurd h hv

theorem veqE_symm {shape : String → List String} : ∀ (e : Entries), WfE shape e → ∀ k v, Entries.Mem k v e →
    ∀ w, Wf shape w → veq v w = .eq → veq w v = .eq
  | .cons k' v' r, h, k, v, hm, w, hw, he => by
    cases h with
    | cons _ _ _ h1 h2 =>
      rcases hm with ⟨rfl, rfl⟩ | hm
      · exact veq_symm v w h1 hw he
      · exact veqE_symm r h2 k v hm w hw he
end

/-! ### Transitivity -/

mutual
theorem veq_trans : ∀ (a b c : Val), veq a b = .eq → veq b c = .eq → veq a c = .eq
  | .none, b, c, h1, h2 => by cases b <;> cases c <;> simp_all [veq]
  | .str s, b, c, h1, h2 => by cases b <;> cases c <;> simp_all [veq]
  | .int n, b, c, h1, h2 => by cases b <;> cases c <;> simp_all [veq]
  | .ref n, b, c, h1, h2 => by cases b <;> cases c <;> simp_all [veq]
  | .list l, b, c, h1, h2 => by
    cases b with
    | list m =>
      cases c with
      | list n =>
        simp only [veq] at h1 h2 ⊢
        split at h1
        · split at h2
          · rename_i e1 e2; rw [if_pos (e1.trans e2)]; exact veqL_trans l m n e1 h1 h2
          · cases h2
        · cases h1
      | _ => simp [veq] at h2
    | _ => simp [veq] at h1
  | .tuple l, b, c, h1, h2 => by
    cases b with
    | tuple m =>
      cases c with
      | tuple n =>
        simp only [veq] at h1 h2 ⊢
        split at h1
        · split at h2
          · rename_i e1 e2; rw [if_pos (e1.trans e2)]; exact veqL_trans l m n e1 h1 h2
          · cases h2
        · cases h1
      | _ => simp [veq] at h2
    | _ => simp [veq] at h1
  | .dict f d, b, c, h1, h2 => by
    cases b with
    | dict f' d' =>
      cases c with
      | dict f'' d'' =>
        simp only [veq] at h1 h2 ⊢
        split at h1
        · split at h2
          · rename_i e1 e2
            rw [if_pos (e1.trans e2), veqD_eq]
            intro k v hm
            obtain ⟨w, hw, he⟩ := (veqD_eq d d').mp h1 k v hm
            obtain ⟨x, hx, he'⟩ := (veqD_eq d' d'').mp h2 k w (get_mem hw)
            exact ⟨x, hx, veqE_trans d k v hm w x he he'⟩
          · cases h2
        · cases h1
      | _ => simp [veq] at h2
    | _ => simp [veq] at h1
  | .obj cl fs, b, c, h1, h2 => by
    cases b with
    | obj cl' fs' =>
      cases c with
      | obj cl'' fs'' =>
        simp only [veq] at h1 h2 ⊢
        split at h1
        · split at h2
          · rename_i e1 e2
            subst e1; subst e2
            rw [if_pos rfl, veqF_eq]
            intro k v hm hk
            obtain ⟨w, hw, he⟩ := (veqF_eq _ fs fs').mp h1 k v hm hk
            obtain ⟨x, hx, he'⟩ := (veqF_eq _ fs' fs'').mp h2 k w (get_mem hw) hk
            exact ⟨x, hx, veqE_trans fs k v hm w x he he'⟩
          · cases h2
        · cases h1
      | _ => simp [veq] at h2
    | _ => simp [veq] at h1

theorem veqL_trans : ∀ (a b c : Vals), a.length = b.length → veqL a b = .eq → veqL b c = .eq → veqL a c = .eq
  | .nil, _, c, _, _, _ => by cases c <;> simp [veqL]
  | .cons x a, .nil, c, hl, _, _ => by simp [Vals.length] at hl
  | .cons x a, .cons y b, .nil, _, _, _ => by simp [veqL]
  | .cons x a, .cons y b, .cons z c, hl, h1, h2 => by
    simp only [Vals.length, Nat.add_right_cancel_iff] at hl
    simp only [veqL] at h1 h2 ⊢
    split at h1
    · rename_i e1
      split at h2
      · rename_i e2
        rw [veq_trans x y z e1 e2]
        exact veqL_trans a b c hl h1 h2
      · rename_i hv; exact absurd h2 hv
    · rename_i hv; exact absurd h1 hv

theorem veqE_trans : ∀ (e : Entries) (k : String) (v : Val), Entries.Mem k v e →
    ∀ w x, veq v w = .eq → veq w x = .eq → veq v x = .eq
  | .cons k' v' r, k, v, hm, w, x, h1, h2 => by
    rcases hm with ⟨rfl, rfl⟩ | hm
    · exact veq_trans v w x h1 h2
    · exact veqE_trans r k v hm w x h1 h2
end

/-! ### Hashing -/

theorem hashes_keys (p : Prims) : ∀ e : Entries, (hashes p e).map Prod.fst = e.keys
  | .nil => by simp [hashes, Entries.keys]
  | .cons k v r => by simp [hashes, Entries.keys, hashes_keys p r]

theorem hashes_mem (p : Prims) : ∀ (e : Entries) (k : String) (h : Int),
    (k, h) ∈ hashes p e ↔ ∃ v, Entries.Mem k v e ∧ h = vhash p v
  | .nil, k, h => by simp [hashes, Entries.Mem]
  | .cons k' v' r, k, h => by
    simp only [hashes, List.mem_cons, Prod.mk.injEq, hashes_mem p r, Entries.Mem]
    constructor
    · rintro (⟨rfl, rfl⟩ | ⟨v, hv, rfl⟩)
      · exact ⟨v', .inl ⟨rfl, rfl⟩, rfl⟩
      · exact ⟨v, .inr hv, rfl⟩
    · rintro ⟨v, ⟨rfl, rfl⟩ | hv, rfl⟩
      · exact .inl ⟨rfl, rfl⟩
      · exact .inr ⟨v, hv, rfl⟩

/-- Lists of pairs with distinct keys and the same members are permutations. -/
theorem pairs_perm (l m : List (String × Int)) (hl : (l.map Prod.fst).Nodup) (hm : (m.map Prod.fst).Nodup)
    (h : ∀ x, x ∈ l ↔ x ∈ m) : l.Perm m :=
  (List.perm_ext_iff_of_nodup (List.Nodup.of_map _ hl) (List.Nodup.of_map _ hm)).mpr h

/-- Sorting by key gives the same list for permutations with distinct keys. -/
theorem sort_perm (l m : List (String × Int)) (hl : (l.map Prod.fst).Nodup) (h : l.Perm m) :
    l.mergeSort (fun a b => decide (a.1 ≤ b.1)) = m.mergeSort (fun a b => decide (a.1 ≤ b.1)) := by
  have tr : ∀ a b c : String × Int, decide (a.1 ≤ b.1) = true → decide (b.1 ≤ c.1) = true → decide (a.1 ≤ c.1) = true := by
    intro a b c h1 h2
    simp only [decide_eq_true_eq] at *
    exact le_trans h1 h2
  have tot : ∀ a b : String × Int, (decide (a.1 ≤ b.1) || decide (b.1 ≤ a.1)) = true := by
    intro a b
    simp only [Bool.or_eq_true, decide_eq_true_eq]
    exact le_total _ _
  have s1 := List.pairwise_mergeSort tr tot l
  have s2 := List.pairwise_mergeSort tr tot m
  have p1 := List.mergeSort_perm l (fun a b => decide (a.1 ≤ b.1))
  have p2 := List.mergeSort_perm m (fun a b => decide (a.1 ≤ b.1))
  have pp := (p1.trans h).trans p2.symm
  refine List.Perm.eq_of_pairwise ?_ s1 s2 pp
  intro a b ha hb h1 h2
  simp only [decide_eq_true_eq] at h1 h2
  have hk : a.1 = b.1 := le_antisymm h1 h2
  have ha' := p1.mem_iff.mp ha
  have hb' := h.symm.mem_iff.mp (p2.mem_iff.mp hb)
  exact List.inj_on_of_nodup_map hl ha' hb' hk

/-- Two aligned lists with the same keys and related values. -/
theorem filter_hashes_eq (skip : List String) : ∀ (a b : List (String × Int)),
    (a.map Prod.fst).filter (fun k => !decide (k ∈ skip)) = (b.map Prod.fst).filter (fun k => !decide (k ∈ skip)) →
    (b.map Prod.fst).Nodup →
    (∀ k x, (k, x) ∈ a → k ∉ skip → (k, x) ∈ b) →
    a.filter (fun e => !decide (e.1 ∈ skip)) = b.filter (fun e => !decide (e.1 ∈ skip)) := by
  intro a b hk hn hm
  have key : ∀ (l m : List (String × Int)), l.map Prod.fst = m.map Prod.fst → (m.map Prod.fst).Nodup →
      (∀ e ∈ l, e ∈ m) → l = m := by
    intro l
    induction l with
    | nil => intro m h _ _; cases m with | nil => rfl | cons _ _ => simp at h
    | cons x l ih =>
      intro m h hn hmem
      cases m with
      | nil => simp at h
      | cons y m =>
        simp only [List.map_cons, List.cons.injEq] at h
        have hxm := hmem x (by simp)
        have hxy : x = y := List.inj_on_of_nodup_map hn hxm (by simp) h.1
        simp only [List.map_cons, List.nodup_cons] at hn
        subst hxy
        congr 1
        refine ih m h.2 hn.2 ?_
        intro e he
        rcases List.mem_cons.mp (hmem e (by simp [he])) with rfl | h'
        · have : e.1 ∈ m.map Prod.fst := by rw [← h.2]; exact List.mem_map_of_mem (f := Prod.fst) he
          exact absurd this hn.1
        · exact h'
  apply key
  · have conv : ∀ l : List (String × Int), (l.filter (fun e => !decide (e.1 ∈ skip))).map Prod.fst =
        (l.map Prod.fst).filter (fun k => !decide (k ∈ skip)) := by
      intro l; rw [List.filter_map]; rfl
    rw [conv, conv, hk]
  · exact (List.filter_sublist.map Prod.fst).nodup hn
  · intro e he
    rw [List.mem_filter] at he ⊢
    refine ⟨hm e.1 e.2 he.1 ?_, he.2⟩
    simpa using he.2

mutual
theorem vhash_eq {shape : String → List String} (p : Prims) : ∀ (a b : Val), Wf shape a → Wf shape b →
    veq a b = .eq → vhash p a = vhash p b
  | .none, b, _, _, h => by cases b <;> simp_all [veq]
  | .str s, b, _, _, h => by cases b <;> simp_all [veq]
  | .int n, b, _, _, h => by cases b <;> simp_all [veq]
  | .ref n, b, _, _, h => by cases b <;> simp_all [veq]
  | .list l, b, ha, hb, h => by
    cases b with
    | list l' =>
      cases ha with | list _ ha => cases hb with | list _ hb =>
      simp only [veq] at h
      split at h
      · rename_i hl; simp only [vhash]; exact hashL_eq p l l' p.init hl ha hb h
      · cases h
    | _ => simp [veq] at h
  | .tuple l, b, ha, hb, h => by
    cases b with
    | tuple l' =>
      cases ha with | tuple _ ha => cases hb with | tuple _ hb =>
      simp only [veq] at h
      split at h
      · rename_i hl; simp only [vhash]; exact hashL_eq p l l' p.init hl ha hb h
      · cases h
    | _ => simp [veq] at h
  | .dict f d, b, ha, hb, h => by
    cases b with
    | dict f' d' =>
      cases ha with | dict _ _ hn ha => cases hb with | dict _ _ hn' hb =>
      simp only [veq] at h
      split at h
      · rename_i hl
        have hperm := dict_keys_perm hn hl (veqD_keys h)
        have hE := hashE_eq (shape := shape) p d ha
        simp only [vhash]
        rw [sort_perm (hashes p d) (hashes p d') (by rw [hashes_keys]; exact hn)]
        apply pairs_perm _ _ (by rw [hashes_keys]; exact hn) (by rw [hashes_keys]; exact hn')
        rintro ⟨k, x⟩
        rw [hashes_mem, hashes_mem]
        constructor
        · rintro ⟨v, hv, rfl⟩
          obtain ⟨w, hw, he⟩ := (veqD_eq d d').mp h k v hv
          exact ⟨w, get_mem hw, hE k v hv w (wfE_mem hb (get_mem hw)) he⟩
        · rintro ⟨w, hw, rfl⟩
          obtain ⟨v, hv⟩ := keys_mem (hperm.mem_iff.mpr (mem_keys hw))
          obtain ⟨w', hw', he⟩ := (veqD_eq d d').mp h k v hv
          rw [mem_get hn' hw] at hw'; cases hw'
          exact ⟨v, hv, (hE k v hv w (wfE_mem hb hw) he).symm⟩
      · cases h
    | _ => simp [veq] at h
  | .obj c fs, b, ha, hb, h => by
    cases b with
    | obj c' fs' =>
      cases ha with | obj _ _ hn hs ha => cases hb with | obj _ _ hn' hs' hb =>
      simp only [veq] at h
      split at h
      · rename_i hc
        subst hc
        rw [ignored_eq] at hs hs'
        have hE := hashE_eq (shape := shape) p fs ha
        simp only [vhash]
        rw [filter_hashes_eq (noHash c) (hashes p fs) (hashes p fs')]
        · rw [hashes_keys, hashes_keys, hs, hs']
        · rw [hashes_keys]; exact hn'
        · intro k x hx hk
          rw [hashes_mem] at hx ⊢
          obtain ⟨v, hv, rfl⟩ := hx
          obtain ⟨w, hw, he⟩ := (veqF_eq _ fs fs').mp h k v hv hk
          exact ⟨w, get_mem hw, hE k v hv w (wfE_mem hb (get_mem hw)) he⟩
      · cases h
    | _ => simp [veq] at h

theorem hashL_eq {shape : String → List String} (p : Prims) : ∀ (a b : Vals) (h0 : Int), a.length = b.length →
    WfL shape a → WfL shape b → veqL a b = .eq → hashL p h0 a = hashL p h0 b
  | .nil, .nil, _, _, _, _, _ => rfl
  | .nil, .cons _ _, _, hl, _, _, _ => by simp [Vals.length] at hl
  | .cons x a, .nil, _, hl, _, _, _ => by simp [Vals.length] at hl
  | .cons x a, .cons y b, h0, hl, ha, hb, h => by
    cases ha with | cons _ _ ha1 ha2 => cases hb with | cons _ _ hb1 hb2 =>
    simp only [Vals.length, Nat.add_right_cancel_iff] at hl
    simp only [veqL] at h
    split at h
    · rename_i hv
      simp only [hashL]
      rw [vhash_eq p x y ha1 hb1 hv]
      exact hashL_eq p a b _ hl ha2 hb2 h
    · rename_i hv; exact absurd h hv

theorem hashE_eq {shape : String → List String} (p : Prims) : ∀ (e : Entries), WfE shape e → ∀ k v, Entries.Mem k v e →
    ∀ w, Wf shape w → veq v w = .eq → vhash p v = vhash p w
  | .cons k' v' r, h, k, v, hm, w, hw, he => by
    cases h with
    | cons _ _ _ h1 h2 =>
      rcases hm with ⟨rfl, rfl⟩ | hm
      · exact vhash_eq p v w h1 hw he
      · exact hashE_eq p r h2 k v hm w hw he
end

/-! ### The properties -/

variable {shape : String → List String}

/-- C26: comparing equal is an equivalence relation on well-formed values. -/
theorem eq_equivalence :
    (∀ a, Wf shape a → veq a a = .eq) ∧
    (∀ a b, Wf shape a → Wf shape b → veq a b = .eq → veq b a = .eq) ∧
    (∀ a b c, Wf shape a → Wf shape b → Wf shape c → veq a b = .eq → veq b c = .eq → veq a c = .eq) :=
  ⟨fun a h => veq_refl a h, fun a b ha hb h => veq_symm a b ha hb h, fun a b c _ _ _ h1 h2 => veq_trans a b c h1 h2⟩

/-- C26: equal values have equal hashes. -/
theorem eq_hash (p : Prims) (a b : Val) (ha : Wf shape a) (hb : Wf shape b) (h : veq a b = .eq) :
    vhash p a = vhash p b := vhash_eq p a b ha hb h

theorem has_iff {k : String} {v : Val} : ∀ {e : Entries}, Has e k v ↔ Entries.Mem k v e
  | .nil => ⟨fun h => (by cases h), fun h => h.elim⟩
  | .cons k' v' r => by
    constructor
    · intro h
      cases h with
      | here => exact .inl ⟨rfl, rfl⟩
      | there _ _ _ _ _ h => exact .inr (has_iff.mp h)
    · rintro (⟨rfl, rfl⟩ | h)
      · exact .here _ _ _
      · exact .there _ _ _ _ _ (has_iff.mpr h)

theorem keys_iff {k : String} {e : Entries} : (∃ v, Has e k v) ↔ k ∈ e.keys :=
  ⟨fun ⟨_, h⟩ => mem_keys (has_iff.mp h), fun h => let ⟨v, hv⟩ := keys_mem h; ⟨v, has_iff.mpr hv⟩⟩

theorem Res.ite_eq_eq (c : Prop) [Decidable c] (r : Res) : ((if c then r else .ne) = Res.eq) ↔ c ∧ r = .eq := by
  by_cases h : c <;> simp [h]

mutual
theorem same_of_eq : ∀ (a b : Val), Wf shape a → Wf shape b → veq a b = .eq → Same a b
  | .none, b, _, _, h => by cases b <;> simp [veq] at h; exact .none
  | .str s, b, _, _, h => by cases b <;> simp [veq] at h; subst h; exact .str _
  | .int n, b, _, _, h => by cases b <;> simp [veq] at h; subst h; exact .int _
  | .ref n, b, _, _, h => by cases b <;> simp [veq] at h; subst h; exact .ref _
  | .list l, b, ha, hb, h => by
    cases b <;> simp only [veq, reduceCtorEq, Res.ite_eq_eq] at h
    cases ha with | list _ ha => cases hb with | list _ hb => exact .list _ _ (sameL_of_eq _ _ h.1 ha hb h.2)
  | .tuple l, b, ha, hb, h => by
    cases b <;> simp only [veq, reduceCtorEq, Res.ite_eq_eq] at h
    cases ha with | tuple _ ha => cases hb with | tuple _ hb => exact .tuple _ _ (sameL_of_eq _ _ h.1 ha hb h.2)
  | .dict f d, b, ha, hb, h => by
    cases b <;> simp only [veq, reduceCtorEq, Res.ite_eq_eq] at h
    rename_i g e
    cases ha with | dict _ _ hn ha => cases hb with | dict _ _ hn' hb =>
    have hp := dict_keys_perm hn h.1 (veqD_keys h.2)
    have key := (veqD_eq d e).mp h.2
    refine .dict _ _ _ _ (fun k => (e.get k).getD .none) ?_ ?_ ?_
    · intro k; rw [keys_iff, keys_iff]; exact hp.mem_iff
    · intro k v hv
      obtain ⟨w, hw, _⟩ := key k v (has_iff.mp hv)
      rw [hw]; exact has_iff.mpr (get_mem hw)
    · intro k v hv
      obtain ⟨w, hw, he⟩ := key k v (has_iff.mp hv)
      rw [hw]
      exact sameE_of_eq d ha k v (has_iff.mp hv) w (wfE_mem hb (get_mem hw)) he
  | .obj c d, b, ha, hb, h => by
    cases b <;> simp only [veq, reduceCtorEq, Res.ite_eq_eq] at h
    rename_i c' e
    obtain ⟨hc, h⟩ := h
    subst hc
    cases ha with | obj _ _ hn hs ha => cases hb with | obj _ _ hn' hs' hb =>
    have key := (veqF_eq (noHash c) d e).mp h
    refine .obj _ _ _ (fun k => (e.get k).getD .none) ?_ ?_ ?_
    · intro k hk
      rw [keys_iff, keys_iff]
      have : ∀ l : List String, k ∈ l ↔ k ∈ l.filter (fun k => !decide (k ∈ ignored c)) := by
        intro l; simp [hk]
      rw [this d.keys, this e.keys, hs, hs']
    · intro k v hk hv
      obtain ⟨w, hw, _⟩ := key k v (has_iff.mp hv) hk
      rw [hw]; exact has_iff.mpr (get_mem hw)
    · intro k v hk hv
      obtain ⟨w, hw, he⟩ := key k v (has_iff.mp hv) hk
      rw [hw]
      exact sameE_of_eq d ha k v (has_iff.mp hv) w (wfE_mem hb (get_mem hw)) he

theorem sameL_of_eq : ∀ (a b : Vals), a.length = b.length → WfL shape a → WfL shape b → veqL a b = .eq → SameL a b
  | .nil, .nil, _, _, _, _ => .nil
  | .nil, .cons _ _, hl, _, _, _ => by simp [Vals.length] at hl
  | .cons x a, .nil, hl, _, _, _ => by simp [Vals.length] at hl
  | .cons x a, .cons y b, hl, ha, hb, h => by
    cases ha with | cons _ _ ha1 ha2 => cases hb with | cons _ _ hb1 hb2 =>
    simp only [veqL] at h
    split at h
    · rename_i he
      exact .cons _ _ _ _ (same_of_eq x y ha1 hb1 he) (sameL_of_eq a b (by simpa [Vals.length] using hl) ha2 hb2 h)
    · rename_i hne; exact absurd h hne

theorem sameE_of_eq : ∀ (e : Entries), WfE shape e → ∀ k v, Entries.Mem k v e →
    ∀ w, Wf shape w → veq v w = .eq → Same v w
  | .cons k' v' r, h, k, v, hm, w, hw, he => by
    cases h with
    | cons _ _ _ h1 h2 =>
      rcases hm with ⟨rfl, rfl⟩ | hm
      · exact same_of_eq v w h1 hw he
      · exact sameE_of_eq r h2 k v hm w hw he
end

mutual
theorem eq_of_same : ∀ (a b : Val), Wf shape a → Wf shape b → Same a b → veq a b = .eq
  | .none, b, _, _, h => by cases h; simp [veq]
  | .str s, b, _, _, h => by cases h; simp [veq]
  | .int n, b, _, _, h => by cases h; simp [veq]
  | .ref n, b, _, _, h => by cases h; simp [veq]
  | .list l, b, ha, hb, h => by
    cases h with | list _ b h => cases ha with | list _ ha => cases hb with | list _ hb =>
    obtain ⟨h1, h2⟩ := eqL_of_same l b ha hb h
    simp [veq, h1, h2]
  | .tuple l, b, ha, hb, h => by
    cases h with | tuple _ b h => cases ha with | tuple _ ha => cases hb with | tuple _ hb =>
    obtain ⟨h1, h2⟩ := eqL_of_same l b ha hb h
    simp [veq, h1, h2]
  | .dict f d, b, ha, hb, h => by
    cases h with | dict _ g _ e m h1 h2 h3 => cases ha with | dict _ _ hn ha => cases hb with | dict _ _ hn' hb =>
    have hl : d.keys.length = e.keys.length := by
      apply List.Perm.length_eq
      rw [List.perm_ext_iff_of_nodup hn hn']
      intro k; rw [← keys_iff, ← keys_iff]; exact h1 k
    simp only [veq, if_pos hl]
    rw [veqD_eq]
    intro k v hv
    have hm := has_iff.mp (h2 k v (has_iff.mpr hv))
    exact ⟨m k, mem_get hn' hm, eqE_of_same d ha k v hv _ (wfE_mem hb hm) (h3 k v (has_iff.mpr hv))⟩
  | .obj c d, b, ha, hb, h => by
    cases h with | obj _ _ e m h1 h2 h3 => cases ha with | obj _ _ hn hs ha => cases hb with | obj _ _ hn' hs' hb =>
    simp only [veq, if_true]
    rw [veqF_eq]
    intro k v hv hk
    have hm := has_iff.mp (h2 k v hk (has_iff.mpr hv))
    exact ⟨m k, mem_get hn' hm, eqE_of_same d ha k v hv _ (wfE_mem hb hm) (h3 k v hk (has_iff.mpr hv))⟩

theorem eqL_of_same : ∀ (a b : Vals), WfL shape a → WfL shape b → SameL a b → a.length = b.length ∧ veqL a b = .eq
  | .nil, b, _, _, h => by cases h; simp [veqL]
  | .cons x a, b, ha, hb, h => by
    cases h with | cons _ y _ b h1 h2 =>
    cases ha with | cons _ _ ha1 ha2 => cases hb with | cons _ _ hb1 hb2 =>
    obtain ⟨h3, h4⟩ := eqL_of_same a b ha2 hb2 h2
    simp [Vals.length, veqL, h3, h4, eq_of_same x y ha1 hb1 h1]

theorem eqE_of_same : ∀ (e : Entries), WfE shape e → ∀ k v, Entries.Mem k v e →
    ∀ w, Wf shape w → Same v w → veq v w = .eq
  | .cons k' v' r, h, k, v, hm, w, hw, he => by
    cases h with
    | cons _ _ _ h1 h2 =>
      rcases hm with ⟨rfl, rfl⟩ | hm
      · exact eq_of_same v w h1 hw he
      · exact eqE_of_same r h2 k v hm w hw he
end

/-- C26: comparing equal is structural sameness, location, parent and the like left out. -/
theorem eq_iff_same (a b : Val) (ha : Wf shape a) (hb : Wf shape b) : veq a b = .eq ↔ Same a b :=
  ⟨same_of_eq a b ha hb, eq_of_same a b ha hb⟩

/-- C26: two objects that differ only in location, parent and being frozen are equal and have the
same hash. -/
theorem ignores_location_parent (p : Prims) (c : String) (fs fs' : Entries) (h : Wf shape (.obj c fs))
    (h' : Wf shape (.obj c fs')) (hs : SameExceptPlace fs fs') :
    veq (.obj c fs) (.obj c fs') = .eq ∧ vhash p (.obj c fs) = vhash p (.obj c fs') := by
  have he : veq (.obj c fs) (.obj c fs') = .eq := by
    cases h with
    | obj _ _ hn _ hw =>
      cases h' with
      | obj _ _ hn' _ hw' =>
        simp only [veq, if_true]
        rw [veqF_eq]
        intro k v hm hk
        refine ⟨v, ?_, veqE_refl fs hw k v hm⟩
        apply mem_get hn'
        rw [← has_iff, ← hs k v (by simp [noHash] at hk ⊢; tauto)]
        exact has_iff.mpr hm
  exact ⟨he, eq_hash p _ _ h h' he⟩

/-! ### Concrete cases -/

def setting (loc : Nat) (v : Val) : Val :=
  .obj "Setting" (.cons "_frozen" (.int 0) (.cons "_location" (.ref loc) (.cons "_parent" .none
    (.cons "_instance" (.str "i") (.cons "_attribute" (.str "a") (.cons "_value" v .nil))))))

def demoShape : String → List String := fun _ => ["_instance", "_attribute", "_value"]

theorem setting_wf (loc : Nat) (v : Val) (hv : Wf demoShape v) : Wf demoShape (setting loc v) := by
  refine .obj _ _ (by simp [Entries.keys]) (by simp [Entries.keys, ignored, demoShape]) ?_
  exact .cons _ _ _ (.int _) (.cons _ _ _ (.ref _) (.cons _ _ _ .none (.cons _ _ _ (.str _)
    (.cons _ _ _ (.str _) (.cons _ _ _ hv .nil)))))

example : veq (setting 1 (.dict false (.cons "x" (.int 1) (.cons "y" (.int 2) .nil))))
    (setting 2 (.dict true (.cons "y" (.int 2) (.cons "x" (.int 1) .nil)))) = .eq := by
  simp [setting, veq, veqF, veqD, noHash, Entries.get, Entries.keys]

/-- C26 does not hold in full: comparing two settings whose values are different dictionaries
raises an exception instead of returning false. -/
theorem different_dicts_raise :
    veq (setting 1 (.dict false (.cons "x" (.int 1) .nil))) (setting 1 (.dict false (.cons "x" (.int 2) .nil))) =
      .raised := by
  simp [setting, veq, veqF, veqD, noHash, Entries.get, Entries.keys, sameType, unordered]

end Verif.Hash
