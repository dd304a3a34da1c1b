import Verif.Consolidate.Spec
import Mathlib.Tactic.Tauto
import Mathlib.Data.List.Nodup
import Mathlib.Data.List.Pairwise
import Mathlib.Tactic.ByContra

set_option linter.unusedSectionVars false

namespace Verif.Consolidate
open Spec
variable {E T : Type} [DecidableEq E] [DecidableEq T]

theorem mem_insertSet {α : Type} [DecidableEq α] (s : List α) (x y : α) : y ∈ insertSet s x ↔ y ∈ s ∨ y = x := by
  unfold insertSet
  split
  · constructor
    · exact .inl
    · rintro (h | rfl) <;> assumption
  · simp

theorem nodup_insertSet {α : Type} [DecidableEq α] (s : List α) (x : α) (h : s.Nodup) : (insertSet s x).Nodup := by
  unfold insertSet
  split
  · exact h
  · rename_i hx
    rw [List.nodup_append]
    refine ⟨h, by simp, ?_⟩
    intro a ha b hb
    simp at hb; subst hb
    exact fun e => hx (e ▸ ha)

theorem mem_foldInsert {α : Type} [DecidableEq α] (l : List α) : ∀ (s : List α) (y : α),
    y ∈ l.foldl insertSet s ↔ y ∈ s ∨ y ∈ l := by
  induction l with
  | nil => simp
  | cons a l ih => intro s y; simp only [List.foldl_cons, ih, mem_insertSet, List.mem_cons]; tauto

theorem nodup_foldInsert {α : Type} [DecidableEq α] (l : List α) : ∀ (s : List α), s.Nodup →
    (l.foldl insertSet s).Nodup := by
  induction l with
  | nil => simp
  | cons a l ih => intro s h; exact ih _ (nodup_insertSet s a h)

/-! ### The candidate table -/

structure CandOk (m : List (E × List Nat)) (P : List (E × Nat)) : Prop where
  keys : (m.map Prod.fst).Nodup
  sets : ∀ e s, (e, s) ∈ m → s.Nodup ∧ s ≠ [] ∧ ∀ c, c ∈ s ↔ (e, c) ∈ P
  cover : ∀ e c, (e, c) ∈ P → ∃ s, (e, s) ∈ m

theorem addEnd_keys (m : List (E × List Nat)) (e : E) (c : Nat) (x : E) :
    x ∈ (addEnd m e c).map Prod.fst ↔ x ∈ m.map Prod.fst ∨ x = e := by
  induction m with
  | nil => simp [addEnd]
  | cons p m ih =>
    obtain ⟨e', s⟩ := p
    simp only [addEnd]
    split
    · rename_i h; subst h; simp only [List.map_cons, List.mem_cons]; tauto
    · simp only [List.map_cons, List.mem_cons, ih]; tauto

theorem addEnd_nodup (m : List (E × List Nat)) (e : E) (c : Nat) (h : (m.map Prod.fst).Nodup) :
    ((addEnd m e c).map Prod.fst).Nodup := by
  induction m with
  | nil => simp [addEnd]
  | cons p m ih =>
    obtain ⟨e', s⟩ := p
    simp only [List.map_cons, List.nodup_cons] at h
    simp only [addEnd]
    split
    · simpa using h
    · rename_i hne
      simp only [List.map_cons, List.nodup_cons]
      refine ⟨?_, ih h.2⟩
      rw [addEnd_keys]
      rintro (hx | hx)
      · exact h.1 hx
      · exact hne hx

theorem mem_addEnd (m : List (E × List Nat)) (e : E) (c : Nat) (h : (m.map Prod.fst).Nodup) (x : E) (t : List Nat) :
    (x, t) ∈ addEnd m e c ↔ (x ≠ e ∧ (x, t) ∈ m) ∨
      (x = e ∧ ((∃ s, (e, s) ∈ m ∧ t = insertSet s c) ∨ (e ∉ m.map Prod.fst ∧ t = [c]))) := by
  induction m with
  | nil => simp [addEnd]
  | cons p m ih =>
    obtain ⟨e', s⟩ := p
    simp only [List.map_cons, List.nodup_cons] at h
    simp only [addEnd]
    split
    · rename_i hk
      subst hk
      have hno : ∀ s', (e', s') ∉ m := fun s' hs => h.1 (List.mem_map_of_mem (f := Prod.fst) hs)
      simp only [List.mem_cons, Prod.mk.injEq, List.map_cons, true_or, not_true, false_and, or_false, true_and]
      constructor
      · rintro (⟨rfl, rfl⟩ | hm)
        · exact .inr ⟨rfl, s, .inl rfl, rfl⟩
        · exact .inl ⟨fun hx => hno t (hx ▸ hm), .inr hm⟩
      · rintro (⟨hx, ⟨rfl, _⟩ | hm⟩ | ⟨rfl, s', rfl | hs, rfl⟩)
        · exact absurd rfl hx
        · exact .inr hm
        · exact .inl ⟨rfl, rfl⟩
        · exact absurd hs (hno s')
    · rename_i hne
      simp only [List.mem_cons, Prod.mk.injEq, List.map_cons, ih h.2]
      have hne' : e ≠ e' := fun he => hne he.symm
      constructor
      · rintro (⟨rfl, rfl⟩ | ⟨hx, hm⟩ | ⟨rfl, ⟨s', hs, rfl⟩ | ⟨hk, rfl⟩⟩)
        · exact .inl ⟨hne, .inl ⟨rfl, rfl⟩⟩
        · exact .inl ⟨hx, .inr hm⟩
        · exact .inr ⟨rfl, .inl ⟨s', .inr hs, rfl⟩⟩
        · refine .inr ⟨rfl, .inr ⟨?_, rfl⟩⟩
          rintro (h1 | h1)
          · exact hne' h1
          · exact hk h1
      · rintro (⟨hx, ⟨rfl, rfl⟩ | hm⟩ | ⟨rfl, ⟨s', ⟨h1, _⟩ | hs, rfl⟩ | ⟨hk, rfl⟩⟩)
        · exact .inl ⟨rfl, rfl⟩
        · exact .inr (.inl ⟨hx, hm⟩)
        · exact absurd h1 hne'
        · exact .inr (.inr ⟨rfl, .inl ⟨s', hs, rfl⟩⟩)
        · exact .inr (.inr ⟨rfl, .inr ⟨fun h1 => hk (.inr h1), rfl⟩⟩)

theorem addEnd_ok {m : List (E × List Nat)} {P : List (E × Nat)} (h : CandOk m P) (e : E) (c : Nat) :
    CandOk (addEnd m e c) (P ++ [(e, c)]) := by
  refine ⟨addEnd_nodup m e c h.keys, ?_, ?_⟩
  · intro x t ht
    rw [mem_addEnd m e c h.keys] at ht
    rcases ht with ⟨hx, hm⟩ | ⟨rfl, ⟨s, hs, rfl⟩ | ⟨hk, rfl⟩⟩
    · obtain ⟨h1, h2, h3⟩ := h.sets x t hm
      refine ⟨h1, h2, fun d => ?_⟩
      rw [h3, List.mem_append]
      constructor
      · exact .inl
      · rintro (h4 | h4)
        · exact h4
        · simp at h4; exact absurd h4.1 hx
    · obtain ⟨h1, h2, h3⟩ := h.sets x s hs
      refine ⟨nodup_insertSet s c h1, ?_, fun d => ?_⟩
      · intro h0
        have : c ∈ insertSet s c := (mem_insertSet s c c).mpr (.inr rfl)
        rw [h0] at this; cases this
      · rw [mem_insertSet, h3, List.mem_append]; simp
    · refine ⟨by simp, by simp, fun d => ?_⟩
      rw [List.mem_append]
      constructor
      · intro hd; simp at hd; subst hd; simp
      · rintro (h4 | h4)
        · obtain ⟨s, hs⟩ := h.cover x d h4
          exact absurd (List.mem_map_of_mem (f := Prod.fst) hs) hk
        · simpa using h4
  · intro x d hx
    rcases List.mem_append.mp hx with hx | hx
    · obtain ⟨s, hs⟩ := h.cover x d hx
      by_cases hxe : x = e
      · subst hxe
        exact ⟨insertSet s c, (mem_addEnd m x c h.keys _ _).mpr (.inr ⟨rfl, .inl ⟨s, hs, rfl⟩⟩)⟩
      · exact ⟨s, (mem_addEnd m e c h.keys _ _).mpr (.inl ⟨hxe, hs⟩)⟩
    · simp at hx
      obtain ⟨rfl, rfl⟩ := hx
      have := (addEnd_keys m x d x).mpr (.inr rfl)
      rw [List.mem_map] at this
      obtain ⟨⟨a, b⟩, hp, rfl⟩ := this
      exact ⟨b, hp⟩

theorem addConnections_ok (conns : List (Conn E T)) : CandOk (addConnections conns) (pairs conns) := by
  unfold addConnections
  have key : ∀ (l : List (E × Nat)) (m : List (E × List Nat)) (P : List (E × Nat)), CandOk m P →
      CandOk (l.foldl (fun m p => addEnd m p.1 p.2) m) (P ++ l) := by
    intro l
    induction l with
    | nil => intro m P h; simpa using h
    | cons p l ih =>
      intro m P h
      have := ih _ _ (addEnd_ok h p.1 p.2)
      simpa using this
  simpa using key (pairs conns) [] [] ⟨by simp, by simp, by simp⟩

theorem mem_pairs (conns : List (Conn E T)) (e : E) (c : Nat) :
    (e, c) ∈ pairs conns ↔ ∃ k, conns[c]? = some k ∧ e ∈ k.tos ++ k.froms := by
  simp only [pairs, List.mem_flatMap, List.mem_range]
  constructor
  · rintro ⟨d, hd, hm⟩
    rw [List.getElem?_eq_getElem hd] at hm
    simp only [List.mem_map, Prod.mk.injEq] at hm
    obtain ⟨e', he, rfl, rfl⟩ := hm
    exact ⟨conns[d], List.getElem?_eq_getElem hd, he⟩
  · rintro ⟨k, hk, he⟩
    refine ⟨c, (List.getElem?_eq_some_iff.mp hk).1, ?_⟩
    rw [hk]
    exact List.mem_map.mpr ⟨e, he, rfl⟩

/-! ### Merging -/

omit [DecidableEq E] [DecidableEq T] in
theorem Spec.Linked.trans {conns : List (Conn E T)} {a b c : Nat} (h1 : Linked conns a b) (h2 : Linked conns b c) :
    Linked conns a c := by
  induction h2 with
  | refl => exact h1
  | step _ _ _ hs ih => exact .step _ _ _ ih hs

omit [DecidableEq E] [DecidableEq T] in
theorem shares_symm {conns : List (Conn E T)} {a b : Nat} (h : Shares conns a b) : Shares conns b a := by
  obtain ⟨k, l, e, h1, h2, h3, h4⟩ := h
  exact ⟨l, k, e, h2, h1, h4, h3⟩

omit [DecidableEq E] [DecidableEq T] in
theorem Spec.Linked.symm {conns : List (Conn E T)} {a b : Nat} (h : Linked conns a b) : Linked conns b a := by
  induction h with
  | refl => exact .refl _
  | step d f _ hs ih => exact (Linked.step _ _ _ (.refl _) (shares_symm hs)).trans ih

structure SetOk (conns : List (Conn E T)) (s : List Nat) : Prop where
  nodup : s.Nodup
  nonempty : s ≠ []
  range : ∀ c ∈ s, c < conns.length
  linked : ∀ c ∈ s, ∀ d ∈ s, Linked conns c d

omit [DecidableEq E] [DecidableEq T] in
theorem mergeInto_ok {conns : List (Conn E T)} (m : List (List Nat)) (i : List Nat) (hm : ∀ s ∈ m, SetOk conns s)
    (hi : SetOk conns i) : (∀ s ∈ mergeInto m i, SetOk conns s) ∧ (∃ s ∈ mergeInto m i, ∀ c ∈ i, c ∈ s) ∧
      ∀ t ∈ m, ∃ s ∈ mergeInto m i, ∀ c ∈ t, c ∈ s := by
  induction m with
  | nil => simp [mergeInto]; exact hi
  | cons j rest ih =>
    obtain ⟨ih1, ih2, ih3⟩ := ih (fun s hs => hm s (by simp [hs]))
    have hj := hm j (by simp)
    simp only [mergeInto]
    split
    · rename_i hint
      simp only [List.any_eq_true, List.contains_iff_mem] at hint
      obtain ⟨x, hxi, hxj⟩ := hint
      have hmem := mem_foldInsert i j
      refine ⟨?_, ?_, ?_⟩
      · intro s hs
        rcases List.mem_cons.mp hs with rfl | hs
        · refine ⟨nodup_foldInsert i j hj.nodup, ?_, ?_, ?_⟩
          · intro h0
            have := (hmem x).mpr (.inl hxj)
            rw [h0] at this; cases this
          · intro c hc
            rcases (hmem c).mp hc with h | h
            · exact hj.range c h
            · exact hi.range c h
          · intro c hc d hd
            have toX : ∀ c, c ∈ i.foldl insertSet j → Linked conns c x := by
              intro c hc
              rcases (hmem c).mp hc with h | h
              · exact hj.linked c h x hxj
              · exact hi.linked c h x hxi
            exact (toX c hc).trans (toX d hd).symm
        · exact hm s (by simp [hs])
      · exact ⟨_, List.mem_cons_self, fun c hc => (hmem c).mpr (.inr hc)⟩
      · intro t ht
        rcases List.mem_cons.mp ht with rfl | ht
        · exact ⟨_, List.mem_cons_self, fun c hc => (hmem c).mpr (.inl hc)⟩
        · exact ⟨t, by simp [ht], fun c hc => hc⟩
    · refine ⟨?_, ?_, ?_⟩
      · intro s hs
        rcases List.mem_cons.mp hs with rfl | hs
        · exact hj
        · exact ih1 s hs
      · obtain ⟨s, hs, h⟩ := ih2
        exact ⟨s, by simp [hs], h⟩
      · intro t ht
        rcases List.mem_cons.mp ht with rfl | ht
        · exact ⟨t, by simp, fun c hc => hc⟩
        · obtain ⟨s, hs, h⟩ := ih3 t ht
          exact ⟨s, by simp [hs], h⟩

theorem multi_ok (conns : List (Conn E T)) :
    (∀ s ∈ multi (addConnections conns), SetOk conns s) ∧
      ∀ c d, Shares conns c d → ∃ s ∈ multi (addConnections conns), c ∈ s ∧ d ∈ s := by
  have hc := addConnections_ok conns
  have hsets : ∀ i ∈ (addConnections conns).map Prod.snd, SetOk conns i := by
    intro i hi
    rw [List.mem_map] at hi
    obtain ⟨⟨e, s⟩, hs, rfl⟩ := hi
    obtain ⟨h1, h2, h3⟩ := hc.sets e s hs
    refine ⟨h1, h2, ?_, ?_⟩
    · intro c hcs
      obtain ⟨k, hk, _⟩ := (mem_pairs conns e c).mp ((h3 c).mp hcs)
      exact (List.getElem?_eq_some_iff.mp hk).1
    · intro c hcs d hds
      obtain ⟨k, hk, he⟩ := (mem_pairs conns e c).mp ((h3 c).mp hcs)
      obtain ⟨l, hl, he'⟩ := (mem_pairs conns e d).mp ((h3 d).mp hds)
      exact .step _ _ _ (.refl _) ⟨k, l, e, hk, hl, he, he'⟩
  have key : ∀ (l m : List (List Nat)), (∀ i ∈ l, SetOk conns i) → (∀ s ∈ m, SetOk conns s) →
      (∀ s ∈ l.foldl mergeInto m, SetOk conns s) ∧
      (∀ t ∈ l ++ m, ∃ s ∈ l.foldl mergeInto m, ∀ c ∈ t, c ∈ s) := by
    intro l
    induction l with
    | nil => intro m _ hm; exact ⟨hm, fun t ht => ⟨t, by simpa using ht, fun c hc => hc⟩⟩
    | cons i l ih =>
      intro m hl hm
      obtain ⟨h1, h2, h3⟩ := mergeInto_ok m i hm (hl i (by simp))
      obtain ⟨h4, h5⟩ := ih (mergeInto m i) (fun j hj => hl j (by simp [hj])) h1
      refine ⟨h4, fun t ht => ?_⟩
      simp only [List.cons_append, List.mem_cons, List.mem_append] at ht
      rcases ht with rfl | ht | ht
      · obtain ⟨s, hs, h⟩ := h2
        obtain ⟨s', hs', h'⟩ := h5 s (by simp [hs])
        exact ⟨s', hs', fun c hc => h' c (h c hc)⟩
      · exact h5 t (by simp [ht])
      · obtain ⟨s, hs, h⟩ := h3 t ht
        obtain ⟨s', hs', h'⟩ := h5 s (by simp [hs])
        exact ⟨s', hs', fun c hc => h' c (h c hc)⟩
  obtain ⟨h1, h2⟩ := key ((addConnections conns).map Prod.snd) [] hsets (by simp)
  refine ⟨h1, ?_⟩
  rintro c d ⟨k, l, e, hk, hl, he, he'⟩
  have p1 := (mem_pairs conns e c).mpr ⟨k, hk, he⟩
  have p2 := (mem_pairs conns e d).mpr ⟨l, hl, he'⟩
  obtain ⟨s, hs⟩ := hc.cover e c p1
  obtain ⟨_, _, h3⟩ := hc.sets e s hs
  obtain ⟨t, ht, hsub⟩ := h2 s (by simp; exact ⟨e, hs⟩)
  exact ⟨t, ht, hsub c ((h3 c).mpr p1), hsub d ((h3 d).mpr p2)⟩

/-! ### Replacing -/

/-- The original connections not yet removed. -/
def remaining (conns : List (Conn E T)) (rem : List Nat) : List (Item E T) :=
  (List.range conns.length).filterMap fun c =>
    if c ∈ rem then none else (conns[c]?).map fun k => (some c, k)

omit [DecidableEq E] [DecidableEq T] in
theorem removeConn_none (xs : List (Item E T)) (c : Nat) (h : ∀ x ∈ xs, x.1 ≠ some c) :
    removeConn xs c = .error .valueError := by
  induction xs with
  | nil => rfl
  | cons x xs ih =>
    simp only [removeConn]
    rw [if_neg (h x (by simp)), ih (fun y hy => h y (by simp [hy]))]

omit [DecidableEq E] [DecidableEq T] in
theorem removeConn_append (xs ys zs : List (Item E T)) (c : Nat) (h : removeConn xs c = .ok zs) :
    removeConn (xs ++ ys) c = .ok (zs ++ ys) := by
  induction xs generalizing zs with
  | nil => cases h
  | cons x xs ih =>
    simp only [removeConn, List.cons_append] at h ⊢
    split at h
    · rename_i hx; rw [if_pos hx]; cases h; rfl
    · rename_i hx
      rw [if_neg hx]
      cases hr : removeConn xs c with
      | error e => rw [hr] at h; cases h
      | ok ws => rw [hr] at h; cases h; rw [ih ws hr]; rfl

omit [DecidableEq E] [DecidableEq T] in
theorem removeConn_remaining (conns : List (Conn E T)) (rem : List Nat) (c : Nat) (hc : c < conns.length)
    (hr : c ∉ rem) : removeConn (remaining conns rem) c = .ok (remaining conns (c :: rem)) := by
  unfold remaining
  have key : ∀ l : List Nat, l.Nodup → c ∈ l → (∀ d ∈ l, d < conns.length) →
      removeConn (l.filterMap fun d => if d ∈ rem then none else (conns[d]?).map fun k => ((some d, k) : Item E T)) c =
        .ok (l.filterMap fun d => if d ∈ c :: rem then none else (conns[d]?).map fun k => (some d, k)) := by
    intro l
    induction l with
    | nil => intro _ h; cases h
    | cons a l ih =>
      intro hn hm hl
      have ha := hl a (by simp)
      simp only [List.nodup_cons] at hn
      by_cases hac : a = c
      · subst hac
        have hsame : l.filterMap (fun d => if d ∈ rem then none else (conns[d]?).map fun k => ((some d, k) : Item E T)) =
            l.filterMap (fun d => if d ∈ a :: rem then none else (conns[d]?).map fun k => (some d, k)) := by
          apply List.filterMap_congr
          intro d hd
          have : d ≠ a := fun e => hn.1 (e ▸ hd)
          simp [this]
        rw [List.filterMap_cons, List.filterMap_cons]
        simp only [hr, if_false, List.getElem?_eq_getElem ha, Option.map_some, List.mem_cons, true_or, if_true]
        simp only [removeConn, if_true]
        rw [hsame]
        simp only [List.mem_cons]
      · have hm' : c ∈ l := by
          rcases List.mem_cons.mp hm with h | h
          · exact absurd h.symm hac
          · exact h
        have ih' := ih hn.2 hm' (fun d hd => hl d (by simp [hd]))
        rw [List.filterMap_cons, List.filterMap_cons]
        by_cases har : a ∈ rem
        · simp only [har, if_true, List.mem_cons, or_true]
          simpa only [List.mem_cons] using ih'
        · simp only [har, if_false, List.getElem?_eq_getElem ha, Option.map_some, List.mem_cons, hac, or_false,
            removeConn, Option.some.injEq]
          simp only [List.mem_cons] at ih'
          rw [ih']
  exact key _ List.nodup_range (List.mem_range.mpr hc) (fun d hd => List.mem_range.mp hd)

omit [DecidableEq E] [DecidableEq T] in
theorem remaining_ids (conns : List (Conn E T)) (rem : List Nat) (x : Item E T) (hx : x ∈ remaining conns rem) :
    ∃ c, x.1 = some c ∧ c ∉ rem := by
  unfold remaining at hx
  rw [List.mem_filterMap] at hx
  obtain ⟨c, _, hc⟩ := hx
  split at hc
  · cases hc
  · rename_i hr
    cases hk : conns[c]? with
    | none => rw [hk] at hc; cases hc
    | some k => rw [hk] at hc; cases hc; exact ⟨c, rfl, hr⟩

omit [DecidableEq E] [DecidableEq T] in
theorem removeAll_ok (conns : List (Conn E T)) (new : List (Item E T)) (hnew : ∀ x ∈ new, x.1 = none) :
    ∀ (s : List Nat) (rem : List Nat) (ys : List (Item E T)), (∀ c ∈ s, c < conns.length) →
      removeAll (remaining conns rem ++ new) s = .ok ys →
      (∀ c ∈ s, c ∉ rem) ∧ ∃ rem', ys = remaining conns rem' ++ new ∧ ∀ c, c ∈ rem' ↔ c ∈ rem ∨ c ∈ s := by
  intro s
  induction s with
  | nil => intro rem ys _ h; cases h; exact ⟨by simp, rem, rfl, by simp⟩
  | cons c s ih =>
    intro rem ys hlt h
    have hc : c ∉ rem := by
      intro hcr
      have : removeConn (remaining conns rem ++ new) c = .error .valueError := by
        apply removeConn_none
        intro x hx
        rcases List.mem_append.mp hx with hx | hx
        · obtain ⟨d, hd, hdr⟩ := remaining_ids conns rem x hx
          rw [hd]; intro e; cases e; exact hdr hcr
        · rw [hnew x hx]; simp
      simp [removeAll, this] at h
    have h1 := removeConn_append _ new _ c (removeConn_remaining conns rem c (hlt c (by simp)) hc)
    simp only [removeAll, h1] at h
    obtain ⟨h2, rem', h3, h4⟩ := ih (c :: rem) ys (fun d hd => hlt d (by simp [hd])) h
    refine ⟨?_, rem', h3, ?_⟩
    · intro d hd
      rcases List.mem_cons.mp hd with rfl | hd
      · exact hc
      · have := h2 d hd; simp at this; exact this.2
    · intro d; rw [h4]; simp; tauto

/-! ### The merged connection -/

theorem commonType_ok (l : List T) : ∀ (t : Option T) (r : Option T), commonType l t = .ok r →
    (∀ x ∈ l, some x = r) ∧ (∀ t', t = some t' → r = t) ∧ (l = [] → r = t) := by
  induction l with
  | nil => intro t r h; cases h; exact ⟨by simp, fun _ h => rfl, fun _ => rfl⟩
  | cons a l ih =>
    intro t r h
    cases t with
    | none =>
      simp only [commonType] at h
      obtain ⟨h1, h2, h3⟩ := ih _ _ h
      refine ⟨?_, by simp, by simp⟩
      intro x hx
      rcases List.mem_cons.mp hx with rfl | hx
      · exact (h2 x rfl).symm
      · exact h1 x hx
    | some t' =>
      simp only [commonType] at h
      split at h
      · rename_i ha
        subst ha
        obtain ⟨h1, h2, h3⟩ := ih _ _ h
        refine ⟨?_, fun t' ht => h2 t' ht, by simp⟩
        intro x hx
        rcases List.mem_cons.mp hx with rfl | hx
        · exact (h2 x rfl).symm
        · exact h1 x hx
      · cases h

theorem mem_endsOf (side : Conn E T → List E) (conns : List (Conn E T)) (s : List Nat) (e : E) :
    e ∈ endsOf side conns s ↔ ∃ c ∈ s, ∃ k, conns[c]? = some k ∧ e ∈ side k := by
  unfold endsOf
  have key : ∀ (s : List Nat) (acc : List E), e ∈ s.foldl (fun acc c => match conns[c]? with
      | some k => (side k).foldl insertSet acc
      | none => acc) acc ↔ e ∈ acc ∨ ∃ c ∈ s, ∃ k, conns[c]? = some k ∧ e ∈ side k := by
    intro s
    induction s with
    | nil => simp
    | cons c s ih =>
      intro acc
      simp only [List.foldl_cons]
      rw [ih]
      cases hk : conns[c]? with
      | none => simp [hk]
      | some k => simp [hk, mem_foldInsert, or_assoc]
  have := key s []
  simp only [List.not_mem_nil, false_or] at this
  exact this

theorem build_ok {conns : List (Conn E T)} {s : List Nat} (hs : SetOk conns s) (h2 : s.length ≠ 1)
    {k : Conn E T} (h : build conns s = .ok (some k)) : MergeOf conns s k := by
  unfold build at h
  split at h
  · cases h
  · cases h
  · rename_i t hct
    cases h
    obtain ⟨h1, _, _⟩ := commonType_ok _ _ _ hct
    refine ⟨hs.nonempty, fun e => mem_endsOf _ _ _ _, fun e => mem_endsOf _ _ _ _, ?_, ?_, fun _ => ⟨_, List.mergeSort_perm _ _, ?_, rfl⟩⟩
    · intro c hc k hk
      have := h1 k.type (List.mem_filterMap.mpr ⟨c, hc, by simp [hk]⟩)
      cases this; rfl
    · intro c hc; rw [hc] at h2; simp at h2
    · have := List.pairwise_mergeSort (le := fun a b : String => decide (a ≤ b))
        (fun a b c h1 h2 => by simp only [decide_eq_true_eq] at *; exact String.le_trans h1 h2)
        (fun a b => by simp only [Bool.or_eq_true, decide_eq_true_eq]; exact String.le_total a b)
        (s.filterMap fun c => (conns[c]?).map (·.name))
      exact this.imp (fun h => of_decide_eq_true h)

theorem build_not_none {conns : List (Conn E T)} {s : List Nat} (hs : SetOk conns s) :
    build conns s ≠ .ok none := by
  intro h
  unfold build at h
  split at h
  · cases h
  · rename_i hct
    obtain ⟨c, rest, hcr⟩ := List.exists_cons_of_ne_nil hs.nonempty
    have hc : c ∈ s := by simp [hcr]
    have hlt := hs.range c hc
    obtain ⟨h1, _, _⟩ := commonType_ok _ _ _ hct
    have := h1 (conns[c].type) (List.mem_filterMap.mpr ⟨c, hc, by simp [List.getElem?_eq_getElem hlt]⟩)
    cases this
  · cases h

theorem MergesOf_append {conns : List (Conn E T)} {a b : List (List Nat)} {x y : List (Conn E T)}
    (h1 : MergesOf conns a x) (h2 : MergesOf conns b y) : MergesOf conns (a ++ b) (x ++ y) := by
  induction h1 with
  | nil => exact h2
  | cons s r ss rs h _ ih => exact .cons _ _ _ _ h ih

theorem replaceLoop_ok (conns : List (Conn E T)) : ∀ (m : List (List Nat)) (done : List (List Nat)) (rem : List Nat)
    (new : List (Item E T)) (ys : List (Item E T)), (∀ s ∈ m, SetOk conns s) → (∀ x ∈ new, x.1 = none) →
    MergesOf conns done (new.map Prod.snd) → (∀ c, c ∈ rem ↔ ∃ s ∈ done, c ∈ s) →
    (done.Pairwise fun s t => ∀ c, c ∈ s → c ∉ t) →
    replaceLoop conns (remaining conns rem ++ new) m = .ok ys →
    ∃ done' rem' new', ys = remaining conns rem' ++ new' ∧ MergesOf conns done' (new'.map Prod.snd) ∧
      (∀ c, c ∈ rem' ↔ ∃ s ∈ done', c ∈ s) ∧ (done'.Pairwise fun s t => ∀ c, c ∈ s → c ∉ t) ∧
      (∀ s, s ∈ done' ↔ s ∈ done ∨ (s ∈ m ∧ s.length ≠ 1)) := by
  intro m
  induction m with
  | nil =>
    intro done rem new ys _ hnew hmo hrem hdis h
    cases h
    exact ⟨done, rem, new, rfl, hmo, hrem, hdis, by simp⟩
  | cons s m ih =>
    intro done rem new ys hok hnew hmo hrem hdis h
    have hs := hok s (by simp)
    simp only [replaceLoop] at h
    split at h
    · rename_i h1
      obtain ⟨d, r, n, a1, a2, a3, a4, a5⟩ := ih done rem new ys (fun t ht => hok t (by simp [ht])) hnew hmo hrem hdis h
      refine ⟨d, r, n, a1, a2, a3, a4, fun t => ?_⟩
      rw [a5]
      constructor
      · rintro (h | ⟨h, h'⟩)
        · exact .inl h
        · exact .inr ⟨by simp [h], h'⟩
      · rintro (h | ⟨h, h'⟩)
        · exact .inl h
        · rcases List.mem_cons.mp h with rfl | h
          · exact absurd h1 h'
          · exact .inr ⟨h, h'⟩
    · rename_i h1
      cases hb : build conns s with
      | error e => rw [hb] at h; cases h
      | ok o =>
        rw [hb] at h
        cases o with
        | none => exact absurd hb (build_not_none hs)
        | some k =>
          simp only at h
          cases hra : removeAll (remaining conns rem ++ new) s with
          | error e => rw [hra] at h; cases h
          | ok zs =>
            rw [hra] at h
            simp only at h
            obtain ⟨hnr, rem', hzs, hrem'⟩ := removeAll_ok conns new hnew s rem zs hs.range hra
            subst hzs
            rw [List.append_assoc] at h
            obtain ⟨d, r, n, a1, a2, a3, a4, a5⟩ := ih (done ++ [s]) rem' (new ++ [(none, k)]) ys
              (fun t ht => hok t (by simp [ht]))
              (by
                intro x hx
                rcases List.mem_append.mp hx with hx | hx
                · exact hnew x hx
                · simp at hx; rw [hx])
              (by
                rw [List.map_append]
                exact MergesOf_append hmo (.cons _ _ _ _ (build_ok hs h1 hb) .nil))
              (by
                intro c
                rw [hrem', hrem]
                simp only [List.mem_append, List.mem_singleton]
                constructor
                · rintro (⟨t, ht, hc⟩ | hc)
                  · exact ⟨t, .inl ht, hc⟩
                  · exact ⟨s, .inr rfl, hc⟩
                · rintro ⟨t, ht | rfl, hc⟩
                  · exact .inl ⟨t, ht, hc⟩
                  · exact .inr hc)
              (by
                rw [List.pairwise_append]
                refine ⟨hdis, by simp, ?_⟩
                intro t ht u hu c hct hcu
                simp at hu; subst hu
                exact hnr c hcu ((hrem c).mpr ⟨t, ht, hct⟩))
              h
            refine ⟨d, r, n, a1, a2, a3, a4, fun t => ?_⟩
            rw [a5]
            simp only [List.mem_append, List.mem_cons, List.not_mem_nil, or_false]
            constructor
            · rintro ((h | rfl) | ⟨h, h'⟩)
              · exact .inl h
              · exact .inr ⟨.inl rfl, h1⟩
              · exact .inr ⟨.inr h, h'⟩
            · rintro (h | ⟨rfl | h, h'⟩)
              · exact .inl (.inl h)
              · exact .inl (.inr rfl)
              · exact .inr ⟨h, h'⟩

omit [DecidableEq E] [DecidableEq T] in
theorem remaining_merges (conns : List (Conn E T)) (rem : List Nat) :
    MergesOf conns (((List.range conns.length).filter (fun c => !decide (c ∈ rem))).map fun c => [c])
      ((remaining conns rem).map Prod.snd) := by
  unfold remaining
  have key : ∀ l : List Nat, (∀ c ∈ l, c < conns.length) →
      MergesOf conns ((l.filter (fun c => !decide (c ∈ rem))).map fun c => [c])
        ((l.filterMap fun c => if c ∈ rem then none else (conns[c]?).map fun k => ((some c, k) : Item E T)).map Prod.snd) := by
    intro l
    induction l with
    | nil => intro _; exact .nil
    | cons a l ih =>
      intro hl
      have ha := hl a (by simp)
      have ih' := ih (fun c hc => hl c (by simp [hc]))
      by_cases har : a ∈ rem
      · simpa [List.filter_cons, List.filterMap_cons, har] using ih'
      · simp only [List.filter_cons, List.filterMap_cons, har, decide_false, Bool.not_false, if_true,
          if_false, List.getElem?_eq_getElem ha, Option.map_some, List.map_cons]
        refine .cons _ _ _ _ ?_ ih'
        have hk := List.getElem?_eq_getElem ha
        refine ⟨by simp, ?_, ?_, ?_, ?_, fun h => absurd rfl h⟩
        · intro e; simp [hk]
        · intro e; simp [hk]
        · intro c hc k hk'; simp at hc; subst hc; rw [hk] at hk'; cases hk'; rfl
        · intro c hc; simp at hc; subst hc; exact hk
  exact key _ (fun c hc => List.mem_range.mp hc)

/-! ### The properties -/

/-- C18 (partial: for runs that do not fail; see `overlapping_merge_fails`): if consolidation
succeeds, the resulting connections are exactly the merges of the classes of connections linked
by chains of shared ends, one for each class. -/
theorem consolidate_correct_partial (conns out : List (Conn E T)) (h : transform conns = .ok out) :
    ∃ classes, Classes conns classes ∧ MergesOf conns classes out := by
  unfold transform at h
  simp only at h
  split at h
  · cases h
  · rename_i ys hrl
    cases h
    obtain ⟨hok, hshare⟩ := multi_ok conns
    have hitems : ((List.range conns.length).filterMap fun c =>
        (conns[c]?).map fun k => ((some c, k) : Item E T)) = remaining conns [] ++ [] := by
      simp [remaining]
    rw [hitems] at hrl
    obtain ⟨done, rem, new, hys, hmo, hrem, hdis, hmem⟩ := replaceLoop_ok conns _ [] [] [] ys hok (by simp)
      .nil (by simp) (by simp) hrl
    simp only [List.not_mem_nil, false_or] at hmem
    -- two sets that both contain `c` are the same
    have huniq : ∀ s ∈ done, ∀ t ∈ done, ∀ c, c ∈ s → c ∈ t → s = t := by
      intro s hs t ht c hcs hct
      by_contra hne
      have hsym : ∀ {a b : List Nat}, (∀ c, c ∈ a → c ∉ b) → ∀ c, c ∈ b → c ∉ a := fun hab c hb ha => hab c ha hb
      have := List.Pairwise.forall_of_forall_of_flip (R := fun s t : List Nat => s = t ∨ ∀ c, c ∈ s → c ∉ t)
        (l := done) (by intro x _; exact .inl rfl)
        (hdis.imp fun h => .inr h)
        (hdis.imp fun h => .inr (hsym h))
      rcases this hs ht with h | h
      · exact hne h
      · exact h c hcs hct
    -- two different connections sharing an end are in a common merged set
    have hbig : ∀ c d, Shares conns c d → c ≠ d → ∃ s ∈ done, c ∈ s ∧ d ∈ s := by
      intro c d hs hne
      obtain ⟨s, hsm, hc, hd⟩ := hshare c d hs
      refine ⟨s, (hmem s).mpr ⟨hsm, ?_⟩, hc, hd⟩
      intro h1
      obtain ⟨a, ha⟩ := List.length_eq_one_iff.mp h1
      rw [ha] at hc hd
      simp at hc hd
      exact hne (hc.trans hd.symm)
    refine ⟨((List.range conns.length).filter (fun c => !decide (c ∈ rem))).map (fun c => [c]) ++ done, ?_, ?_⟩
    · refine ⟨?_, ?_, ?_⟩
      · intro c hc
        by_cases hr : c ∈ rem
        · obtain ⟨s, hs, hcs⟩ := (hrem c).mp hr
          exact ⟨s, by simp [hs], hcs⟩
        · exact ⟨[c], by simp [hc, hr], by simp⟩
      · rw [List.pairwise_append]
        refine ⟨?_, hdis, ?_⟩
        · apply List.Pairwise.map
          · intro a b (hab : a ≠ b) c hca hcb
            simp at hca hcb
            exact hab (hca.symm.trans hcb)
          · exact List.Nodup.filter _ List.nodup_range
        · intro s hs t ht c hcs hct
          simp only [List.mem_map, List.mem_filter] at hs
          obtain ⟨a, ⟨_, ha⟩, rfl⟩ := hs
          simp at hcs; subst hcs
          simp at ha
          exact ha ((hrem c).mpr ⟨t, ht, hct⟩)
      · intro s hs c hc
        rcases List.mem_append.mp hs with hs | hs
        · simp only [List.mem_map, List.mem_filter, List.mem_range] at hs
          obtain ⟨a, ⟨hlt, ha⟩, rfl⟩ := hs
          simp at hc; subst hc
          simp at ha
          refine ⟨hlt, fun d hd => ?_⟩
          constructor
          · intro h; simp at h; subst h; exact .refl _
          · intro hl
            have : ∀ d, Linked conns c d → d = c := by
              intro d hl
              induction hl with
              | refl => rfl
              | step d f _ hsh ih =>
                subst ih
                by_contra hne
                obtain ⟨t, ht, h1, _⟩ := hbig d f hsh (fun e => hne e.symm)
                exact ha ((hrem d).mpr ⟨t, ht, h1⟩)
            simp [this d hl]
        · have hso := hok s ((hmem s).mp hs).1
          refine ⟨hso.range c hc, fun d hd => ⟨fun h => hso.linked c hc d h, fun hl => ?_⟩⟩
          clear hd
          induction hl with
          | refl => exact hc
          | step d f _ hsh ih =>
            by_cases hdf : d = f
            · subst hdf; exact ih
            · obtain ⟨t, ht, h1, h2⟩ := hbig d f hsh hdf
              rw [huniq s hs t ht d ih h1]; exact h2
    · rw [hys, List.map_append]
      exact MergesOf_append (remaining_merges conns rem) hmo

/-- C18: connections of different connector types that are linked by shared ends are rejected. -/
theorem conflicting_types_rejected (conns : List (Conn E T)) (c d : Nat) (k l : Conn E T)
    (hc : conns[c]? = some k) (hd : conns[d]? = some l) (hl : Linked conns c d) (ht : k.type ≠ l.type) :
    ∃ e, transform conns = .error e := by
  cases h : transform conns with
  | error e => exact ⟨e, rfl⟩
  | ok out =>
    exfalso
    obtain ⟨classes, hcl, hm⟩ := consolidate_correct_partial conns out h
    have hlt := (List.getElem?_eq_some_iff.mp hc).1
    have hlt' := (List.getElem?_eq_some_iff.mp hd).1
    obtain ⟨s, hs, hcs⟩ := hcl.cover c hlt
    have hds : d ∈ s := ((hcl.linked s hs c hcs).2 d hlt').mpr hl
    clear hcl h
    induction hm with
    | nil => cases hs
    | cons s' r ss rs hm1 _ ih =>
      rcases List.mem_cons.mp hs with rfl | hs
      · exact ht ((hm1.type c hcs k hc).trans (hm1.type d hds l hd).symm)
      · exact ih hs

/-! ### When consolidation succeeds -/

/-- Two distinct connections have the end `e`. -/
def SharedEnd (conns : List (Conn E T)) (e : E) : Prop :=
  ∃ c d, c ≠ d ∧ (e, c) ∈ pairs conns ∧ (e, d) ∈ pairs conns

theorem two_of_length {s : List Nat} (hn : s.Nodup) (h0 : s ≠ []) (h1 : s.length ≠ 1) :
    ∃ c ∈ s, ∃ d ∈ s, c ≠ d := by
  match s, h0, h1 with
  | [a], _, h1 => simp at h1
  | a :: b :: r, _, _ =>
    refine ⟨a, by simp, b, by simp, ?_⟩
    intro e; subst e; simp at hn

/-- A set of connections is a single connection, or all the connections of one end. -/
def Star (conns : List (Conn E T)) (done : List E) (s : List Nat) : Prop :=
  s.length = 1 ∨ ∃ e ∈ done, ∀ c, c ∈ s ↔ (e, c) ∈ pairs conns

def BigDisjoint (s t : List Nat) : Prop := s.length ≠ 1 → t.length ≠ 1 → ∀ c, c ∈ s → c ∉ t

theorem mergeInto_star {conns : List (Conn E T)}
    (hone : ∀ c e e', (e, c) ∈ pairs conns → (e', c) ∈ pairs conns → SharedEnd conns e → SharedEnd conns e' → e = e')
    (done : List E) (e : E) (he : e ∉ done) (i : List Nat) (hi : SetOk conns i)
    (hie : ∀ c, c ∈ i ↔ (e, c) ∈ pairs conns) :
    ∀ m : List (List Nat), (∀ s ∈ m, SetOk conns s) → (∀ s ∈ m, Star conns done s) → m.Pairwise BigDisjoint →
      (∀ s ∈ mergeInto m i, Star conns (e :: done) s) ∧ (mergeInto m i).Pairwise BigDisjoint := by
  have mono : ∀ s, Star conns done s → Star conns (e :: done) s := by
    rintro s (h | ⟨e', h1, h2⟩)
    · exact .inl h
    · exact .inr ⟨e', by simp [h1], h2⟩
  have shared : ∀ s e', SetOk conns s → s.length ≠ 1 → (∀ c, c ∈ s ↔ (e', c) ∈ pairs conns) → SharedEnd conns e' := by
    intro s e' hs h1 h2
    obtain ⟨c, hc, d, hd, hne⟩ := two_of_length hs.nodup hs.nonempty h1
    exact ⟨c, d, hne, (h2 c).mp hc, (h2 d).mp hd⟩
  -- a set equal to that of `e` is disjoint from the earlier big sets
  have dis : ∀ s t, SetOk conns s → (∀ c, c ∈ s ↔ (e, c) ∈ pairs conns) → SetOk conns t → Star conns done t →
      BigDisjoint s t := by
    intro s t hs hse ht hst h1 h2 c hcs hct
    rcases hst with h | ⟨e', he', hte⟩
    · exact h2 h
    · have := hone c e e' ((hse c).mp hcs) ((hte c).mp hct) (shared s e hs h1 hse) (shared t e' ht h2 hte)
      exact he (this ▸ he')
  intro m
  induction m with
  | nil =>
    intro _ _ _
    simp only [mergeInto, List.mem_singleton, forall_eq]
    exact ⟨.inr ⟨e, by simp, hie⟩, by simp⟩
  | cons j rest ih =>
    intro hok hst hpw
    rw [List.pairwise_cons] at hpw
    have hj := hok j (by simp)
    obtain ⟨ih1, ih2⟩ := ih (fun s hs => hok s (by simp [hs])) (fun s hs => hst s (by simp [hs])) hpw.2
    simp only [mergeInto]
    split
    · rename_i hint
      simp only [List.any_eq_true, List.contains_iff_mem] at hint
      obtain ⟨x, hxi, hxj⟩ := hint
      have hmem := mem_foldInsert i j
      have hnok := (mergeInto_ok [j] i (by simpa using hj) hi).1 (i.foldl insertSet j) (by
        simp only [mergeInto]
        rw [if_pos (by simp only [List.any_eq_true, List.contains_iff_mem]; exact ⟨x, hxi, hxj⟩)]
        simp)
      have hcase : i.foldl insertSet j = j ∨ ∀ c, c ∈ i.foldl insertSet j ↔ (e, c) ∈ pairs conns := by
        by_cases hi1 : i.length = 1
        · left
          obtain ⟨a, rfl⟩ := List.length_eq_one_iff.mp hi1
          simp at hxi; subst hxi
          simp [insertSet, hxj]
        · right
          intro c
          rw [hmem, ← hie]
          constructor
          · rintro (h | h)
            · by_cases hj1 : j.length = 1
              · obtain ⟨a, rfl⟩ := List.length_eq_one_iff.mp hj1
                simp at h hxj; subst h; subst hxj; exact hxi
              · exact absurd hxj (dis i j hi hie hj (hst j (by simp)) hi1 hj1 x hxi)
            · exact h
          · exact .inr
      rcases hcase with hc | hc
      · rw [hc]
        refine ⟨?_, List.pairwise_cons.mpr hpw⟩
        intro s hs
        exact mono s (hst s hs)
      · refine ⟨?_, ?_⟩
        · intro s hs
          rcases List.mem_cons.mp hs with rfl | hs
          · exact .inr ⟨e, by simp, hc⟩
          · exact mono s (hst s (by simp [hs]))
        · rw [List.pairwise_cons]
          refine ⟨?_, hpw.2⟩
          intro t ht
          exact dis _ t hnok hc (hok t (by simp [ht])) (hst t (by simp [ht]))
    · rename_i hint
      have hnint : ∀ x ∈ i, x ∉ j := by
        intro x hx hxj
        apply hint
        simp only [List.any_eq_true, List.contains_iff_mem]
        exact ⟨x, hx, hxj⟩
      refine ⟨?_, ?_⟩
      · intro s hs
        rcases List.mem_cons.mp hs with rfl | hs
        · exact mono s (hst s (by simp))
        · exact ih1 s hs
      · rw [List.pairwise_cons]
        refine ⟨?_, ih2⟩
        -- members of the merged rest: an old set, or one containing all of `i`
        have old : ∀ (m : List (List Nat)) (t : List Nat), t ∈ mergeInto m i →
            t ∈ m ∨ t = i ∨ ∃ u ∈ m, t = i.foldl insertSet u := by
          intro m
          induction m with
          | nil => intro t ht; simp [mergeInto] at ht; exact .inr (.inl ht)
          | cons u m ihm =>
            intro t ht
            simp only [mergeInto] at ht
            split at ht
            · rcases List.mem_cons.mp ht with rfl | ht
              · exact .inr (.inr ⟨u, by simp, rfl⟩)
              · exact .inl (by simp [ht])
            · rcases List.mem_cons.mp ht with rfl | ht
              · exact .inl (by simp)
              · rcases ihm t ht with h | h | ⟨v, hv, h⟩
                · exact .inl (by simp [h])
                · exact .inr (.inl h)
                · exact .inr (.inr ⟨v, by simp [hv], h⟩)
        intro t ht h1 h2 c hcj hct
        rcases old rest t ht with h | h | ⟨u, hu, h⟩
        · exact hpw.1 t h h1 h2 c hcj hct
        · subst h; exact hnint c hct hcj
        · subst h
          rcases (mem_foldInsert i u c).mp hct with hcu | hci
          · by_cases hu1 : u.length = 1
            · -- a single connection merged with `i`: if it meets `i` nothing is left to show
              rcases ih1 _ ht with h3 | ⟨e', he', h3⟩
              · exact h2 h3
              · rcases List.mem_cons.mp he' with rfl | he'
                · have hci := (hie c).mpr ((h3 c).mp hct)
                  exact hnint c hci hcj
                · obtain ⟨y, hy⟩ := List.exists_mem_of_ne_nil i hi.nonempty
                  have hyt : y ∈ i.foldl insertSet u := (mem_foldInsert i u y).mpr (.inr hy)
                  have htok := (mergeInto_ok rest i (fun s hs => hok s (by simp [hs])) hi).1 _ ht
                  have hse' := shared _ e' htok h2 h3
                  rcases hst j (by simp) with h4 | ⟨e'', he'', h4⟩
                  · exact h1 h4
                  · have hse'' := shared j e'' hj h1 h4
                    have hee := hone c e' e'' ((h3 c).mp hct) ((h4 c).mp hcj) hse' hse''
                    subst hee
                    exact hnint y hy ((h4 y).mpr ((h3 y).mp hyt))
            · exact hpw.1 u hu h1 hu1 c hcj hcu
          · exact hnint c hci hcj

theorem multi_star (conns : List (Conn E T))
    (hone : ∀ c e e', (e, c) ∈ pairs conns → (e', c) ∈ pairs conns → SharedEnd conns e → SharedEnd conns e' → e = e') :
    (multi (addConnections conns)).Pairwise BigDisjoint := by
  have hc := addConnections_ok conns
  have hsets : ∀ e i, (e, i) ∈ addConnections conns → SetOk conns i ∧ ∀ c, c ∈ i ↔ (e, c) ∈ pairs conns := by
    intro e i hi
    obtain ⟨h1, h2, h3⟩ := hc.sets e i hi
    refine ⟨⟨h1, h2, ?_, ?_⟩, h3⟩
    · intro c hcs
      obtain ⟨k, hk, _⟩ := (mem_pairs conns e c).mp ((h3 c).mp hcs)
      exact (List.getElem?_eq_some_iff.mp hk).1
    · intro c hcs d hds
      obtain ⟨k, hk, he⟩ := (mem_pairs conns e c).mp ((h3 c).mp hcs)
      obtain ⟨l, hl, he'⟩ := (mem_pairs conns e d).mp ((h3 d).mp hds)
      exact .step _ _ _ (.refl _) ⟨k, l, e, hk, hl, he, he'⟩
  unfold multi
  have key : ∀ (l : List (E × List Nat)) (done : List E) (m : List (List Nat)), (l.map Prod.fst).Nodup →
      (∀ e ∈ l.map Prod.fst, e ∉ done) →
      (∀ e i, (e, i) ∈ l → SetOk conns i ∧ ∀ c, c ∈ i ↔ (e, c) ∈ pairs conns) →
      (∀ s ∈ m, SetOk conns s) → (∀ s ∈ m, Star conns done s) → m.Pairwise BigDisjoint →
      ((l.map Prod.snd).foldl mergeInto m).Pairwise BigDisjoint := by
    intro l
    induction l with
    | nil => intro done m _ _ _ _ _ h; exact h
    | cons p l ih =>
      intro done m hn hd hl hok hst hpw
      obtain ⟨e, i⟩ := p
      simp only [List.map_cons, List.nodup_cons] at hn
      obtain ⟨hi, hie⟩ := hl e i (by simp)
      obtain ⟨h1, h2⟩ := mergeInto_star hone done e (hd e (by simp)) i hi hie m hok hst hpw
      refine ih (e :: done) (mergeInto m i) hn.2 ?_ (fun e' i' h => hl e' i' (by simp [h]))
        (mergeInto_ok m i hok hi).1 h1 h2
      intro e' he'
      rw [List.mem_cons]
      rintro (rfl | h)
      · exact hn.1 he'
      · exact hd e' (by rw [List.map_cons]; exact List.mem_cons_of_mem _ he') h
  exact key _ [] [] hc.keys (by simp) hsets (by simp) (by simp) (by simp)

theorem removeAll_success (conns : List (Conn E T)) (new : List (Item E T)) :
    ∀ (s : List Nat) (rem : List Nat), s.Nodup → (∀ c ∈ s, c < conns.length) → (∀ c ∈ s, c ∉ rem) →
      ∃ rem', removeAll (remaining conns rem ++ new) s = .ok (remaining conns rem' ++ new) ∧
        ∀ c, c ∈ rem' ↔ c ∈ rem ∨ c ∈ s := by
  intro s
  induction s with
  | nil => intro rem _ _ _; exact ⟨rem, rfl, by simp⟩
  | cons c s ih =>
    intro rem hn hlt hnr
    simp only [List.nodup_cons] at hn
    have h1 := removeConn_append _ new _ c (removeConn_remaining conns rem c (hlt c (by simp)) (hnr c (by simp)))
    obtain ⟨rem', h2, h3⟩ := ih (c :: rem) hn.2 (fun d hd => hlt d (by simp [hd])) (by
      intro d hd
      rw [List.mem_cons]
      rintro (rfl | h)
      · exact hn.1 hd
      · exact hnr d (by simp [hd]) h)
    refine ⟨rem', ?_, ?_⟩
    · simp only [removeAll, h1, h2]
    · intro d; rw [h3]; simp only [List.mem_cons]; tauto

theorem commonType_success (l : List T) (t : T) (h : ∀ x ∈ l, x = t) : commonType l (some t) = .ok (some t) := by
  induction l with
  | nil => rfl
  | cons a l ih =>
    simp only [commonType]
    rw [if_pos (h a (by simp))]
    exact ih (fun x hx => h x (by simp [hx]))

theorem build_success {conns : List (Conn E T)} {s : List Nat} (hs : SetOk conns s)
    (ht : ∀ c ∈ s, ∀ d ∈ s, ∀ k l, conns[c]? = some k → conns[d]? = some l → k.type = l.type) :
    ∃ k, build conns s = .ok (some k) := by
  have : ∃ t, commonType (s.filterMap fun c => (conns[c]?).map (·.type)) none = .ok (some t) := by
    obtain ⟨c, rest, rfl⟩ := List.exists_cons_of_ne_nil hs.nonempty
    have hlt := hs.range c (by simp)
    rw [List.filterMap_cons]
    simp only [List.getElem?_eq_getElem hlt, Option.map_some, commonType]
    refine ⟨_, commonType_success _ _ ?_⟩
    intro x hx
    rw [List.mem_filterMap] at hx
    obtain ⟨d, hd, hx⟩ := hx
    have hdl := hs.range d (by simp [hd])
    simp only [List.getElem?_eq_getElem hdl, Option.map_some, Option.some.injEq] at hx
    subst hx
    exact ht d (by simp [hd]) c (by simp) _ _ (List.getElem?_eq_getElem hdl) (List.getElem?_eq_getElem hlt)
  obtain ⟨t, ht⟩ := this
  unfold build
  rw [ht]
  exact ⟨_, rfl⟩

theorem replaceLoop_success (conns : List (Conn E T))
    (htype : ∀ c d k l, Linked conns c d → conns[c]? = some k → conns[d]? = some l → k.type = l.type) :
    ∀ (m : List (List Nat)) (rem : List Nat) (new : List (Item E T)), (∀ s ∈ m, SetOk conns s) →
      m.Pairwise BigDisjoint → (∀ s ∈ m, s.length ≠ 1 → ∀ c ∈ s, c ∉ rem) →
      ∃ ys, replaceLoop conns (remaining conns rem ++ new) m = .ok ys := by
  intro m
  induction m with
  | nil => intro rem new _ _ _; exact ⟨_, rfl⟩
  | cons s m ih =>
    intro rem new hok hpw hrem
    rw [List.pairwise_cons] at hpw
    have hs := hok s (by simp)
    simp only [replaceLoop]
    split
    · exact ih rem new (fun t ht => hok t (by simp [ht])) hpw.2 (fun t ht => hrem t (by simp [ht]))
    · rename_i h1
      obtain ⟨k, hk⟩ := build_success hs (fun c hc d hd k l => htype c d k l (hs.linked c hc d hd))
      rw [hk]
      obtain ⟨rem', h2, h3⟩ := removeAll_success conns new s rem hs.nodup hs.range (hrem s (by simp) h1)
      simp only [h2]
      rw [List.append_assoc]
      apply ih rem' (new ++ [(none, k)]) (fun t ht => hok t (by simp [ht])) hpw.2
      intro t ht ht1 c hct
      rw [h3]
      rintro (h | h)
      · exact hrem t (by simp [ht]) ht1 c hct h
      · exact hpw.1 t ht h1 ht1 c h hct

/-- C18: consolidation succeeds whenever no connection takes part in sharing through two
different ends, and linked connections have the same connector type. -/
theorem consolidate_succeeds (conns : List (Conn E T))
    (hone : ∀ (c : Nat) (k : Conn E T) (e e' : E), conns[c]? = some k → e ∈ k.tos ++ k.froms → e' ∈ k.tos ++ k.froms →
      (∃ (d : Nat) (l : Conn E T), d ≠ c ∧ conns[d]? = some l ∧ e ∈ l.tos ++ l.froms) →
      (∃ (d : Nat) (l : Conn E T), d ≠ c ∧ conns[d]? = some l ∧ e' ∈ l.tos ++ l.froms) → e = e')
    (htype : ∀ c d k l, Linked conns c d → conns[c]? = some k → conns[d]? = some l → k.type = l.type) :
    ∃ out, transform conns = .ok out := by
  have hone' : ∀ c e e', (e, c) ∈ pairs conns → (e', c) ∈ pairs conns → SharedEnd conns e → SharedEnd conns e' → e = e' := by
    intro c e e' h1 h2 h3 h4
    obtain ⟨k, hk, he⟩ := (mem_pairs conns e c).mp h1
    obtain ⟨k', hk', he'⟩ := (mem_pairs conns e' c).mp h2
    rw [hk] at hk'; cases hk'
    have other : ∀ x, SharedEnd conns x → ∃ (d : Nat) (l : Conn E T), d ≠ c ∧ conns[d]? = some l ∧ x ∈ l.tos ++ l.froms := by
      rintro x ⟨a, b, hab, ha, hb⟩
      by_cases hac : a = c
      · obtain ⟨l, hl, hx⟩ := (mem_pairs conns x b).mp hb
        exact ⟨b, l, fun h => hab (hac.trans h.symm), hl, hx⟩
      · obtain ⟨l, hl, hx⟩ := (mem_pairs conns x a).mp ha
        exact ⟨a, l, hac, hl, hx⟩
    exact hone c k e e' hk he he' (other e h3) (other e' h4)
  obtain ⟨hok, _⟩ := multi_ok conns
  have hitems : ((List.range conns.length).filterMap fun c =>
      (conns[c]?).map fun k => ((some c, k) : Item E T)) = remaining conns [] ++ [] := by
    simp [remaining]
  obtain ⟨ys, hys⟩ := replaceLoop_success conns htype (multi (addConnections conns)) [] [] hok
    (multi_star conns hone') (by simp)
  unfold transform
  simp only [hitems, hys]
  exact ⟨_, rfl⟩

/-! ### Concrete cases -/

/-- Three connections into one end, and an unrelated one. -/
def demo : List (Conn Nat Nat) :=
  [⟨"b", 0, [1], [9]⟩, ⟨"x", 1, [5], [6]⟩, ⟨"a", 0, [2], [9]⟩, ⟨"c", 0, [3], [9]⟩]

example : (match transform demo with | .ok l => l.map (fun k => (k.type, k.froms, k.tos)) | .error _ => []) =
    [(1, [5], [6]), (0, [1, 2, 3], [9])] := by decide +kernel

example : (match transform [⟨"b", 0, [1], [9]⟩, (⟨"a", 1, [2], [9]⟩ : Conn Nat Nat)] with
    | .ok _ => none | .error e => some e) = some .parseError := by decide +kernel

/-- The hypotheses of `consolidate_succeeds` hold for two connections into one end. -/
def two : List (Conn Nat Nat) := [⟨"a", 0, [1], [9]⟩, ⟨"b", 0, [2], [9]⟩]

theorem two_get (c : Nat) (k : Conn Nat Nat) (h : two[c]? = some k) :
    (c = 0 ∧ k = ⟨"a", 0, [1], [9]⟩) ∨ (c = 1 ∧ k = ⟨"b", 0, [2], [9]⟩) := by
  match c with
  | 0 => left; simp [two] at h; exact ⟨rfl, h.symm⟩
  | 1 => right; simp [two] at h; exact ⟨rfl, h.symm⟩
  | c + 2 => simp [two] at h

example : ∃ out, transform two = .ok out := by
  apply consolidate_succeeds
  · rintro c k e e' hk he he' ⟨d, l, hd, hl, h1⟩ ⟨d', l', hd', hl', h2⟩
    rcases two_get c k hk with ⟨rfl, rfl⟩ | ⟨rfl, rfl⟩ <;> rcases two_get d l hl with ⟨rfl, rfl⟩ | ⟨rfl, rfl⟩ <;>
      rcases two_get d' l' hl' with ⟨rfl, rfl⟩ | ⟨rfl, rfl⟩ <;> simp_all <;> omega
  · intro c d k l _ hk hl
    rcases two_get c k hk with ⟨_, rfl⟩ | ⟨_, rfl⟩ <;> rcases two_get d l hl with ⟨_, rfl⟩ | ⟨_, rfl⟩ <;> rfl

/-- C18 fails for some sharing patterns: the four linked connections below all have the same
type, but merging only into the first matching set leaves one connection in two sets, and
removing it a second time raises an exception. -/
theorem overlapping_merge_fails :
    let conns : List (Conn Nat Nat) := [⟨"c1", 0, [1], [10]⟩, ⟨"c4", 0, [2], [11]⟩, ⟨"c2", 0, [3], [10, 12]⟩,
      ⟨"c3", 0, [4], [11, 12]⟩]
    (∀ c d, c < 4 → d < 4 → Linked conns c d) ∧
      (match transform conns with | .ok _ => none | .error e => some e) = some .valueError := by
  intro conns
  have s02 : Shares conns 0 2 := ⟨_, _, 10, rfl, rfl, by simp, by simp⟩
  have s23 : Shares conns 2 3 := ⟨_, _, 12, rfl, rfl, by simp, by simp⟩
  have s31 : Shares conns 3 1 := ⟨_, _, 11, rfl, rfl, by simp, by simp⟩
  have l2 : Linked conns 0 2 := .step _ _ _ (.refl _) s02
  have l3 : Linked conns 0 3 := .step _ _ _ l2 s23
  have l1 : Linked conns 0 1 := .step _ _ _ l3 s31
  have all : ∀ d, d < 4 → Linked conns 0 d := by
    intro d hd
    match d with
    | 0 => exact .refl _
    | 1 => exact l1
    | 2 => exact l2
    | 3 => exact l3
    | d + 4 => omega
  exact ⟨fun c d hc hd => (all c hc).symm.trans (all d hd), by decide +kernel⟩

end Verif.Consolidate
