import Verif.Tpp.Spec
import Mathlib.Tactic.ByContra
import Mathlib.Tactic.Tauto
import Mathlib.Tactic.SplitIfs
import Mathlib.Data.List.TakeWhile

/-! Lemmas about stripping, directives and visible characters. -/

namespace Verif.Tpp

open Spec

theorem space_iff (c : Char) : isSpace c = true ↔ Space c := by
  simp [isSpace, Space]
  tauto

theorem space_false (c : Char) : isSpace c = false ↔ ¬ Space c := by
  rw [← space_iff]; simp

theorem blank_append (a b : List Char) : Blank (a ++ b) ↔ Blank a ∧ Blank b := by
  simp only [Blank, List.mem_append]
  constructor
  · intro h
    exact ⟨fun c hc => h c (Or.inl hc), fun c hc => h c (Or.inr hc)⟩
  · rintro ⟨h, k⟩ c (hc | hc)
    · exact h c hc
    · exact k c hc

theorem blank_iff_ink (l : List Char) : Blank l ↔ ink l = [] := by
  simp [Blank, ink, List.filter_eq_nil_iff]

theorem blank_reverse (l : List Char) : Blank l.reverse ↔ Blank l := by simp [Blank]

theorem lstrip_split (l : List Char) : ∃ s, Blank s ∧ l = s ++ lstrip l ∧ ∀ c, (lstrip l).head? = some c → ¬ Space c := by
  induction l with
  | nil => exact ⟨[], by simp [Blank], rfl, by simp [lstrip]⟩
  | cons a l ih =>
    obtain ⟨s, hs, hl, hh⟩ := ih
    by_cases h : isSpace a = true
    · have : lstrip (a :: l) = lstrip l := by simp [lstrip, List.dropWhile, h]
      rw [this]
      refine ⟨a :: s, ?_, by rw [List.cons_append, ← hl], hh⟩
      intro c hc
      rcases List.mem_cons.1 hc with rfl | hc
      · exact (space_iff _).1 h
      · exact hs c hc
    · have : lstrip (a :: l) = a :: l := by simp [lstrip, List.dropWhile, h]
      rw [this]
      refine ⟨[], by simp [Blank], rfl, ?_⟩
      simp only [List.head?_cons, Option.some.injEq]
      rintro c rfl
      rw [← space_iff]; exact h

theorem lstrip_eq {s t : List Char} (hs : Blank s) (ht : ∀ c, t.head? = some c → ¬ Space c) : lstrip (s ++ t) = t := by
  induction s with
  | nil =>
    cases t with
    | nil => rfl
    | cons a t =>
      have : isSpace a = false := (space_false a).2 (ht a rfl)
      simp [lstrip, this]
  | cons a s ih =>
    have : isSpace a = true := (space_iff a).2 (hs a (by simp))
    have h2 : lstrip (a :: s ++ t) = lstrip (s ++ t) := by simp [lstrip, this]
    rw [h2]
    exact ih fun c hc => hs c (by simp [hc])

theorem rstrip_lstrip (l : List Char) : rstrip l = (lstrip l.reverse).reverse := rfl

theorem rstrip_split (l : List Char) : ∃ s, Blank s ∧ l = rstrip l ++ s ∧ ∀ c, (rstrip l).getLast? = some c → ¬ Space c := by
  obtain ⟨s, hs, hl, hh⟩ := lstrip_split l.reverse
  refine ⟨s.reverse, (blank_reverse s).2 hs, ?_, ?_⟩
  · have := congrArg List.reverse hl
    simpa [rstrip_lstrip] using this
  · intro c hc
    apply hh
    rw [rstrip_lstrip, List.getLast?_reverse] at hc
    exact hc

theorem rstrip_eq {s t : List Char} (hs : Blank s) (ht : ∀ c, t.getLast? = some c → ¬ Space c) : rstrip (t ++ s) = t := by
  rw [rstrip_lstrip, List.reverse_append, lstrip_eq ((blank_reverse s).2 hs), List.reverse_reverse]
  intro c hc
  apply ht
  rwa [List.head?_reverse] at hc

theorem ink_append (a b : List Char) : ink (a ++ b) = ink a ++ ink b := by simp [ink]
theorem ink_nil : ink [] = [] := rfl
theorem ink_cons_space {c : Char} (l : List Char) (h : Space c) : ink (c :: l) = ink l := by simp [ink, h]
theorem ink_cons {c : Char} (l : List Char) (h : ¬ Space c) : ink (c :: l) = c :: ink l := by simp [ink, h]

theorem ink_lstrip (l : List Char) : ink (lstrip l) = ink l := by
  obtain ⟨s, hs, hl, -⟩ := lstrip_split l
  conv_rhs => rw [hl, ink_append, (blank_iff_ink s).1 hs, List.nil_append]

theorem ink_rstrip (l : List Char) : ink (rstrip l) = ink l := by
  obtain ⟨s, hs, hl, -⟩ := rstrip_split l
  conv_rhs => rw [hl, ink_append, (blank_iff_ink s).1 hs, List.append_nil]

theorem ink_strip (l : List Char) : ink (strip l) = ink l := by rw [strip, ink_rstrip, ink_lstrip]

theorem strip_nil (l : List Char) : strip l = [] ↔ Blank l := by
  rw [blank_iff_ink, ← ink_strip]
  constructor
  · intro h; rw [h]; rfl
  · intro h
    obtain ⟨s, hs, hl, hh⟩ := rstrip_split (lstrip l)
    have hb : Blank (strip l) := (blank_iff_ink _).2 h
    by_contra hn
    obtain ⟨c, hc⟩ : ∃ c, (strip l).getLast? = some c := by
      cases hx : (strip l).getLast? with
      | none => exact absurd (List.getLast?_eq_none_iff.1 hx) hn
      | some c => exact ⟨c, rfl⟩
    exact hh c hc (hb c (List.mem_of_getLast? hc))

/-! Directives. -/

theorem after_iff (p l r : List Char) : after p l = some r ↔ l = p ++ r := by
  induction p generalizing l with
  | nil => simp [after, eq_comm]
  | cons a p ih =>
    cases l with
    | nil => simp [after]
    | cons b l =>
      by_cases h : b = a
      · subst h; simp [after, ih]
      · simp [after, h]

theorem take_word {n r : List Char} (hn : ∀ c ∈ n, isWord c = true) (hr : ∀ c, r.head? = some c → isWord c = false) :
    (n ++ r).takeWhile isWord = n ∧ (n ++ r).dropWhile isWord = r := by
  induction n with
  | nil =>
    cases r with
    | nil => simp
    | cons a r => simp [hr a rfl]
  | cons a n ih =>
    have ha := hn a (by simp)
    have := ih fun c hc => hn c (by simp [hc])
    simp [ha, this.1, this.2]

theorem space_not_word {c : Char} (h : Space c) : isWord c = false := by
  simp only [Space, List.mem_cons, List.not_mem_nil, or_false] at h
  rcases h with rfl | rfl | rfl | rfl | rfl | rfl <;> decide

theorem head_append_blank {s t : List Char} {Q : Char → Prop} (hs : ∀ c ∈ s, Q c) (ht : ∀ c, t.head? = some c → Q c) :
    ∀ c, (s ++ t).head? = some c → Q c := by
  intro c hc
  cases s with
  | nil => exact ht c hc
  | cons a s => simp at hc; subst hc; exact hs _ (by simp)

theorem isWord_iff (c : Char) : isWord c = true ↔ c.isAlphanum ∨ c = '_' := by simp [isWord]

theorem word_not_space {c : Char} (h : isWord c = true) : ¬ Space c := by
  intro hs
  rw [space_not_word hs] at h
  simp at h

theorem directive_of {l : Line} {k v : List Char} (h : Directive l k v) : directive l = some (k, v) := by
  obtain ⟨s0, s1, s2, s3, s4, s5, h0, h1, h2, h3, h4, h5, hn, hk, hw, hv, rfl⟩ := h
  have hw' : ∀ c ∈ k, isWord c = true := fun c hc => (isWord_iff c).2 (hw c hc)
  have e1 : strip (s0 ++ "(**".toList ++ s1 ++ "TPP:".toList ++ s2 ++ k ++ s3 ++ "=".toList ++ s4 ++ v ++ "*)".toList ++ s5) =
      ['(', '*', '*'] ++ (s1 ++ (['T', 'P', 'P', ':'] ++ (s2 ++ (k ++ (s3 ++ (['='] ++ (s4 ++ (v ++ ['*', ')'])))))))) := by
    rw [strip]
    have : s0 ++ "(**".toList ++ s1 ++ "TPP:".toList ++ s2 ++ k ++ s3 ++ "=".toList ++ s4 ++ v ++ "*)".toList ++ s5 =
      s0 ++ ((['(', '*', '*'] ++ (s1 ++ (['T', 'P', 'P', ':'] ++ (s2 ++ (k ++ (s3 ++ (['='] ++ (s4 ++ (v ++ ['*', ')'])))))))))++ s5) := by
      simp [List.append_assoc]
    rw [this, lstrip_eq h0 (by simp [Space]), rstrip_eq h5]
    intro c hc
    have e : ∀ (x : List Char), x ++ ['*', ')'] = (x ++ ['*']) ++ [')'] := by simp
    simp only [← List.append_assoc] at hc
    rw [e, List.getLast?_concat] at hc
    cases hc
    decide
  unfold directive
  rw [e1, (after_iff _ _ _).2 rfl]
  dsimp only
  obtain ⟨c, s1', rfl⟩ : ∃ c s1', s1 = c :: s1' := by
    cases s1 with
    | nil => exact absurd rfl hn
    | cons c s1' => exact ⟨c, s1', rfl⟩
  have hc : isSpace c = true := (space_iff c).2 (h1 c (by simp))
  rw [List.cons_append]
  dsimp only
  rw [if_pos hc, ← List.cons_append, lstrip_eq h1 (by simp [Space]), (after_iff _ _ _).2 rfl]
  dsimp only
  have hkh : ∀ c, (k ++ (s3 ++ (['='] ++ (s4 ++ (v ++ ['*', ')']))))).head? = some c → ¬ Space c := by
    intro c hc
    cases k with
    | nil => exact absurd rfl hk
    | cons a k => simp at hc; subst hc; exact word_not_space (hw' _ (by simp))
  rw [lstrip_eq h2 hkh]
  have hr : ∀ c, (s3 ++ (['='] ++ (s4 ++ (v ++ ['*', ')'])))).head? = some c → isWord c = false :=
    head_append_blank (fun c hc => space_not_word (h3 c hc)) (by simp [isWord])
  rw [(take_word hw' hr).1, (take_word hw' hr).2, if_neg hk, lstrip_eq h3 (by simp [Space]), (after_iff _ _ _).2 rfl]
  dsimp only
  have hv' : ∀ c, (v ++ ['*', ')']).head? = some c → ¬ Space c := by
    intro c hc
    cases v with
    | nil => simp at hc; subst hc; decide
    | cons a v => exact hv c hc
  rw [lstrip_eq h4 hv']
  have : (v ++ ['*', ')']).reverse = [')', '*'] ++ v.reverse := by simp
  rw [this, (after_iff _ _ _).2 rfl]
  simp

theorem directive_to {l : Line} {k v : List Char} (h : directive l = some (k, v)) : Directive l k v := by
  unfold directive at h
  cases ha : after ['(', '*', '*'] (strip l) with
  | none => rw [ha] at h; exact absurd h (by simp)
  | some r =>
    rw [ha] at h
    dsimp only at h
    cases r with
    | nil => exact absurd h (by simp)
    | cons c r =>
      dsimp only at h
      split at h
      next hc =>
        cases hb : after ['T', 'P', 'P', ':'] (lstrip (c :: r)) with
        | none => rw [hb] at h; exact absurd h (by simp)
        | some r2 =>
          rw [hb] at h
          dsimp only at h
          split at h
          · exact absurd h (by simp)
          next hk =>
            cases hd : after ['='] (lstrip ((lstrip r2).dropWhile isWord)) with
            | none => rw [hd] at h; exact absurd h (by simp)
            | some r3 =>
              rw [hd] at h
              dsimp only at h
              cases he : after [')', '*'] (lstrip r3).reverse with
              | none => rw [he] at h; exact absurd h (by simp)
              | some u =>
                rw [he] at h
                simp only [Option.some.injEq, Prod.mk.injEq] at h
                obtain ⟨rfl, rfl⟩ := h
                rw [after_iff] at ha hb hd he
                obtain ⟨s0, hs0, hl0, -⟩ := lstrip_split l
                obtain ⟨s5, hs5, hl5, -⟩ := rstrip_split (lstrip l)
                obtain ⟨s1, hs1, hl1, -⟩ := lstrip_split (c :: r)
                obtain ⟨s2, hs2, hl2, -⟩ := lstrip_split r2
                obtain ⟨s3, hs3, hl3, -⟩ := lstrip_split ((lstrip r2).dropWhile isWord)
                obtain ⟨s4, hs4, hl4, hv⟩ := lstrip_split r3
                have he' : lstrip r3 = u.reverse ++ ['*', ')'] := by
                  have := congrArg List.reverse he
                  simpa using this
                refine ⟨s0, s1, s2, s3, s4, s5, hs0, hs1, hs2, hs3, hs4, hs5, ?_, hk, ?_, ?_, ?_⟩
                · rintro rfl
                  rw [List.nil_append, hb] at hl1
                  simp at hl1
                  rw [hl1.1] at hc
                  exact absurd hc (by decide)
                · intro x hx
                  exact (isWord_iff x).1 (List.mem_takeWhile_imp hx)
                · intro x hx
                  apply hv
                  rw [he']
                  cases hu : u.reverse with
                  | nil => rw [hu] at hx; simp at hx
                  | cons y ys => rw [hu] at hx; simpa using hx
                · have h3 : (lstrip r2) = (lstrip r2).takeWhile isWord ++ (s3 ++ (['='] ++ (s4 ++ (u.reverse ++ ['*', ')'])))) := by
                    conv_lhs => rw [← List.takeWhile_append_dropWhile (p := isWord) (l := lstrip r2)]
                    rw [hl3, hd]
                    congr 3
                    rw [hl4, he']
                  have hst : rstrip (lstrip l) = strip l := rfl
                  conv_lhs => rw [hl0, hl5, hst, ha, hl1, hb, hl2, h3]
                  simp [List.append_assoc]
      · exact absurd h (by simp)

theorem directive_iff (l : Line) (k v : List Char) : directive l = some (k, v) ↔ Directive l k v :=
  ⟨directive_to, directive_of⟩

theorem directive_none (l : Line) : directive l = none ↔ ¬ ∃ k v, Directive l k v := by
  constructor
  · rintro h ⟨k, v, hd⟩
    rw [directive_of hd] at h
    cases h
  · intro h
    cases hd : directive l with
    | none => rfl
    | some p => exact absurd ⟨p.1, p.2, directive_to hd⟩ h

end Verif.Tpp
