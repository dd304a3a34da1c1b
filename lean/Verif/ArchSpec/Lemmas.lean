import Verif.ArchSpec.Spec
import Mathlib.Data.List.Nodup

/-! # Lemmas about names, the sections of the theory and reading it -/

namespace Verif.ArchSpec
open Spec

/-! ### Names -/

theorem kind_text_inj {k l : Kind} {s t : Str} (h : k.text ++ (['_', '_'] ++ s) = l.text ++ (['_', '_'] ++ t)) :
    k = l ∧ s = t := by
  cases k <;> cases l <;> simp [Kind.text] at h ⊢ <;> exact h

theorem quote_map_inj : ∀ {n m : Str}, '\'' ∉ n → '\'' ∉ m →
    (n.map fun c => if c = '.' then '\'' else c) = (m.map fun c => if c = '.' then '\'' else c) → n = m
  | [], [], _, _, _ => rfl
  | [], _ :: _, _, _, h => by simp at h
  | _ :: _, [], _, _, h => by simp at h
  | c :: n, d :: m, hn, hm, h => by
    simp only [List.mem_cons, not_or] at hn hm
    simp only [List.map_cons, List.cons.injEq] at h
    have ih := quote_map_inj hn.2 hm.2 h.2
    have h1 := h.1
    split at h1 <;> split at h1
    · rename_i a b; rw [a, b, ih]
    · exact absurd h1 hm.1
    · exact absurd h1.symm hn.1
    · rw [h1, ih]

theorem ident_inj {n m i : Str} (hn : '\'' ∉ n) (hm : '\'' ∉ m) (h1 : ident n = some i) (h2 : ident m = some i) :
    n = m := by
  unfold ident at h1 h2
  cases n with
  | nil => simp at h1
  | cons c n =>
    cases m with
    | nil => simp at h2
    | cons d m =>
      simp only [Option.ite_none_right_eq_some, Option.some.injEq] at h1 h2
      exact quote_map_inj hn hm (h1.2.trans h2.2.symm)

/-- A name that `adl` makes for a kind. -/
def OfKind (k : Kind) (n : Str) : Prop := ∃ i, n = k.text ++ (['_', '_'] ++ i)

theorem adl_ofKind {k : Kind} {n m : Str} (h : adl k n = some m) : OfKind k m := by
  simp only [adl, Option.map_eq_some_iff] at h
  obtain ⟨i, _, rfl⟩ := h
  exact ⟨i, rfl⟩

theorem adl_inj {k : Kind} {n n' m : Str} (hn : '\'' ∉ n) (hn' : '\'' ∉ n') (h : adl k n = some m)
    (h' : adl k n' = some m) : n = n' := by
  simp only [adl, Option.map_eq_some_iff] at h h'
  obtain ⟨i, hi, rfl⟩ := h
  obtain ⟨j, hj, he⟩ := h'
  have := (kind_text_inj he).2
  subst this
  exact ident_inj hn hn' hi hj

theorem adl?_ofKind {k : Kind} {n : Option Str} {m : Str} (h : adl? k n = some m) : OfKind k m := by
  simp only [adl?, Option.bind_eq_some_iff] at h
  obtain ⟨_, _, h⟩ := h
  exact adl_ofKind h

theorem adl?_inj {k : Kind} {n n' : Option Str} {m : Str} (hn : ∀ x, n = some x → '\'' ∉ x)
    (hn' : ∀ x, n' = some x → '\'' ∉ x) (h : adl? k n = some m) (h' : adl? k n' = some m) : n = n' := by
  simp only [adl?, Option.bind_eq_some_iff] at h h'
  obtain ⟨x, rfl, h⟩ := h
  obtain ⟨y, rfl, h'⟩ := h'
  rw [adl_inj (hn x rfl) (hn' y rfl) h h']

theorem splitLast_none : ∀ {l : Str}, splitLast l = none → ')' ∉ l
  | [], _ => by simp
  | c :: r, h => by
    unfold splitLast at h
    split at h
    · simp at h
    · rename_i hr
      split at h
      · simp at h
      · rename_i hc
        simp only [List.mem_cons, not_or]
        exact ⟨fun he => hc he.symm, splitLast_none hr⟩

theorem splitLast_some : ∀ {l m p : Str}, splitLast l = some (m, p) → l = m ++ ')' :: p ∧ ')' ∉ p
  | [], _, _, h => by simp [splitLast] at h
  | c :: r, m, p, h => by
    unfold splitLast at h
    split at h
    · rename_i m' p' hr
      simp only [Option.some.injEq, Prod.mk.injEq] at h
      obtain ⟨rfl, rfl⟩ := h
      obtain ⟨h1, h2⟩ := splitLast_some hr
      exact ⟨by rw [h1]; rfl, h2⟩
    · rename_i hr
      split at h
      · rename_i hc
        simp only [Option.some.injEq, Prod.mk.injEq] at h
        obtain ⟨rfl, rfl⟩ := h
        exact ⟨by rw [hc]; rfl, splitLast_none hr⟩
      · simp at h

theorem unsize_written : ∀ t : Str, Written t (unsize t)
  | [] => .inr ⟨by rintro ⟨p, m, s, h⟩; simp at h, rfl⟩
  | c :: r => by
    unfold unsize
    split
    · rename_i hc
      subst hc
      split
      · rename_i m p h
        obtain ⟨h1, h2⟩ := splitLast_some h
        exact .inl ⟨[], m, p, by rw [h1]; rfl, by simp, h2, rfl⟩
      · rename_i h
        refine .inr ⟨?_, rfl⟩
        rintro ⟨p, m, s, he⟩
        have hn := splitLast_none h
        cases p with
        | nil => simp only [List.nil_append, List.cons.injEq, true_and] at he; rw [he] at hn; simp at hn
        | cons d p => simp only [List.cons_append, List.cons.injEq] at he; rw [he.2] at hn; simp at hn
    · rename_i hc
      rcases unsize_written r with ⟨p, m, s, h1, h2, h3, h4⟩ | ⟨h1, h2⟩
      · refine .inl ⟨c :: p, m, s, by rw [h1]; rfl, ?_, h3, by rw [h4]; rfl⟩
        simp only [List.mem_cons, not_or]
        exact ⟨fun he => hc he.symm, h2⟩
      · refine .inr ⟨?_, by rw [h2]⟩
        rintro ⟨p, m, s, he⟩
        cases p with
        | nil => simp only [List.nil_append, List.cons.injEq] at he; exact hc he.1
        | cons d p => simp only [List.cons_append, List.cons.injEq] at he; exact h1 ⟨p, m, s, he.2⟩

theorem written_plain {t u : Str} (h : Written t u) (ht : '\'' ∉ t) : '\'' ∉ u := by
  rcases h with ⟨p, m, s, rfl, _, _, rfl⟩ | ⟨_, rfl⟩
  · simp only [List.mem_append, List.mem_cons, not_or] at ht ⊢
    exact ⟨ht.1, by decide, ht.2.2.1, ht.2.2.2.2⟩
  · exact ht

/-! ### Lists -/

theorem mem_uniq_aux {α : Type} [DecidableEq α] : ∀ (xs acc : List α) (x : α),
    x ∈ xs.foldl (fun ys z => if z ∈ ys then ys else ys ++ [z]) acc ↔ x ∈ acc ∨ x ∈ xs
  | [], acc, x => by simp
  | y :: xs, acc, x => by
    rw [List.foldl_cons, mem_uniq_aux xs]
    by_cases h : y ∈ acc
    · simp only [h, if_true, List.mem_cons]
      constructor
      · rintro (h | h) <;> simp [h]
      · rintro (h' | rfl | h')
        · exact .inl h'
        · exact .inl h
        · exact .inr h'
    · simp only [h, if_false, List.mem_append, List.mem_cons, List.not_mem_nil, or_false, or_assoc]

theorem mem_uniq {α : Type} [DecidableEq α] {xs : List α} {x : α} : x ∈ uniq xs ↔ x ∈ xs := by
  unfold uniq; rw [mem_uniq_aux]; simp

theorem nodup_uniq_aux {α : Type} [DecidableEq α] : ∀ (xs acc : List α), acc.Nodup →
    (xs.foldl (fun ys z => if z ∈ ys then ys else ys ++ [z]) acc).Nodup
  | [], acc, h => h
  | y :: xs, acc, h => by
    rw [List.foldl_cons]
    apply nodup_uniq_aux xs
    split
    · exact h
    · rename_i hy
      rw [List.nodup_append]
      refine ⟨h, by simp, ?_⟩
      rintro a ha b hb rfl
      simp only [List.mem_cons, List.not_mem_nil, or_false] at hb
      exact hy (hb ▸ ha)

theorem nodup_uniq {α : Type} [DecidableEq α] (xs : List α) : (uniq xs).Nodup :=
  nodup_uniq_aux xs [] List.nodup_nil

theorem each_forall₂ {α β : Type} {f : α → Option β} : ∀ {as : List α} {bs : List β},
    each f as = some bs → List.Forall₂ (fun a b => f a = some b) as bs
  | [], _, h => by cases h; exact .nil
  | a :: as, bs, h => by
    simp only [each, Option.bind_eq_some_iff, Option.map_eq_some_iff] at h
    obtain ⟨b, hb, bs', hbs, rfl⟩ := h
    exact .cons hb (each_forall₂ hbs)

theorem all_of_forall₂ {α β : Type} {f : α → Option β} : ∀ {as : List α} {bs : List β},
    List.Forall₂ (fun a b => f a = some b) as bs → Spec.all f as = some bs
  | _, _, .nil => rfl
  | _, _, .cons h hs => by simp only [Spec.all, h, all_of_forall₂ hs]

theorem all_ex {α β : Type} {f : α → Option β} (Q : α → β → Prop) : ∀ {as : List α},
    (∀ a ∈ as, ∃ b, f a = some b ∧ Q a b) → ∃ bs, Spec.all f as = some bs ∧ List.Forall₂ Q as bs
  | [], _ => ⟨[], rfl, .nil⟩
  | a :: as, h => by
    obtain ⟨b, hb, hq⟩ := h a (by simp)
    obtain ⟨bs, hbs, hqs⟩ := all_ex Q (as := as) fun x hx => h x (by simp [hx])
    exact ⟨b :: bs, by simp [Spec.all, hb, hbs], .cons hq hqs⟩

theorem forall₂_mem {α β : Type} {R : α → β → Prop} : ∀ {as : List α} {bs : List β},
    List.Forall₂ R as bs → ∀ a ∈ as, ∃ b ∈ bs, R a b
  | _, _, .cons h hs, a, ha => by
    rcases List.mem_cons.mp ha with rfl | ha
    · exact ⟨_, by simp, h⟩
    · obtain ⟨b, hb, hr⟩ := forall₂_mem hs a ha
      exact ⟨b, by simp [hb], hr⟩

theorem forall₂_mem' {α β : Type} {R : α → β → Prop} : ∀ {as : List α} {bs : List β},
    List.Forall₂ R as bs → ∀ b ∈ bs, ∃ a ∈ as, R a b
  | _, _, .cons h hs, b, hb => by
    rcases List.mem_cons.mp hb with rfl | hb
    · exact ⟨_, by simp, h⟩
    · obtain ⟨a, ha, hr⟩ := forall₂_mem' hs b hb
      exact ⟨a, by simp [ha], hr⟩

theorem forall₂_map_eq {α β : Type} {g : α → β} {as : List α} {bs : List β}
    (h : List.Forall₂ (fun a b => b = g a) as bs) : bs = as.map g := by
  induction h with
  | nil => rfl
  | cons h _ ih => rw [h, ih]; rfl

theorem forall₂_imp_mem {α β : Type} {R S : α → β → Prop} {as : List α} {bs : List β}
    (h : List.Forall₂ R as bs) (hi : ∀ a ∈ as, ∀ b, R a b → S a b) : List.Forall₂ S as bs := by
  induction h with
  | nil => exact .nil
  | cons h _ ih => exact .cons (hi _ (by simp) _ h) (ih fun a ha => hi a (by simp [ha]))

theorem forall₂_nodup {α β : Type} {R : α → β → Prop} {as : List α} {bs : List β}
    (h : List.Forall₂ R as bs) (hn : as.Nodup)
    (hi : ∀ x ∈ as, ∀ y ∈ as, ∀ b, R x b → R y b → x = y) : bs.Nodup := by
  induction h with
  | nil => exact List.nodup_nil
  | @cons a b as bs h hs ih =>
    rw [List.nodup_cons] at hn ⊢
    refine ⟨fun hb => ?_, ih hn.2 fun x hx y hy => hi x (by simp [hx]) y (by simp [hy])⟩
    obtain ⟨a', ha', hr⟩ := forall₂_mem' hs b hb
    exact hn.1 (hi a (by simp) a' (by simp [ha']) b h hr ▸ ha')

/-! ### Sections -/

/-- The items of a section: each definition is followed by a lemma about it. -/
def items (ps : List (Str × Body)) : List Item := ps.flatMap fun p => [.defn p.1 p.2, .lemma [p.1]]

theorem defs_append (l m : List Item) : defs (l ++ m) = defs l ++ defs m := by simp [defs]

theorem defs_items (ps : List (Str × Body)) : defs (items ps) = ps := by
  induction ps with
  | nil => rfl
  | cons p ps ih =>
    have : items (p :: ps) = [.defn p.1 p.2, .lemma [p.1]] ++ items ps := rfl
    rw [this, defs_append, ih]
    rfl

theorem section_items {α : Type} {g : α → Option (List Item)} (R : α → Str × Body → Prop)
    (hg : ∀ x d, g x = some d → ∃ n b, d = [.defn n b, .lemma [n]] ∧ R x (n, b)) : ∀ {xs : List α} {ds : List (List Item)},
    each g xs = some ds → ∃ ps, ds.flatten = items ps ∧ List.Forall₂ R xs ps
  | [], _, h => by cases h; exact ⟨[], rfl, .nil⟩
  | x :: xs, ds, h => by
    simp only [each, Option.bind_eq_some_iff, Option.map_eq_some_iff] at h
    obtain ⟨d, hd, ds', hds, rfl⟩ := h
    obtain ⟨n, b, rfl, hr⟩ := hg x d hd
    obtain ⟨ps, hps, hrs⟩ := section_items R hg hds
    exact ⟨(n, b) :: ps, by rw [List.flatten_cons, hps]; rfl, .cons hr hrs⟩

theorem event_items : ∀ {xs : List Str} {k : Nat} {ds : List (List Item)}, xs.Nodup → eventDefs k xs = some ds →
    ∃ ps, ds.flatten = items ps ∧
      List.Forall₂ (fun x p => adl .event x = some p.1 ∧ p.2 = .event (k + xs.idxOf x)) xs ps
  | [], _, _, _, h => by cases h; exact ⟨[], rfl, .nil⟩
  | x :: xs, k, ds, hn, h => by
    simp only [eventDefs, eventDef, Option.bind_eq_some_iff, Option.map_eq_some_iff] at h
    obtain ⟨d, ⟨n, hx, rfl⟩, ds', hds, rfl⟩ := h
    rw [List.nodup_cons] at hn
    obtain ⟨ps, hps, hrs⟩ := event_items hn.2 hds
    refine ⟨(n, .event k) :: ps, by rw [List.flatten_cons, hps]; rfl, .cons ⟨hx, by simp⟩ ?_⟩
    refine forall₂_imp_mem hrs ?_
    rintro y hy p ⟨h1, h2⟩
    refine ⟨h1, ?_⟩
    have hne : x ≠ y := by rintro rfl; exact hn.1 hy
    rw [h2, List.idxOf_cons_ne _ hne]
    congr 1
    omega

/-! ### Reading names -/

theorem find_of_nodup {α β : Type} [DecidableEq α] : ∀ {l : List (α × β)}, (l.map (·.1)).Nodup → ∀ {n b}, (n, b) ∈ l →
    l.find? (fun d => decide (d.1 = n)) = some (n, b)
  | [], _, _, _, h => by simp at h
  | p :: l, hn, n, b, h => by
    simp only [List.map_cons, List.nodup_cons] at hn
    rcases List.mem_cons.mp h with rfl | h
    · simp
    · have : p.1 ≠ n := by
        rintro rfl
        exact hn.1 (List.mem_map.mpr ⟨_, h, rfl⟩)
      rw [List.find?_cons_of_neg (by simpa using this)]
      exact find_of_nodup hn.2 h

theorem lookup_of_mem {thy : List Item} (hn : ((defs thy).map (·.1)).Nodup) {n : Str} {b : Body}
    (h : (n, b) ∈ defs thy) : lookup thy n = some b := by
  unfold lookup
  rw [find_of_nodup hn h]
  rfl

end Verif.ArchSpec
