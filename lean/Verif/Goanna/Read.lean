import Verif.Goanna.Lemmas

/-!
# The two expressions, lists with commas and lines of files
-/

namespace Verif.Goanna

theorem ne_nil_of_one_le {a : List Char} (h : 1 ≤ a.length) : a ≠ [] := by
  intro h'; rw [h'] at h; simp at h

/-! ## Warnings -/

theorem warning_of_fits {line : List Char} {caps : List (List Char)} (h : Fits warningLine line caps) :
    ∃ file digits check rest, caps = file :: digits :: check :: rest ∧ IsWarning line file digits check := by
  unfold warningLine at h
  simp only [List.cons_append, List.append_assoc, blanks] at h
  obtain ⟨file, s, k, rfl, hf, hf', ⟨s, rfl, digits, s, k, rfl, hd, hd', ⟨s, rfl, b₁, s, k, rfl, hb1, -, h, rfl⟩, rfl⟩, rfl⟩ := h
  obtain ⟨s, rfl, h2⟩ := (fits_lit _ _ _ _).mp h
  obtain ⟨b₂, s, k, rfl, hb2, -, h3, rfl⟩ := h2
  obtain ⟨s, rfl, h4⟩ := (fits_lit _ _ _ _).mp h3
  obtain ⟨check, s, k, rfl, hc, hc', ⟨s, rfl, b₃, s, k, rfl, hb3, -, h5, rfl⟩, rfl⟩ := h4
  obtain ⟨s, rfl, h6⟩ := (fits_lit _ _ _ _).mp h5
  obtain ⟨sev, s, k, rfl, hs, hs', ⟨s, rfl, b₄, s, k, rfl, hb4, -, ⟨msg, s, k, rfl, hm, -, ⟨s, rfl, b₅, s, k, rfl, hb5, -,
    ⟨rules, s, k, rfl, hr, -, ⟨rfl, rfl⟩, rfl⟩, rfl⟩, rfl⟩, rfl⟩, rfl⟩ := h6
  refine ⟨file, digits, check, _, rfl, b₁, b₂, b₃, sev, b₄, msg, b₅, rules, by simp, ⟨ne_nil_of_one_le hf', ?_⟩,
    ⟨ne_nil_of_one_le hd', hd⟩, ⟨ne_nil_of_one_le hc', ?_⟩, ⟨ne_nil_of_one_le hs', hs⟩, ?_, ?_, hb1, hb2, hb3, hb4, hb5⟩
  · intro c hc; simpa using hf c hc
  · intro h; simpa using hc _ h
  · intro h; simpa using hm _ h
  · intro h; simpa using hr _ h

theorem fits_of_warning {line file digits check : List Char} (h : IsWarning line file digits check) :
    ∃ caps, Fits warningLine line caps := by
  obtain ⟨b₁, b₂, b₃, sev, b₄, msg, b₅, rules, rfl, ⟨hf, hf'⟩, ⟨hd, hd'⟩, ⟨hc, hc'⟩, ⟨hs, hs'⟩, hm, hr, hb1, hb2, hb3, hb4, hb5⟩ := h
  have pos : ∀ {a : List Char}, a ≠ [] → 1 ≤ a.length := fun h => List.length_pos_iff.mpr h
  have e : Fits [.eol] ([] : List Char) [] := ⟨rfl, rfl⟩
  unfold warningLine blanks
  simp only [List.cons_append, List.append_assoc]
  refine ⟨_, file, _, _, rfl, fun c h => by simp [hf' c h], pos hf, ⟨_, rfl, digits, _, _, rfl, hd', pos hd, ⟨_, rfl,
    b₁, _, _, rfl, hb1, Nat.zero_le _, (fits_lit _ _ _ _).mpr ⟨_, rfl, b₂, _, _, rfl, hb2, Nat.zero_le _,
    (fits_lit _ _ _ _).mpr ⟨_, rfl, check, _, _, rfl, ?_, pos hc, ⟨_, rfl, b₃, _, _, rfl, hb3, Nat.zero_le _,
    (fits_lit _ _ _ _).mpr ⟨_, rfl, sev, _, _, rfl, hs', pos hs, ⟨_, rfl, b₄, _, _, rfl, hb4, Nat.zero_le _,
    ⟨msg, _, _, rfl, ?_, Nat.zero_le _, ⟨_, rfl, b₅, _, _, rfl, hb5, Nat.zero_le _, ⟨rules, [], _, (List.append_nil _).symm, ?_, Nat.zero_le _, e, rfl⟩,
    rfl⟩, rfl⟩, rfl⟩, rfl⟩, rfl⟩, rfl⟩, rfl⟩, rfl⟩, rfl⟩, rfl⟩
  · intro c h; by_contra h'; simp at h'; rw [h'] at h; exact hc' h
  · intro c h; by_contra h'; simp at h'; rw [h'] at h; exact hm h
  · intro c h; by_contra h'; simp at h'; rw [h'] at h; exact hr h

/-! ## Lists with commas -/

theorem split_ne (sep : Char) : ∀ s : List Char, split sep s ≠ []
  | [] => by simp [split]
  | c :: cs => by
    rw [split]
    by_cases h : c = sep
    · simp [h]
    · rw [if_neg h]; cases split sep cs <;> simp

/-- The first part of a text. -/
theorem split_first (sep : Char) : ∀ (a b : List Char), sep ∉ a → split sep (a ++ sep :: b) = a :: split sep b
  | [], b, _ => by simp [split]
  | c :: a, b, h => by
    simp only [List.mem_cons, not_or] at h
    rw [List.cons_append, split, if_neg (fun e => h.1 e.symm), split_first sep a b h.2]

theorem split_none (sep : Char) : ∀ (a : List Char), sep ∉ a → split sep a = [a]
  | [], _ => rfl
  | c :: a, h => by
    simp only [List.mem_cons, not_or] at h
    rw [split, if_neg (fun e => h.1 e.symm), split_none sep a h.2]

theorem first_sep (sep : Char) : ∀ (s : List Char), sep ∉ s ∨ ∃ a b, s = a ++ sep :: b ∧ sep ∉ a
  | [] => by simp
  | c :: s => by
    by_cases h : c = sep
    · exact .inr ⟨[], s, by simp [h], by simp⟩
    · rcases first_sep sep s with h' | ⟨a, b, rfl, h'⟩
      · exact .inl (by simp [h', Ne.symm h])
      · exact .inr ⟨c :: a, b, rfl, by simp [h', Ne.symm h]⟩

theorem mem_split_iff (name : List Char) : ∀ (n : Nat) (s : List Char), s.length ≤ n → (name ∈ split ',' s ↔ Listed s name) := by
  intro n
  induction n with
  | zero =>
    intro s hs
    have : s = [] := List.length_eq_zero_iff.mp (by omega)
    subst this
    simp only [split, List.mem_singleton]
    constructor
    · rintro rfl; exact ⟨by simp, [], [], rfl, .inl rfl, .inl rfl⟩
    · rintro ⟨_, x, y, h, _⟩
      have := congrArg List.length h
      simp at this
      exact List.length_eq_zero_iff.mp (by omega)
  | succ n ih =>
    intro s hs
    rcases first_sep ',' s with h | ⟨a, b, rfl, ha⟩
    · rw [split_none _ _ h, List.mem_singleton]
      constructor
      · rintro rfl; exact ⟨h, [], [], by simp, .inl rfl, .inl rfl⟩
      · rintro ⟨_, x, y, rfl, hx, hy⟩
        rcases hx with rfl | ⟨x', rfl⟩
        · rcases hy with rfl | ⟨y', rfl⟩
          · simp
          · exact absurd (by simp) h
        · exact absurd (by simp) h
    · have hb : b.length ≤ n := by rw [List.length_append, List.length_cons] at hs; omega
      rw [split_first _ _ _ ha, List.mem_cons, ih b hb]
      constructor
      · rintro (rfl | ⟨h1, x, y, rfl, hx, hy⟩)
        · exact ⟨ha, [], ',' :: b, by simp, .inl rfl, .inr ⟨b, rfl⟩⟩
        · refine ⟨h1, a ++ ',' :: x, y, by simp, .inr ?_, hy⟩
          rcases hx with rfl | ⟨x', rfl⟩
          · exact ⟨a, by simp⟩
          · exact ⟨a ++ ',' :: x', by simp⟩
      · rintro ⟨h1, x, y, h, hx, hy⟩
        rcases hx with rfl | ⟨x', rfl⟩
        · rcases hy with rfl | ⟨y', rfl⟩
          · exact absurd (by rw [List.append_nil, List.nil_append] at h; rw [← h]; simp) h1
          · left
            rw [List.nil_append] at h
            exact ((span_unique (p := fun c => c != ',') h (by intro c hc; simp; rintro rfl; exact ha hc)
              (by intro c hc; simp; rintro rfl; exact h1 hc) (by simp) (by simp)).1).symm
        · right
          refine ⟨h1, ?_⟩
          rcases first_sep ',' x' with h' | ⟨u, v, rfl, hu⟩
          · have h2 : a ++ ',' :: b = x' ++ ',' :: (name ++ y) := by rw [h]; simp
            obtain ⟨_, _, h3⟩ := span_unique (p := fun c => c != ',') h2
              (by intro c hc; simp; rintro rfl; exact ha hc) (by intro c hc; simp; rintro rfl; exact h' hc) (by simp) (by simp)
            exact ⟨[], y, by rw [h3]; simp, .inl rfl, hy⟩
          · have h2 : a ++ ',' :: b = u ++ ',' :: (v ++ [','] ++ name ++ y) := by rw [h]; simp
            obtain ⟨_, _, h3⟩ := span_unique (p := fun c => c != ',') h2
              (by intro c hc; simp; rintro rfl; exact ha hc) (by intro c hc; simp; rintro rfl; exact hu hc) (by simp) (by simp)
            exact ⟨v ++ [','], y, by rw [h3], .inr ⟨v, rfl⟩, hy⟩

theorem contains_split (s name : List Char) : (split ',' s).contains name = true ↔ Listed s name := by
  rw [List.contains_iff_mem]
  exact mem_split_iff name _ s (Nat.le_refl _)

/-! ## Complete lines -/

theorem split_lines : ∀ (lines : List (List Char)) (tail : List Char), (∀ l ∈ lines, '\n' ∉ l) → '\n' ∉ tail →
    split '\n' (lines.flatMap (fun l => l ++ ['\n']) ++ tail) = lines ++ [tail]
  | [], tail, _, h => by simpa using split_none _ _ h
  | l :: ls, tail, h1, h2 => by
    have h3 := split_lines ls tail (fun l' hl => h1 l' (by simp [hl])) h2
    rw [List.flatMap_cons, List.append_assoc, List.append_assoc]
    rw [show l ++ (['\n'] ++ (ls.flatMap (fun l => l ++ ['\n']) ++ tail)) =
      l ++ '\n' :: (ls.flatMap (fun l => l ++ ['\n']) ++ tail) by simp]
    rw [split_first _ _ _ (h1 l (by simp)), h3]
    rfl

/-! ## Lines of a file -/

theorem fileLines_first : ∀ (a b : List Char), '\n' ∉ a → fileLines (a ++ '\n' :: b) = (a ++ ['\n']) :: fileLines b
  | [], b, _ => by simp [fileLines]
  | c :: a, b, h => by
    simp only [List.mem_cons, not_or] at h
    rw [List.cons_append, fileLines, if_neg (fun e => h.1 e.symm), fileLines_first a b h.2]
    rfl

theorem fileLines_last : ∀ (a : List Char), '\n' ∉ a → a ≠ [] → fileLines a = [a]
  | [c], h, _ => by
    simp only [List.mem_cons, not_or] at h
    simp [fileLines, Ne.symm h.1]
  | c :: d :: a, h, _ => by
    simp only [List.mem_cons, not_or] at h
    rw [fileLines, if_neg (fun e => h.1 e.symm), fileLines_last (d :: a) (by simp [h.2]) (by simp)]

theorem count_zero {a : List Char} (h : '\n' ∉ a) : a.count '\n' = 0 := List.count_eq_zero.mpr h

/-- The line with a number is found. -/
theorem findLine_iff (l : List Char) : ∀ (n : Nat) (text : List Char), text.length ≤ n → ∀ (k index : Nat),
    (findLine (index + k) index (fileLines text) = some l ↔ LineAt text k l) := by
  intro n
  induction n with
  | zero =>
    intro text ht k index
    have : text = [] := List.length_eq_zero_iff.mp (by omega)
    subst this
    simp only [fileLines, findLine]
    constructor
    · intro h; simp at h
    · rintro ⟨pre, post, h, _, _, h', _⟩
      have := congrArg List.length h
      simp at this
      exact absurd (List.length_eq_zero_iff.mp (by omega)) h'
  | succ n ih =>
    intro text ht k index
    by_cases hne : text = []
    · subst hne; exact ih [] (by simp) k index
    rcases first_sep '\n' text with h | ⟨a, b, rfl, ha⟩
    · rw [fileLines_last _ h hne, findLine, findLine]
      constructor
      · intro h1
        by_cases hk : index + 1 = index + k
        · rw [if_pos hk] at h1
          simp at h1
          subst h1
          exact ⟨[], [], by simp, by simp; omega, .inl rfl, hne, .inr ⟨rfl, h⟩⟩
        · rw [if_neg hk] at h1; simp at h1
      · rintro ⟨pre, post, rfl, h1, h2, h3, h4⟩
        rcases h2 with rfl | ⟨x, rfl⟩
        · simp at h1
          subst h1
          rw [if_pos rfl]
          rcases h4 with ⟨body, rfl, _⟩ | ⟨rfl, _⟩
          · exact absurd (by simp) h
          · simp
        · exact absurd (by simp) h
    · have hb : b.length ≤ n := by rw [List.length_append, List.length_cons] at ht; omega
      rw [fileLines_first _ _ ha, findLine]
      by_cases hk : index + 1 = index + k
      · rw [if_pos hk]
        have hk1 : k = 1 := by omega
        subst hk1
        constructor
        · intro h1
          simp at h1
          subst h1
          exact ⟨[], b, by simp, by simp, .inl rfl, by simp, .inl ⟨a, rfl, ha⟩⟩
        · rintro ⟨pre, post, h0, h1, h2, h3, h4⟩
          have hp : pre = [] := by
            rcases h2 with rfl | ⟨x, rfl⟩
            · rfl
            · simp at h1
          subst hp
          rw [List.nil_append] at h0
          rcases h4 with ⟨body, rfl, hb'⟩ | ⟨rfl, h5⟩
          · have h6 : a ++ '\n' :: b = body ++ '\n' :: post := by rw [h0]; simp
            obtain ⟨h7, _, _⟩ := span_unique (p := fun c => c != '\n') h6
              (by intro c hc; simp; rintro rfl; exact ha hc) (by intro c hc; simp; rintro rfl; exact hb' hc) (by simp) (by simp)
            rw [h7]
          · exact absurd (by rw [List.append_nil] at h0; rw [← h0]; simp) h5
      · rw [if_neg hk]
        cases k with
        | zero =>
          constructor
          · intro h1
            exfalso
            have : ∀ (ls : List (List Char)) (i m : Nat), m < i + 1 → findLine m i ls = none := by
              intro ls
              induction ls with
              | nil => intro i m _; rfl
              | cons x xs ihx =>
                intro i m hm
                rw [findLine, if_neg (by omega)]
                exact ihx _ _ (by omega)
            rw [this _ _ _ (by omega)] at h1
            simp at h1
          · rintro ⟨_, _, _, h1, _⟩; omega
        | succ k =>
          have := ih b hb k (index + 1)
          rw [show index + (k + 1) = index + 1 + k by omega, this]
          constructor
          · rintro ⟨pre, post, rfl, h1, h2, h3, h4⟩
            refine ⟨a ++ '\n' :: pre, post, by simp, ?_, .inr ?_, h3, h4⟩
            · rw [List.count_append, List.count_cons_self, count_zero ha]; omega
            · rcases h2 with rfl | ⟨x, rfl⟩
              · exact ⟨a, by simp⟩
              · exact ⟨a ++ '\n' :: x, by simp⟩
          · rintro ⟨pre, post, h0, h1, h2, h3, h4⟩
            rcases first_sep '\n' pre with h5 | ⟨u, v, rfl, hu⟩
            · rw [count_zero h5] at h1
              omega
            · have h6 : a ++ '\n' :: b = u ++ '\n' :: (v ++ l ++ post) := by rw [h0]; simp
              obtain ⟨h7, _, h8⟩ := span_unique (p := fun c => c != '\n') h6
                (by intro c hc; simp; rintro rfl; exact ha hc) (by intro c hc; simp; rintro rfl; exact hu hc) (by simp) (by simp)
              refine ⟨v, post, h8, ?_, ?_, h3, h4⟩
              · rw [List.count_append, List.count_cons_self, count_zero hu] at h1; omega
              · rcases h2 with h2 | ⟨x, hx⟩
                · simp at h2
                · rcases List.eq_nil_or_concat v with rfl | ⟨w, c, rfl⟩
                  · exact .inl rfl
                  · right
                    rw [List.concat_eq_append] at hx ⊢
                    have : (u ++ '\n' :: w) ++ [c] = x ++ ['\n'] := by rw [← hx]; simp
                    have := (List.append_inj' this rfl).2
                    simp at this
                    exact ⟨w, by rw [this]⟩

end Verif.Goanna
