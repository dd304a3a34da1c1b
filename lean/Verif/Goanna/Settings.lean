import Verif.Goanna.Read

/-!
# Markers, and where the parts of a warning are
-/

namespace Verif.Goanna

/-! ## Markers -/

theorem marker_of_found {s : List Char} {caps : List (List Char)} (h : Found suppressionMark s caps) :
    ∃ checks, caps = [checks] ∧ MarkerAt s checks := by
  unfold suppressionMark at h
  simp only [List.cons_append, List.append_assoc, blanks] at h
  obtain ⟨s, rfl, h1⟩ := (found_lit _ _ _ _).mp h
  obtain ⟨b₁, s, k, rfl, hb1, -, h2, rfl, -, -⟩ := h1
  obtain ⟨s, rfl, h3⟩ := (found_lit _ _ _ _).mp h2
  obtain ⟨b₂, s, k, rfl, hb2, -, h4, rfl, -, -⟩ := h3
  obtain ⟨s, rfl, h5⟩ := (found_lit _ _ _ _).mp h4
  obtain ⟨b₃, s, k, rfl, hb3, -, ⟨s, rfl, b₄, s, k, rfl, hb4, -, h6, rfl, -, hg⟩, rfl, -, -⟩ := h5
  obtain ⟨checks, s, k, rfl, hc, -, ⟨b₅, s, k, rfl, hb5, -, h7, rfl, -, -⟩, rfl, hl, -⟩ := h6
  have h7' : Found (lit "*/".toList ++ []) s k := by simpa using h7
  obtain ⟨post, rfl, h8⟩ := (found_lit _ _ _ _).mp h7'
  have h8' : k = [] := h8
  subst h8'
  have tail : ∀ X Y : List Char, Blank X → Fits (.many 0 isBlank true false :: lit "*/".toList) (X ++ ("*/".toList ++ Y)) [] := by
    intro X Y hX
    refine ⟨X, _, [], rfl, hX, Nat.zero_le _, ?_, rfl⟩
    have := (fits_lit "*/".toList [] ("*/".toList ++ Y) []).mpr ⟨Y, rfl, rfl⟩
    simpa using this
  refine ⟨checks, by simp, b₁, b₂, b₃, b₄, b₅, post, by simp, hb1, hb2, hb3, hb4, hb5, ?_, ?_, ?_, ?_⟩
  · intro h; simpa using hc _ h
  · intro x y e
    refine hl rfl x ("*/".toList ++ y) (by rw [e]; simp) (by simp) (Nat.zero_le _) ⟨[], ?_⟩
    have := tail [] (y ++ (b₅ ++ ("*/".toList ++ post))) (by intro c h; simp at h)
    simpa using this
  · intro c y e
    by_contra hcb
    have hcb' : isBlank c = true := by simpa using hcb
    refine hg rfl [c] (y ++ (b₅ ++ ("*/".toList ++ post))) (by rw [e]; simp) (by simp) (by simpa using hcb') ⟨[y], ?_⟩
    refine ⟨y, _, [], rfl, ?_, Nat.zero_le _, tail b₅ post hb5, by simp⟩
    intro d hd; exact hc d (by rw [e]; simp [hd])
  · intro c x e
    by_contra hcb
    have hcb' : isBlank c = true := by simpa using hcb
    refine hl rfl x [c] e (by simp) (Nat.zero_le _) ⟨[], ?_⟩
    have := tail ([c] ++ b₅) post (by
      intro d hd
      rcases List.mem_append.mp hd with h | h
      · simp at h; rw [h]; exact hcb'
      · exact hb5 d h)
    simpa using this

theorem fits_of_marker {s checks : List Char} (h : MarkerAt s checks) : Fits suppressionMark s [checks] := by
  obtain ⟨b₁, b₂, b₃, b₄, b₅, post, rfl, hb1, hb2, hb3, hb4, hb5, hn, -, -, -⟩ := h
  have e : Fits (lit "*/".toList) ("*/".toList ++ post) [] := by
    have := (fits_lit "*/".toList [] ("*/".toList ++ post) []).mpr ⟨post, rfl, rfl⟩
    simpa using this
  unfold suppressionMark blanks
  simp only [List.cons_append, List.append_assoc]
  refine (fits_lit _ _ _ _).mpr ⟨_, rfl, b₁, _, _, rfl, hb1, Nat.zero_le _, (fits_lit _ _ _ _).mpr ⟨_, rfl,
    b₂, _, _, rfl, hb2, Nat.zero_le _, (fits_lit _ _ _ _).mpr ⟨_, rfl, b₃, _, _, rfl, hb3, Nat.zero_le _, ⟨_, rfl,
    b₄, _, _, rfl, hb4, Nat.zero_le _, ⟨checks, _, _, rfl, ?_, Nat.zero_le _, ⟨b₅, _, _, rfl, hb5, Nat.zero_le _, e, rfl⟩, rfl⟩,
    rfl⟩, rfl⟩, rfl⟩, rfl⟩
  intro c h; by_contra h'; simp at h'; rw [h'] at h; exact hn h

theorem comment_end : "*/".toList = ['*', '/'] := rfl

/-- Text in front of the first end of a comment. -/
theorem end_unique : ∀ {X X' P P' : List Char}, (∀ x y, X ≠ x ++ ['*', '/'] ++ y) → (∀ x y, X' ≠ x ++ ['*', '/'] ++ y) →
    X ++ '*' :: '/' :: P = X' ++ '*' :: '/' :: P' → X = X'
  | [], [], _, _, _, _, _ => rfl
  | [], [c], _, _, _, _, h => by simp at h
  | [], c :: d :: X', P, P', _, h2, h => by
    simp at h
    exact absurd (by rw [← h.1, ← h.2.1]; rfl) (h2 [] X')
  | [c], [], _, _, _, _, h => by simp at h
  | c :: d :: X, [], P, P', h1, _, h => by
    simp at h
    exact absurd (by rw [h.1, h.2.1]; rfl) (h1 [] X)
  | c :: X, c' :: X', P, P', h1, h2, h => by
    simp only [List.cons_append, List.cons.injEq] at h
    rw [h.1, end_unique (X := X) (X' := X') (fun x y e => h1 (c :: x) y (by rw [e]; simp))
      (fun x y e => h2 (c' :: x) y (by rw [e]; simp)) h.2]

/-- Blanks around do not make an end of a comment. -/
theorem no_end_blank : ∀ {b : List Char}, Blank b → ∀ x y, b ≠ x ++ ['*', '/'] ++ y := by
  intro b hb x y e
  have := hb '*' (by rw [e]; simp)
  simp [isBlank] at this

theorem no_end_prepend : ∀ {b X : List Char}, Blank b → (∀ x y, X ≠ x ++ ['*', '/'] ++ y) →
    ∀ x y, b ++ X ≠ x ++ ['*', '/'] ++ y
  | [], X, _, h => h
  | c :: b, X, hb, h => by
    intro x y e
    cases x with
    | nil =>
      simp at e
      have := hb c (by simp)
      rw [e.1] at this
      simp [isBlank] at this
    | cons d x =>
      simp only [List.cons_append, List.cons.injEq] at e
      exact no_end_prepend (b := b) (fun c hc => hb c (by simp [hc])) h x y (by rw [e.2])

theorem no_end_append : ∀ {X b : List Char}, Blank b → (∀ x y, X ≠ x ++ ['*', '/'] ++ y) →
    ∀ x y, X ++ b ≠ x ++ ['*', '/'] ++ y
  | [], b, hb, _ => no_end_blank hb
  | [c], b, hb, h => by
    intro x y e
    cases x with
    | nil =>
      simp at e
      have := hb '/' (by rw [e.2]; simp)
      simp [isBlank] at this
    | cons d x =>
      simp only [List.cons_append, List.nil_append, List.cons.injEq] at e
      exact no_end_blank hb x y e.2
  | c :: c' :: X, b, hb, h => by
    intro x y e
    cases x with
    | nil =>
      simp at e
      exact h [] X (by rw [e.1, e.2.1]; rfl)
    | cons d x =>
      simp only [List.cons_append, List.cons.injEq] at e
      exact no_end_append (X := c' :: X) hb (fun x y e' => h (c :: x) y (by rw [e']; simp)) x y (by simpa using e.2)

/-- Text between blanks. -/
theorem trim_unique {b c d b' c' d' : List Char} (hb : Blank b) (hd : Blank d) (hb' : Blank b') (hd' : Blank d')
    (h1 : ∀ x y, c = x :: y → isBlank x = false) (h2 : ∀ x y, c = y ++ [x] → isBlank x = false)
    (h1' : ∀ x y, c' = x :: y → isBlank x = false) (h2' : ∀ x y, c' = y ++ [x] → isBlank x = false)
    (h : b ++ c ++ d = b' ++ c' ++ d') : c = c' := by
  have allblank : ∀ {b c d b' d' : List Char}, Blank b' → Blank d' → (∀ x y, c = x :: y → isBlank x = false) →
      b ++ c ++ d = b' ++ [] ++ d' → c = [] := by
    intro b c d b' d' hb' hd' h1 h
    cases c with
    | nil => rfl
    | cons x y =>
      have hx : x ∈ b' ++ [] ++ d' := by rw [← h]; simp
      have := h1 x y rfl
      have hx' : isBlank x = true := by
        simp at hx
        rcases hx with hx | hx
        · exact hb' x hx
        · exact hd' x hx
      rw [this] at hx'; simp at hx'
  cases hc : c with
  | nil => subst hc; exact (allblank hb hd h1' h.symm).symm
  | cons x y =>
    cases hc' : c' with
    | nil => subst hc'; have := allblank hb' hd' h1 h; rw [hc] at this; simp at this
    | cons x' y' =>
      rw [hc, hc'] at h
      have e1 : b ++ x :: (y ++ d) = b' ++ x' :: (y' ++ d') := by simpa using h
      obtain ⟨_, e2, e3⟩ := span_unique e1 hb hb' (h1 x y hc) (h1' x' y' hc')
      have e4 : c ++ d = c' ++ d' := by rw [hc, hc']; simp [e2, e3]
      obtain ⟨z, w, hz⟩ : ∃ z w, c = w ++ [z] := by
        rcases List.eq_nil_or_concat c with h | ⟨w, z, h⟩
        · rw [h] at hc; simp at hc
        · exact ⟨z, w, by rw [h, List.concat_eq_append]⟩
      obtain ⟨z', w', hz'⟩ : ∃ z w, c' = w ++ [z] := by
        rcases List.eq_nil_or_concat c' with h | ⟨w, z, h⟩
        · rw [h] at hc'; simp at hc'
        · exact ⟨z, w, by rw [h, List.concat_eq_append]⟩
      rw [hz, hz'] at e4
      have e5 := congrArg List.reverse e4
      simp at e5
      obtain ⟨_, e6, e7⟩ := span_unique e5 (by intro c hc; exact hd c (by simpa using hc))
        (by intro c hc; exact hd' c (by simpa using hc)) (h2 z w hz) (h2' z' w' hz')
      have e8 : w = w' := by simpa using e7
      rw [← hc, ← hc', hz, hz', e6, e8]

theorem marker_unique {s c c' : List Char} (h : MarkerAt s c) (h' : MarkerAt s c') : c = c' := by
  obtain ⟨b₁, b₂, b₃, b₄, b₅, post, rfl, hb1, hb2, hb3, hb4, hb5, -, hn, hf, hl⟩ := h
  obtain ⟨a₁, a₂, a₃, a₄, a₅, post', e, ha1, ha2, ha3, ha4, ha5, -, hn', hf', hl'⟩ := h'
  simp only [List.append_assoc] at e
  have e1 := List.append_cancel_left e
  obtain ⟨-, -, e2⟩ := span_unique (p := isBlank) (x := 'g') (x' := 'g') e1 hb1 ha1 (by decide) (by decide)
  have e3 := List.append_cancel_left (as := "oanna:".toList) e2
  obtain ⟨-, -, e4⟩ := span_unique (p := isBlank) (x := 's') (x' := 's') e3 hb2 ha2 (by decide) (by decide)
  have e5 := List.append_cancel_left (as := "uppress".toList) e4
  obtain ⟨-, -, e6⟩ := span_unique (p := isBlank) (x := '=') (x' := '=') e5 hb3 ha3 (by decide) (by decide)
  have e7 : (b₄ ++ (c ++ b₅)) ++ '*' :: '/' :: post = (a₄ ++ (c' ++ a₅)) ++ '*' :: '/' :: post' := by
    simpa [comment_end] using e6
  have e8 := end_unique (no_end_prepend hb4 (no_end_append hb5 hn)) (no_end_prepend ha4 (no_end_append ha5 hn')) e7
  exact trim_unique hb4 hb5 ha4 ha5 hf hl hf' hl' (by simpa using e8)

theorem match_marker {s checks : List Char} : matchSeq suppressionMark s = some [checks] ↔ MarkerAt s checks := by
  constructor
  · intro h
    obtain ⟨c, hc, hm⟩ := marker_of_found (match_found h)
    simp at hc
    rw [hc]; exact hm
  · intro h
    obtain ⟨k, hk⟩ := match_complete (fits_of_marker h)
    obtain ⟨c, rfl, hm⟩ := marker_of_found (match_found hk)
    rw [hk, marker_unique h hm]

theorem match_marker_none {s : List Char} (h : matchSeq suppressionMark s = none) : ¬ ∃ c, MarkerAt s c := by
  rintro ⟨c, hc⟩
  rw [match_marker.mpr hc] at h
  simp at h

/-- The search finds the first marker. -/
theorem search_iff {checks : List Char} : ∀ {line : List Char},
    searchSeq suppressionMark line = some [checks] ↔ FirstMarker line checks
  | [] => by
    rw [searchSeq, match_marker]
    constructor
    · intro h; exact ⟨[], [], rfl, h, by intro x y e hy; simp at e; exact absurd e.2 hy⟩
    · rintro ⟨pre, s, e, h, _⟩
      simp at e
      rw [e.2] at h; exact h
  | c :: line => by
    rw [searchSeq]
    cases hm : matchSeq suppressionMark (c :: line) with
    | some caps =>
      obtain ⟨d, rfl, hd⟩ := marker_of_found (match_found hm)
      simp only [Option.some.injEq, List.cons.injEq, and_true]
      constructor
      · rintro rfl; exact ⟨[], c :: line, rfl, hd, by intro x y e hy; simp at e; exact absurd e.2 hy⟩
      · rintro ⟨pre, s, e, h, hp⟩
        cases pre with
        | nil => rw [List.nil_append] at e; rw [← e] at h; exact marker_unique hd h
        | cons x pre => exact absurd ⟨d, by rw [← e]; exact hd⟩ (hp [] (x :: pre) rfl (by simp))
    | none =>
      have hno := match_marker_none hm
      simp only
      rw [search_iff]
      constructor
      · rintro ⟨pre, s, rfl, h, hp⟩
        refine ⟨c :: pre, s, rfl, h, ?_⟩
        intro x y e hy
        cases x with
        | nil => rw [List.nil_append] at e; rw [← e]; exact hno
        | cons z x => simp only [List.cons_append, List.cons.injEq] at e; exact hp x y e.2 hy
      · rintro ⟨pre, s, e, h, hp⟩
        cases pre with
        | nil => rw [List.nil_append] at e; exact absurd ⟨checks, by rw [e]; exact h⟩ hno
        | cons x pre =>
          simp only [List.cons_append, List.cons.injEq] at e
          exact ⟨pre, s, e.2, h, fun x' y e' hy => hp (x :: x') y (by rw [e']; rfl) hy⟩

theorem search_form {line : List Char} {caps : List (List Char)} (h : searchSeq suppressionMark line = some caps) :
    ∃ checks, caps = [checks] := by
  induction line with
  | nil =>
    rw [searchSeq] at h
    obtain ⟨c, hc, _⟩ := marker_of_found (match_found h)
    exact ⟨c, hc⟩
  | cons c line ih =>
    rw [searchSeq] at h
    cases hm : matchSeq suppressionMark (c :: line) with
    | some k =>
      rw [hm] at h
      simp at h
      obtain ⟨d, hd, _⟩ := marker_of_found (match_found hm)
      exact ⟨d, by rw [← h, hd]⟩
    | none => rw [hm] at h; exact ih h

/-! ## The parts of a warning -/

theorem first_occurrence {x : Char} : ∀ {a a' b b' : List Char}, a ++ x :: b = a' ++ x :: b' → x ∉ a →
    (a' = a ∧ b = b') ∨ ∃ y, a' = a ++ x :: y ∧ b = y ++ x :: b'
  | [], [], _, _, h, _ => by simp at h; exact .inl ⟨rfl, h⟩
  | [], c :: a', _, _, h, _ => by simp at h; exact .inr ⟨a', by rw [h.1]; rfl, h.2⟩
  | c :: a, [], _, _, h, hx => by simp at h; exact absurd (by rw [h.1]; simp) hx
  | c :: a, c' :: a', b, b', h, hx => by
    simp only [List.cons_append, List.cons.injEq] at h
    simp only [List.mem_cons, not_or] at hx
    rcases first_occurrence h.2 hx.2 with ⟨h1, h2⟩ | ⟨y, h1, h2⟩
    · exact .inl ⟨by rw [h.1, h1], h2⟩
    · exact .inr ⟨y, by rw [h.1, h1]; rfl, h2⟩

theorem digit_facts : isDigit ':' = false ∧ (∀ c, isDigit c = true → isBlank c = false) ∧ isBlank ':' = false := by
  refine ⟨by decide, ?_, by decide⟩
  intro c h
  unfold isDigit at h
  unfold isBlank
  simp at h ⊢
  refine ⟨⟨?_, by omega⟩, by omega⟩
  rintro rfl
  simp at h

/-- In a line that begins with a file without a colon, a number and a blank, these cannot be read in another way. -/
theorem head_unique {f d f' d' Z R : List Char} {w : Char} (h : f ++ ':' :: (d ++ ':' :: w :: R) = f' ++ ':' :: (d' ++ ':' :: Z))
    (hf : ':' ∉ f) (hd : ∀ c ∈ d, isDigit c = true) (hw : isBlank w = true) (hf' : ∀ c ∈ f', isBlank c = false)
    (hd' : d' ≠ [] ∧ ∀ c ∈ d', isDigit c = true) : f' = f ∧ d' = d ∧ Z = w :: R := by
  obtain ⟨hc, hdb, hcb⟩ := digit_facts
  have hdc : ':' ∉ d := fun h => by have := hd _ h; rw [hc] at this; simp at this
  rcases first_occurrence h hf with ⟨h1, h2⟩ | ⟨y, rfl, h2⟩
  · obtain ⟨h3, -, h4⟩ := span_unique h2 hd hd'.2 hc hc
    exact ⟨h1, h3.symm, h4.symm⟩
  · exfalso
    rcases first_occurrence h2 hdc with ⟨rfl, h3⟩ | ⟨z, rfl, h3⟩
    · cases hq : d' with
      | nil => exact hd'.1 hq
      | cons q qs =>
        rw [hq] at h3
        simp only [List.cons_append, List.cons.injEq] at h3
        have := hdb q (hd'.2 q (by rw [hq]; simp))
        rw [← h3.1, hw] at this; simp at this
    · cases z with
      | nil =>
        simp only [List.nil_append, List.cons.injEq] at h3
        rw [h3.1, hcb] at hw; simp at hw
      | cons q z =>
        simp only [List.cons_append, List.cons.injEq] at h3
        have := hf' q (by simp)
        rw [← h3.1, hw] at this; simp at this

/-- The same up to the name of the analyser. -/
theorem tool_unique {f d b₁ b₂ X f' d' a₁ a₂ X' : List Char}
    (h : f ++ ":".toList ++ d ++ ":".toList ++ b₁ ++ "warning:".toList ++ b₂ ++ "Goanna".toList ++ X =
      f' ++ ":".toList ++ d' ++ ":".toList ++ a₁ ++ "warning:".toList ++ a₂ ++ "Goanna".toList ++ X')
    (hf : ':' ∉ f) (hd : ∀ c ∈ d, isDigit c = true) (hb : b₁ ≠ []) (hb1 : Blank b₁) (hb2 : Blank b₂)
    (hf' : ∀ c ∈ f', isBlank c = false) (hd' : d' ≠ [] ∧ ∀ c ∈ d', isDigit c = true) (ha1 : Blank a₁) (ha2 : Blank a₂) :
    f' = f ∧ d' = d ∧ X' = X := by
  cases hbb : b₁ with
  | nil => exact absurd hbb hb
  | cons w r =>
    rw [hbb] at h
    simp only [List.append_assoc] at h
    have h0 : f ++ ':' :: (d ++ ':' :: w :: (r ++ ("warning:".toList ++ (b₂ ++ ("Goanna".toList ++ X))))) =
        f' ++ ':' :: (d' ++ ':' :: (a₁ ++ ("warning:".toList ++ (a₂ ++ ("Goanna".toList ++ X'))))) := h
    obtain ⟨e1, e2, e3⟩ := head_unique h0 hf hd (hb1 w (by rw [hbb]; simp)) hf' hd'
    have e4 : a₁ ++ 'w' :: ("arning:".toList ++ (a₂ ++ ("Goanna".toList ++ X'))) =
        b₁ ++ 'w' :: ("arning:".toList ++ (b₂ ++ ("Goanna".toList ++ X))) := by rw [hbb]; exact e3
    obtain ⟨-, -, e5⟩ := span_unique e4 ha1 hb1 (by decide) (by decide)
    have e6 : a₂ ++ 'G' :: ("oanna".toList ++ X') = b₂ ++ 'G' :: ("oanna".toList ++ X) := List.append_cancel_left e5
    obtain ⟨-, -, e7⟩ := span_unique e6 ha2 hb2 (by decide) (by decide)
    exact ⟨e1, e2, List.append_cancel_left e7⟩

theorem goanna_open : "Goanna[".toList = "Goanna".toList ++ ['['] := by decide

theorem parse_some {line f c : List Char} {n : Nat} (h : parseWarning line = some (f, n, c)) :
    ∃ d, IsWarning line f d c ∧ n = value d := by
  unfold parseWarning at h
  cases hm : matchSeq warningLine line with
  | none => rw [hm] at h; simp at h
  | some caps =>
    obtain ⟨f', d', c', r, rfl, hw⟩ := warning_of_fits (match_found hm).fits
    rw [hm] at h
    simp at h
    exact ⟨d', by rw [← h.1, ← h.2.2]; exact hw, h.2.1.symm⟩

theorem parse_complete {line f d c : List Char} (h : IsWarning line f d c) : ∃ x, parseWarning line = some x := by
  obtain ⟨caps, hc⟩ := fits_of_warning h
  obtain ⟨k, hk⟩ := match_complete hc
  obtain ⟨f', d', c', r, rfl, hw⟩ := warning_of_fits (match_found hk).fits
  exact ⟨(f', value d', c'), by unfold parseWarning; rw [hk]⟩

theorem numeral_value (ds : List Char) : Numeral ds (value ds) := by
  have : ∀ (ds es : List Char) (n : Nat), Numeral es n → Numeral (es ++ ds) (ds.foldl (fun n c => n * 10 + (c.toNat - 48)) n) := by
    intro ds
    induction ds with
    | nil => intro es n h; simpa using h
    | cons d ds ih =>
      intro es n h
      have h1 := Numeral.snoc es n d h
      have h2 := ih _ _ h1
      rw [List.append_assoc] at h2
      rw [List.foldl_cons, Nat.mul_comm n 10]
      exact h2
  exact this ds [] 0 .nil

theorem numeral_unique {ds : List Char} {n m : Nat} (h : Numeral ds n) (h' : Numeral ds m) : n = m := by
  induction h generalizing m with
  | nil =>
    generalize he : ([] : List Char) = l at h'
    cases h' with
    | nil => rfl
    | snoc => simp at he
  | snoc ds n d hd ih =>
    generalize he : ds ++ [d] = l at h'
    cases h' with
    | nil => simp at he
    | snoc ds' n' d' hd' =>
      obtain ⟨e1, e2⟩ := List.append_inj' he rfl
      simp at e2
      subst e1 e2
      rw [ih hd']

end Verif.Goanna
