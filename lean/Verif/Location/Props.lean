import Verif.Location.Spec
import Mathlib.Tactic.IntervalCases

/-!
# C07: reported source locations honour line directives
-/

namespace Verif.Location

open Spec

/-! ### What a directive is -/

theorem isSpace_iff (c : Char) : isSpace c = true ↔ Blank c := by
  simp [isSpace, Blank, or_assoc]

theorem skipSpaces_split (s : Str) : ∃ sp, s = sp ++ skipSpaces s ∧ (∀ c ∈ sp, Blank c) ∧ ∀ c, (skipSpaces s).head? = some c → ¬ Blank c := by
  induction s with
  | nil => exact ⟨[], rfl, by simp, by simp [skipSpaces]⟩
  | cons c cs ih =>
    rw [skipSpaces]
    by_cases h : isSpace c = true
    · rw [if_pos h]
      obtain ⟨sp, h1, h2, h3⟩ := ih
      refine ⟨c :: sp, congrArg (c :: ·) h1, ?_, h3⟩
      intro x hx
      rcases List.mem_cons.mp hx with rfl | hx
      · exact (isSpace_iff x).mp h
      · exact h2 x hx
    · rw [if_neg h]
      refine ⟨[], rfl, by simp, ?_⟩
      intro x hx hb
      simp only [List.head?_cons, Option.some.injEq] at hx
      subst hx
      exact h ((isSpace_iff c).mpr hb)

theorem skipSpaces_append (sp r : Str) (h : ∀ c ∈ sp, Blank c) : skipSpaces (sp ++ r) = skipSpaces r := by
  induction sp with
  | nil => rfl
  | cons c cs ih =>
    rw [List.cons_append, skipSpaces, if_pos ((isSpace_iff c).mpr (h c (by simp)))]
    exact ih (fun x hx => h x (by simp [hx]))

theorem skipSpaces_cons (c : Char) (r : Str) (h : ¬ Blank c) : skipSpaces (c :: r) = c :: r := by
  rw [skipSpaces, if_neg (fun e => h ((isSpace_iff c).mp e))]

theorem digit_cases (c : Char) : isDigit c = true ↔ ∃ d, "0123456789".toList[d]? = some c ∧ c.toNat - '0'.toNat = d := by
  constructor
  · intro h
    simp only [isDigit, Bool.and_eq_true, decide_eq_true_eq] at h
    have h1 : 48 ≤ c.toNat := h.1
    have h2 : c.toNat ≤ 57 := h.2
    have hc : c = Char.ofNat c.toNat := (Char.ofNat_toNat c).symm
    refine ⟨c.toNat - '0'.toNat, ?_, rfl⟩
    generalize c.toNat = n at *
    subst hc
    have h3 : '0'.toNat = 48 := rfl
    rw [h3]
    interval_cases n <;> rfl
  · rintro ⟨d, h, _⟩
    have hd : d < 10 := by
      have := (List.getElem?_eq_some_iff.mp h).1
      exact this
    interval_cases d <;> (cases h; decide)

theorem digit_value {c : Char} {d : Nat} (h : "0123456789".toList[d]? = some c) : isDigit c = true ∧ c.toNat - '0'.toNat = d := by
  have hd : d < 10 := (List.getElem?_eq_some_iff.mp h).1
  interval_cases d <;> (cases h; decide)

theorem decimal_digits {ds : Str} {n : Nat} (h : Decimal ds n) : ∀ c ∈ ds, isDigit c = true := by
  induction h with
  | nil => simp
  | snoc d _ hc ih =>
    intro x hx
    rcases List.mem_append.mp hx with hx | hx
    · exact ih x hx
    · simp only [List.mem_singleton] at hx
      subst hx
      exact (digit_value hc).1

theorem decimal_toNat {ds : Str} {n : Nat} (h : Decimal ds n) : toNat ds = n := by
  induction h with
  | nil => rfl
  | snoc d _ hc ih =>
    rw [toNat, List.foldl_append]
    rw [toNat] at ih
    rw [ih, List.foldl_cons, List.foldl_nil, (digit_value hc).2]

theorem list_rev_ind {α : Type} {P : List α → Prop} (h0 : P []) (hs : ∀ l a, P l → P (l ++ [a])) :
    ∀ l, P l := by
  intro l
  have : P l.reverse.reverse := by
    induction l.reverse with
    | nil => exact h0
    | cons a l ih => rw [List.reverse_cons]; exact hs _ _ ih
  rwa [List.reverse_reverse] at this

theorem toNat_decimal (ds : Str) : (∀ c ∈ ds, isDigit c = true) → Decimal ds (toNat ds) := by
  induction ds using list_rev_ind with
  | h0 => intro _; exact .nil
  | hs ds c ih =>
    intro h
    obtain ⟨d, hd, hv⟩ := (digit_cases c).mp (h c (by simp))
    have h1 := Decimal.snoc d (ih (fun x hx => h x (by simp [hx]))) hd
    have h2 : toNat (ds ++ [c]) = 10 * toNat ds + d := by
      rw [toNat, List.foldl_append, List.foldl_cons, List.foldl_nil, hv]; rfl
    rw [h2]; exact h1

theorem decimal_single {c : Char} {m : Nat} (h : Decimal [c] m) : isDigit c = true := decimal_digits h c (by simp)

theorem takeDigits_split (s : Str) : s = (takeDigits s).1 ++ (takeDigits s).2 ∧ (∀ c ∈ (takeDigits s).1, isDigit c = true) ∧
    ∀ c, (takeDigits s).2.head? = some c → isDigit c = false := by
  induction s with
  | nil => simp [takeDigits]
  | cons c cs ih =>
    rw [takeDigits]
    by_cases h : isDigit c = true
    · rw [if_pos h]
      refine ⟨congrArg (c :: ·) ih.1, ?_, ih.2.2⟩
      intro x hx
      rcases List.mem_cons.mp hx with rfl | hx
      · exact h
      · exact ih.2.1 x hx
    · rw [if_neg h]
      refine ⟨rfl, by simp, ?_⟩
      intro x hx
      simp only [List.head?_cons, Option.some.injEq] at hx
      subst hx
      simpa using h

theorem takeQuoted_append (f rest : Str) (h : '"' ∉ f) :
    takeQuoted (f ++ '"' :: rest) = some f := by
  induction f with
  | nil => simp [takeQuoted]
  | cons c cs ih =>
    simp only [List.mem_cons, not_or] at h
    simp only [List.cons_append, takeQuoted, ih h.2]
    rw [if_neg (fun e => h.1 e.symm)]; rfl

theorem takeQuoted_split : ∀ (s f : Str), takeQuoted s = some f → '"' ∉ f ∧ ∃ rest, s = f ++ '"' :: rest := by
  intro s
  induction s with
  | nil => intro f h; cases h
  | cons c cs ih =>
    intro f h
    rw [takeQuoted] at h
    by_cases hc : c = '"'
    · rw [if_pos hc] at h
      cases h
      exact ⟨by simp, cs, by rw [hc]; rfl⟩
    · rw [if_neg hc] at h
      cases hq : takeQuoted cs with
      | none => rw [hq] at h; cases h
      | some g =>
        rw [hq] at h
        cases h
        obtain ⟨h1, rest, h2⟩ := ih g hq
        refine ⟨?_, rest, congrArg (c :: ·) h2⟩
        simp only [List.mem_cons, not_or]
        exact ⟨fun e => hc e.symm, h1⟩

theorem takeDigits_append (ds rest : Str) (h : ∀ d ∈ ds, isDigit d = true)
    (hr : ∀ c, rest.head? = some c → isDigit c = false) : takeDigits (ds ++ rest) = (ds, rest) := by
  induction ds with
  | nil =>
    cases rest with
    | nil => rfl
    | cons c r => simp [takeDigits, hr c rfl]
  | cons d ds ih =>
    simp only [List.cons_append, takeDigits, h d (by simp), ↓reduceIte]
    rw [ih (fun x hx => h x (by simp [hx]))]

/-- The file that the rest of the line names, as `directive` computes it. -/
def fileOf (r4 : Str) : Option Str :=
  match r4 with
  | c :: _ =>
    if isSpace c then
      match skipSpaces r4 with
      | '"' :: r5 => takeQuoted r5
      | _ => none
    else none
  | [] => none

theorem not_blank_quote : ¬ Blank '"' := by simp [Blank]

theorem fileOf_iff (tail f : Str) : fileOf tail = some f ↔ Names tail f := by
  constructor
  · intro h
    cases tail with
    | nil => cases h
    | cons c cs =>
      rw [fileOf] at h
      by_cases hc : isSpace c = true
      · rw [if_pos hc] at h
        obtain ⟨sp, h1, h2, h3⟩ := skipSpaces_split (c :: cs)
        cases hs : skipSpaces (c :: cs) with
        | nil => rw [hs] at h; cases h
        | cons q r5 =>
          rw [hs] at h
          by_cases hq : q = '"'
          · subst hq
            obtain ⟨h4, rest, h5⟩ := takeQuoted_split r5 f h
            rw [hs, h5] at h1
            refine ⟨sp, rest, ?_, h2, h4, h1⟩
            rintro rfl
            cases h1
            exact not_blank_quote ((isSpace_iff _).mp hc)
          · split at h
            · rename_i heq; cases heq; exact absurd rfl hq
            · cases h
      · rw [if_neg hc] at h; cases h
  · rintro ⟨sp, rest, h1, h2, h3, rfl⟩
    cases sp with
    | nil => exact absurd rfl h1
    | cons c cs =>
      have hsk := skipSpaces_append (c :: cs) ('"' :: (f ++ '"' :: rest)) h2
      rw [skipSpaces_cons _ _ not_blank_quote] at hsk
      show (if isSpace c = true then _ else none) = some f
      rw [if_pos ((isSpace_iff c).mpr (h2 c (by simp)))]
      show (match skipSpaces ((c :: cs) ++ '"' :: (f ++ '"' :: rest)) with | '"' :: r5 => takeQuoted r5 | _ => none) = some f
      rw [hsk]
      exact takeQuoted_append f rest h3

/-- The file part of the specification. -/
theorem fileOf_spec (tail : Str) : match fileOf tail with | some f => Names tail f | none => ∀ f, ¬ Names tail f := by
  cases h : fileOf tail with
  | some f => exact (fileOf_iff tail f).mp h
  | none =>
    intro f hn
    rw [(fileOf_iff tail f).mpr hn] at h
    cases h

theorem fileOf_eq (tail : Str) (file : Option Str) (h : match file with | some f => Names tail f | none => ∀ f, ¬ Names tail f) : fileOf tail = file := by
  cases file with
  | some f => exact (fileOf_iff tail f).mpr h
  | none =>
    cases hf : fileOf tail with
    | none => rfl
    | some f => exact absurd ((fileOf_iff tail f).mp hf) (h f)

/-- The optional keyword, as `directive` skips it. -/
def skipKw (r2 : Str) : Str :=
  match r2 with
  | 'l' :: 'i' :: 'n' :: 'e' :: r => skipSpaces r
  | r => r

theorem skipKw_line (r : Str) : skipKw ('l' :: 'i' :: 'n' :: 'e' :: r) = skipSpaces r := rfl

theorem skipKw_split (r : Str) : (∃ r', r = 'l' :: 'i' :: 'n' :: 'e' :: r' ∧ skipKw r = skipSpaces r') ∨ skipKw r = r := by
  unfold skipKw
  split
  · exact .inl ⟨_, rfl, rfl⟩
  · exact .inr rfl

theorem skipKw_other (c : Char) (r : Str) (h : c ≠ 'l') : skipKw (c :: r) = c :: r := by
  rcases skipKw_split (c :: r) with ⟨r', h1, _⟩ | h1
  · cases h1; exact absurd rfl h
  · exact h1

/-- What follows the `#`. -/
def afterHash (r1 : Str) : Option (Nat × Option Str) :=
  match takeDigits (skipKw (skipSpaces r1)) with
  | ([], _) => none
  | (ds, r4) => some (toNat ds, fileOf r4)

theorem directive_unfold (line : Str) : directive line = match skipSpaces line with
    | '#' :: r1 => afterHash r1
    | _ => none := rfl

theorem directive_hash {line r1 : Str} (h : skipSpaces line = '#' :: r1) : directive line = afterHash r1 := by
  rw [directive_unfold, h]; rfl

theorem isDigit_not_blank {c : Char} (h : isDigit c = true) : ¬ Blank c := by
  intro hb
  simp only [Blank, List.mem_cons, List.not_mem_nil, or_false] at hb
  rcases hb with rfl | rfl | rfl | rfl | rfl | rfl <;> exact absurd h (by decide)

/-- C07 (what a directive is): the code recognises exactly the directives, with their number and file. -/
theorem directive_iff (line : Str) (n : Nat) (file : Option Str) : directive line = some (n, file) ↔ IsDirective line n file := by
  constructor
  · intro h
    obtain ⟨sp1, h1, h2, _⟩ := skipSpaces_split line
    cases hs : skipSpaces line with
    | nil => rw [directive_unfold, hs] at h; cases h
    | cons q r1 =>
      rw [hs] at h1
      by_cases hq : q = '#'
      · subst hq
        rw [directive_hash hs, afterHash] at h
        obtain ⟨sp2, h3, h4, _⟩ := skipSpaces_split r1
        obtain ⟨h5, h6, h7⟩ := takeDigits_split (skipKw (skipSpaces r1))
        generalize htd : takeDigits (skipKw (skipSpaces r1)) = td at *
        obtain ⟨ds, r4⟩ := td
        cases ds with
        | nil => cases h
        | cons d ds' =>
          dsimp only at h h5 h6 h7
          simp only [Option.some.injEq, Prod.mk.injEq] at h
          obtain ⟨rfl, rfl⟩ := h
          have hkw : ∃ kw sp3, (kw = [] ∨ kw = ['l', 'i', 'n', 'e']) ∧ (∀ c ∈ sp3, Blank c) ∧ skipSpaces r1 = kw ++ (sp3 ++ ((d :: ds') ++ r4)) := by
            rcases skipKw_split (skipSpaces r1) with ⟨r', k1, k2⟩ | k1
            · obtain ⟨sp3, k3, k4, _⟩ := skipSpaces_split r'
              refine ⟨_, sp3, .inr rfl, k4, ?_⟩
              rw [k1, ← h5, k2, ← k3]
              rfl
            · refine ⟨[], [], .inl rfl, by simp, ?_⟩
              rw [← k1, h5]
              rfl
          obtain ⟨kw, sp3, k1, k2, k3⟩ := hkw
          refine ⟨sp1, sp2, kw, sp3, d :: ds', r4, ?_, h2, h4, k1, k2, by simp, toNat_decimal _ h6, ?_, fileOf_spec r4⟩
          · rw [← k3, ← h3]; exact h1
          · intro c m hc hd
            have := h7 c hc
            rw [decimal_single hd] at this
            cases this
      · rw [directive_unfold, hs] at h
        split at h
        · rename_i heq; cases heq; exact absurd rfl hq
        · cases h
  · rintro ⟨sp1, sp2, kw, sp3, ds, tail, rfl, h1, h2, h3, h4, h5, h6, h7, h8⟩
    rw [directive_hash ((skipSpaces_append sp1 _ h1).trans (skipSpaces_cons _ _ (by simp [Blank]))), afterHash]
    rw [skipSpaces_append sp2 _ h2]
    have hdig := decimal_digits h6
    have htd : takeDigits (ds ++ tail) = (ds, tail) := by
      apply takeDigits_append _ _ hdig
      intro c hc
      cases hd : isDigit c with
      | false => rfl
      | true =>
        have := toNat_decimal [c] (by simpa using hd)
        exact absurd this (h7 c _ hc)
    have hsk : skipSpaces (sp3 ++ (ds ++ tail)) = ds ++ tail ∧ skipKw (ds ++ tail) = ds ++ tail := by
      rw [skipSpaces_append sp3 _ h4]
      cases ds with
      | nil => exact absurd rfl h5
      | cons d ds' =>
        have hd := hdig d (by simp)
        refine ⟨skipSpaces_cons _ _ (isDigit_not_blank hd), skipKw_other _ _ ?_⟩
        rintro rfl
        exact absurd hd (by decide)
    have hkw : skipKw (skipSpaces (kw ++ (sp3 ++ (ds ++ tail)))) = ds ++ tail := by
      rcases h3 with rfl | rfl
      · rw [List.nil_append, hsk.1, hsk.2]
      · rw [List.cons_append, skipSpaces_cons _ _ (by simp [Blank])]
        simp only [List.cons_append, List.nil_append]
        rw [skipKw_line, hsk.1]
    rw [hkw, htd]
    cases ds with
    | nil => exact absurd rfl h5
    | cons d ds' =>
      dsimp only
      rw [decimal_toNat h6, fileOf_eq tail file h8]

theorem directive_none_iff (line : Str) : directive line = none ↔ ∀ n f, ¬ IsDirective line n f := by
  constructor
  · intro h n f hd
    rw [(directive_iff line n f).mpr hd] at h
    cases h
  · intro h
    cases hd : directive line with
    | none => rfl
    | some p => exact absurd ((directive_iff line p.1 p.2).mp hd) (h p.1 p.2)

/-- Scanning state after the lines `before`. -/
def advance (st : Option Str × Nat) (l : Str) : Option Str × Nat :=
  match directive l with
  | some (n, some f) => (some f, n)
  | some (n, none) => (st.1, n)
  | none => (st.1, st.2 + 1)

theorem scan_split (before : List Str) (l : Str) (after : List Str) (k : Nat) (st : Option Str × Nat) :
    scan (k + before.length) (before ++ l :: after) k st.1 st.2 =
      some (before.foldl advance st) := by
  induction before generalizing k st with
  | nil => simp [scan]
  | cons b before ih =>
    have hne : k ≠ k + (b :: before).length := by simp
    simp only [List.cons_append, scan, if_neg hne, List.foldl_cons]
    have : k + (b :: before).length = (k + 1) + before.length := by simp; omega
    rw [this]
    have h := ih (k + 1) (advance st b)
    rw [← h]
    unfold advance
    rcases directive b with _ | ⟨n, _ | f⟩ <;> rfl

theorem scan_out (ls : List Str) (target k : Nat) (file : Option Str) (n : Nat)
    (h : target < k ∨ k + ls.length ≤ target) : scan target ls k file n = none := by
  induction ls generalizing k file n with
  | nil => rfl
  | cons l ls ih =>
    have hne : k ≠ target := by simp at h; omega
    have h' : target < k + 1 ∨ k + 1 + ls.length ≤ target := by simp at h; omega
    simp only [scan, if_neg hne]
    split <;> exact ih _ _ _ h'

theorem advance_append (pre : List Str) (l : Str) (st : Option Str × Nat) :
    (pre ++ [l]).foldl advance st = advance (pre.foldl advance st) l := by simp

theorem fold_line (base : Option Str) (before : List Str) :
    LineOf before (before.foldl advance (base, 1)).2 := by
  induction before using list_rev_ind with
  | h0 => exact .noDirective [] (by simp)
  | hs pre l ih =>
    rw [advance_append]
    cases hd : directive l with
    | some p =>
      obtain ⟨n, f⟩ := p
      have := LineOf.after pre l [] n f ((directive_iff l n f).mp hd) (by simp)
      cases f <;> simpa [advance, hd] using this
    | none =>
      simp only [advance, hd]
      generalize (pre.foldl advance (base, 1)).2 = m at ih
      cases ih with
      | noDirective _ h =>
        have := LineOf.noDirective (pre ++ [l]) (by
          intro x hx
          rcases List.mem_append.mp hx with hx | hx
          · exact h x hx
          · simp at hx; subst hx; exact (directive_none_iff x).mp hd)
        simpa using this
      | after pre' d post n f h1 h2 =>
        have := LineOf.after pre' d (post ++ [l]) n f h1 (by
          intro x hx
          rcases List.mem_append.mp hx with hx | hx
          · exact h2 x hx
          · simp at hx; subst hx; exact (directive_none_iff x).mp hd)
        simpa [Nat.add_assoc] using this

theorem fold_file (base : Option Str) (before : List Str) :
    FileOf base before (before.foldl advance (base, 1)).1 := by
  induction before using list_rev_ind with
  | h0 => exact .noFile [] (by simp)
  | hs pre l ih =>
    rw [advance_append]
    by_cases hd : ∃ n f, directive l = some (n, some f)
    · obtain ⟨n, f, hd⟩ := hd
      have := FileOf.after (base := base) pre l [] n f ((directive_iff l n (some f)).mp hd) (by simp)
      simpa [advance, hd] using this
    · have hnone : ∀ n f, directive l ≠ some (n, some f) := fun n f h => hd ⟨n, f, h⟩
      have hst : (advance (pre.foldl advance (base, 1)) l).1 = (pre.foldl advance (base, 1)).1 := by
        unfold advance
        split
        · rename_i n f h; exact absurd h (hnone n f)
        · rfl
        · rfl
      rw [hst]
      generalize (pre.foldl advance (base, 1)).1 = m at ih
      cases ih with
      | noFile _ h =>
        exact .noFile _ (by
          intro x hx
          rcases List.mem_append.mp hx with hx | hx
          · exact h x hx
          · simp at hx; subst hx; exact fun n f hi => hnone n f ((directive_iff x n (some f)).mpr hi))
      | after pre' d post n f h1 h2 =>
        have := FileOf.after (base := base) pre' d (post ++ [l]) n f h1 (by
          intro x hx
          rcases List.mem_append.mp hx with hx | hx
          · exact h2 x hx
          · simp at hx; subst hx; exact fun n f hi => hnone n f ((directive_iff x n (some f)).mpr hi))
        simpa using this

theorem splitLines_ne_nil (s : Str) : splitLines s ≠ [] := by
  cases s with
  | nil => simp [splitLines]
  | cons c cs => simp only [splitLines]; split; · simp
                 split <;> simp

theorem splitLines_line (l : Str) (h : '\n' ∉ l) : splitLines l = [l] := by
  induction l with
  | nil => rfl
  | cons c cs ih =>
    simp only [List.mem_cons, not_or] at h
    simp only [splitLines, ih h.2]
    rw [if_neg (fun e => h.1 e.symm)]

theorem splitLines_cons (l rest : Str) (h : '\n' ∉ l) :
    splitLines (l ++ '\n' :: rest) = l :: splitLines rest := by
  induction l with
  | nil => simp [splitLines]
  | cons c cs ih =>
    simp only [List.mem_cons, not_or] at h
    simp only [List.cons_append, splitLines, ih h.2]
    rw [if_neg (fun e => h.1 e.symm)]

theorem splitLines_join (ls : List Str) (hne : ls ≠ []) (h : ∀ l ∈ ls, '\n' ∉ l) :
    splitLines (joinLines ls) = ls := by
  induction ls with
  | nil => contradiction
  | cons l ls ih =>
    cases ls with
    | nil => exact splitLines_line l (h l (by simp))
    | cons m ls =>
      simp only [joinLines]
      rw [splitLines_cons _ _ (h l (by simp)), ih (by simp) (fun x hx => h x (by simp [hx]))]

/-- **C07.** For a text made of `before`, a line `l` and `after`, the location reported for a
term on line `l` is the number and file fixed by the directives in `before`. -/
theorem location_honours_directives (base : Option Str) (before : List Str) (l : Str)
    (after : List Str) (hnl : ∀ x ∈ before ++ l :: after, '\n' ∉ x) :
    ∃ file line, locate base (some (before.length + 1)) (some (joinLines (before ++ l :: after))) =
        some (file, some line) ∧
      FileOf base before file ∧ LineOf before line := by
  refine ⟨_, _, ?_, fold_file base before, fold_line base before⟩
  simp only [locate]
  rw [splitLines_join _ (by simp) hnl]
  have := scan_split before l after 1 (base, 1)
  rw [Nat.add_comm before.length 1, this]
  rfl

/-- The expected line is determined by the text (so C07 fixes it uniquely). -/
theorem lineOf_unique (before : List Str) (m n : Nat) (h1 : LineOf before m) (h2 : LineOf before n) :
    m = n := by
  have key : ∀ before m, LineOf before m → m = (before.foldl advance (none, 1)).2 := by
    intro before m h
    cases h with
    | noDirective _ h =>
      have : ∀ (b : List Str) (st : Option Str × Nat), (∀ l ∈ b, directive l = none) →
          (b.foldl advance st).2 = st.2 + b.length := by
        intro b
        induction b with
        | nil => intro st _; rfl
        | cons x b ih =>
          intro st hb
          simp only [List.foldl_cons, List.length_cons]
          rw [ih _ (fun l hl => hb l (by simp [hl]))]
          simp only [advance, hb x (by simp)]
          omega
      rw [this before _ (fun l hl => (directive_none_iff l).mpr (h l hl))]; omega
    | after pre d post k f h1 h2 =>
      have : ∀ (b : List Str) (st : Option Str × Nat), (∀ l ∈ b, directive l = none) →
          (b.foldl advance st).2 = st.2 + b.length := by
        intro b
        induction b with
        | nil => intro st _; rfl
        | cons x b ih =>
          intro st hb
          simp only [List.foldl_cons, List.length_cons]
          rw [ih _ (fun l hl => hb l (by simp [hl]))]
          simp only [advance, hb x (by simp)]
          omega
      rw [List.foldl_append, List.foldl_cons, this post _ (fun l hl => (directive_none_iff l).mpr (h2 l hl))]
      have h1' := (directive_iff d k f).mpr h1
      cases f <;> simp [advance, h1']
  rw [key before m h1, key before n h2]

/-- So is the expected file. -/
theorem fileOf_unique (base : Option Str) (before : List Str) (f g : Option Str) (h1 : FileOf base before f) (h2 : FileOf base before g) :
    f = g := by
  have skip : ∀ (b : List Str) (st : Option Str × Nat), (∀ l ∈ b, ∀ n f, ¬ IsDirective l n (some f)) → (b.foldl advance st).1 = st.1 := by
    intro b
    induction b with
    | nil => intro st _; rfl
    | cons x b ih =>
      intro st hb
      rw [List.foldl_cons, ih _ (fun l hl => hb l (by simp [hl]))]
      unfold advance
      split
      · rename_i n f h; exact absurd ((directive_iff _ _ _).mp h) (hb x (by simp) n f)
      · rfl
      · rfl
  have key : ∀ before f, FileOf base before f → f = (before.foldl advance (base, 1)).1 := by
    intro before f h
    cases h with
    | noFile _ h => rw [skip before _ h]
    | after pre d post n f h1 h2 =>
      rw [List.foldl_append, List.foldl_cons, skip post _ h2]
      simp [advance, (directive_iff _ _ _).mpr h1]
  rw [key before f h1, key before g h2]

/-- **C07 (errors).** A line number outside the text is never given a location. -/
theorem location_outside (base : Option Str) (n : Nat) (ls : List Str) (hne : ls ≠ [])
    (hnl : ∀ x ∈ ls, '\n' ∉ x) (h : n = 0 ∨ ls.length < n) :
    locate base (some n) (some (joinLines ls)) = none := by
  simp only [locate]
  rw [splitLines_join _ hne hnl, scan_out _ _ _ _ _ (by omega)]
  rfl

/-- **C07 (no source).** Without the source, or without a line, what the parser reported is given as it is. -/
theorem location_without_source (base : Option Str) (n : Nat) (src : Option Str) :
    locate base (some n) none = some (base, some n) ∧ locate base none src = some (base, none) := ⟨rfl, rfl⟩

/-- The line that the C preprocessor writes is a directive. -/
example : IsDirective "# 12 \"a.h\" 1 3".toList 12 (some "a.h".toList) := (directive_iff _ _ _).mp (by decide)

/-- So is `#line 7`; an ordinary line is not. -/
example : IsDirective "  #line 7".toList 7 none ∧ ∀ n f, ¬ IsDirective "component A a; # 3".toList n f :=
  ⟨(directive_iff _ _ _).mp (by decide), (directive_none_iff _).mp (by decide)⟩

/-- Non-vacuity: the third line of `# 7 "a"⏎x⏎y` is line 8 of `a`. -/
example : locate (some ['z']) (some 3) (some "# 7 \"a\"\nx\ny".toList) = some (some ['a'], some 8) := by
  decide

end Verif.Location
