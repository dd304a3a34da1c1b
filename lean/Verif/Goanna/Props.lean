import Verif.Goanna.Settings

/-!
# Properties: the wrapper of the analyser (C131)
-/

namespace Verif.Goanna

/-- C131. If the analyser cannot be run, this is said and the status is not zero; if it fails, everything that it
said is passed on unchanged, with its status. -/
theorem failures_passed_on (files : List Char → Option (List Char)) :
    main none files = (-1, "goannacc not found\n".toList) ∧
      ∀ (ret : Int) (stderr : List Char), ret ≠ 0 → main (some (ret, stderr)) files = (ret, stderr) := by
  refine ⟨rfl, ?_⟩
  intro ret stderr h
  simp [main, h]

/-- A line is left out exactly if it is read as a warning that the source hides. -/
theorem keep_iff (files : List Char → Option (List Char)) (line : List Char) :
    keep files line = false ↔ ∃ f n c, parseWarning line = some (f, n, c) ∧ Hidden files f n c := by
  unfold keep
  cases hp : parseWarning line with
  | none => simp
  | some q =>
    obtain ⟨f, n, c⟩ := q
    simp only [Option.some.injEq, Prod.mk.injEq]
    constructor
    · intro h
      refine ⟨f, n, c, ⟨rfl, rfl, rfl⟩, ?_⟩
      cases ht : files f with
      | none => rw [ht] at h; simp at h
      | some text =>
        cases hl : findLine n 0 (fileLines text) with
        | none => simp only [ht, hl] at h; simp at h
        | some source =>
          cases hs : searchSeq suppressionMark source with
          | none => simp only [ht, hl, hs] at h; simp at h
          | some caps =>
            obtain ⟨checks, rfl⟩ := search_form hs
            simp only [ht, hl, hs] at h
            refine ⟨text, source, checks, ht, ?_, search_iff.mp hs, (contains_split _ _).mp (by simpa using h)⟩
            exact (findLine_iff source _ text (Nat.le_refl _) n 0).mp (by simpa using hl)
    · rintro ⟨f', n', c', ⟨rfl, rfl, rfl⟩, text, source, checks, ht, hl, hs, hc⟩
      have hl' := (findLine_iff source _ text (Nat.le_refl _) n 0).mpr hl
      rw [Nat.zero_add] at hl'
      simp only [ht, hl', search_iff.mpr hs, (contains_split _ _).mpr hc]
      rfl

/-- C131. If the analyser succeeds, so does the wrapper, and what it says are the complete lines of the analyser, in
their order and unchanged, without those that `keep` refuses. -/
theorem lines_passed_on (files : List Char → Option (List Char)) (lines : List (List Char)) (tail : List Char)
    (hl : ∀ l ∈ lines, '\n' ∉ l) (ht : '\n' ∉ tail) :
    main (some (0, lines.flatMap (fun l => l ++ ['\n']) ++ tail)) files =
      (0, (lines.filter (keep files)).flatMap (fun l => l ++ ['\n'])) := by
  simp [main, split_lines lines tail hl ht]

/-- C131. Nothing else is hidden: a line that is left out is a warning about a line of a file that can be opened, and
the first marker in that line lists the check of the warning. -/
theorem hidden_only (files : List Char → Option (List Char)) (line : List Char) (h : keep files line = false) :
    ∃ f d n c, IsWarning line f d c ∧ Numeral d n ∧ Hidden files f n c := by
  obtain ⟨f, n, c, hp, hh⟩ := (keep_iff files line).mp h
  obtain ⟨d, hw, rfl⟩ := parse_some hp
  exact ⟨f, d, value d, c, hw, numeral_value d, hh⟩

/-- C131. A warning that names its file without a colon and has a blank in front of the word `warning` is left out
exactly if its line in the source hides it. -/
theorem hidden_iff_partial (files : List Char → Option (List Char)) (line f d c : List Char) (n : Nat)
    (h : IsWarning line f d c) (hf : ':' ∉ f)
    (hw : ∃ w rest, isBlank w = true ∧ line = f ++ ":".toList ++ d ++ ":".toList ++ w :: rest) (hn : Numeral d n) :
    keep files line = false ↔ Hidden files f n c := by
  have hn' : n = value d := numeral_unique hn (numeral_value d)
  subst hn'
  have key : parseWarning line = some (f, value d, c) := by
    obtain ⟨⟨f', n', c'⟩, hp⟩ := parse_complete h
    obtain ⟨d', hw', rfl⟩ := parse_some hp
    obtain ⟨b₁, b₂, b₃, sev, b₄, msg, b₅, rules, e, ⟨-, -⟩, ⟨-, hd⟩, ⟨hc, hc'⟩, -, -, -, hb1, hb2, -⟩ := h
    obtain ⟨a₁, a₂, a₃, sev', a₄, msg', a₅, rules', e', ⟨-, hf'⟩, hd', ⟨hc2, hc2'⟩, -, -, -, ha1, ha2, -⟩ := hw'
    have hb : b₁ ≠ [] := by
      rintro rfl
      obtain ⟨w, rest, hw1, hw2⟩ := hw
      rw [e] at hw2
      simp only [List.append_assoc] at hw2
      have h1 := List.append_cancel_left (List.append_cancel_left (List.append_cancel_left (List.append_cancel_left hw2)))
      have h2 : 'w' = w := (List.cons.inj h1).1
      rw [← h2] at hw1
      exact absurd hw1 (by decide)
    rw [e, goanna_open] at e'
    simp only [← List.append_assoc] at e'
    simp only [List.append_assoc] at e'
    obtain ⟨e1, e2, e3⟩ := tool_unique (f := f) (d := d) (b₁ := b₁) (b₂ := b₂) (f' := f') (d' := d') (a₁ := a₁) (a₂ := a₂)
      (X := ['['] ++ (c ++ ("]".toList ++ (b₃ ++ ("Severity-".toList ++ (sev ++ (",".toList ++ (b₄ ++ (msg ++ (".".toList ++ (b₅ ++ rules)))))))))))
      (X' := ['['] ++ (c' ++ ("]".toList ++ (a₃ ++ ("Severity-".toList ++ (sev' ++ (",".toList ++ (a₄ ++ (msg' ++ (".".toList ++ (a₅ ++ rules')))))))))))
      (by simpa only [List.append_assoc] using e') hf hd hb hb1 hb2 hf' hd' ha1 ha2
    have e4 := List.append_cancel_left e3
    obtain ⟨e5, -, -⟩ := span_unique (p := fun x => x != ']') (x := ']') (x' := ']') e4
      (by intro x hx; simp; rintro rfl; exact hc2' hx) (by intro x hx; simp; rintro rfl; exact hc' hx) (by simp) (by simp)
    rw [hp, e1, e2, e5]
  rw [keep_iff]
  constructor
  · rintro ⟨f', n', c', hp, hh⟩
    rw [key] at hp
    simp at hp
    obtain ⟨rfl, rfl, rfl⟩ := hp
    exact hh
  · intro hh; exact ⟨f, value d, c, key, hh⟩

/-- **Disagreement with C131.** The analyser's warnings as the documentation shows them, with a blank behind the name
of the analyser, are never hidden, whatever the source says. -/
theorem documented_form_shown (files : List Char → Option (List Char)) (f d b₁ b₂ rest : List Char) (w : Char)
    (hf : ':' ∉ f) (hd : ∀ c ∈ d, isDigit c = true) (hb : b₁ ≠ []) (hb1 : Blank b₁) (hb2 : Blank b₂)
    (hw : isBlank w = true) :
    keep files (f ++ ":".toList ++ d ++ ":".toList ++ b₁ ++ "warning:".toList ++ b₂ ++ "Goanna".toList ++ w :: rest) = true := by
  by_contra h
  have h' := eq_false_of_ne_true h
  obtain ⟨f', n', c', hp, -⟩ := (keep_iff _ _).mp h'
  obtain ⟨d', hw', -⟩ := parse_some hp
  obtain ⟨a₁, a₂, a₃, sev', a₄, msg', a₅, rules', e', ⟨-, hf'⟩, hd', -, -, -, -, ha1, ha2, -⟩ := hw'
  rw [goanna_open] at e'
  obtain ⟨-, -, e3⟩ := tool_unique (f := f) (d := d) (b₁ := b₁) (b₂ := b₂) (X := w :: rest) (f' := f') (d' := d') (a₁ := a₁) (a₂ := a₂)
      (X' := ['['] ++ (c' ++ ("]".toList ++ (a₃ ++ ("Severity-".toList ++ (sev' ++ (",".toList ++ (a₄ ++ (msg' ++ (".".toList ++ (a₅ ++ rules')))))))))))
      (by simpa only [List.append_assoc] using e') hf hd hb hb1 hb2 hf' hd' ha1 ha2
  have : '[' = w := (List.cons.inj e3).1
  rw [← this] at hw
  exact absurd hw (by decide)

/-- The first of the documented examples. -/
theorem documented_example_shown (files : List Char → Option (List Char)) :
    keep files "foo.c:10: warning: Goanna [ARR-inv-index] Severity-High, ...".toList = true :=
  documented_form_shown files "foo.c".toList "10".toList " ".toList " ".toList "[ARR-inv-index] Severity-High, ...".toList ' '
    (by decide) (by decide) (by decide) (by decide) (by decide) (by decide)

/-- **Disagreement with C131.** What the analyser writes behind its last line feed is lost. -/
theorem unfinished_line_lost (files : List Char → Option (List Char)) (tail : List Char) (ht : '\n' ∉ tail) :
    main (some (0, tail)) files = (0, []) := by
  simpa using lines_passed_on files [] tail (by simp) ht

/-! ## Examples -/

def demoSource : List Char :=
  "int f(int *a) {\n  return a[9]; /* ok */ /* goanna: suppress=ARR-inv-index,MEM-leak */\n}\n".toList

def demoFiles (f : List Char) : Option (List Char) := if f = "foo.c".toList then some demoSource else none

def demoWarning (check : String) (line : String) : List Char :=
  ("foo.c:" ++ line ++ ": warning: Goanna[" ++ check ++ "] Severity-High, Array index too large. CWE-119").toList

/-- A warning that is hidden, one of another check, one of another line and one of another file. -/
theorem demo_keep :
    keep demoFiles (demoWarning "ARR-inv-index" "2") = false ∧ keep demoFiles (demoWarning "MEM-leak" "2") = false ∧
      keep demoFiles (demoWarning "ARR-inv" "2") = true ∧ keep demoFiles (demoWarning "MEM-leak" "3") = true ∧
      keep demoFiles (demoWarning "MEM-leak" "0") = true ∧ keep (fun _ => none) (demoWarning "MEM-leak" "2") = true := by
  decide +kernel

/-- The hypotheses of `hidden_iff_partial` hold in the example. -/
theorem demo_hypotheses :
    IsWarning (demoWarning "MEM-leak" "2") "foo.c".toList "2".toList "MEM-leak".toList ∧ ':' ∉ "foo.c".toList ∧
      (∃ w rest, isBlank w = true ∧
        demoWarning "MEM-leak" "2" = "foo.c".toList ++ ":".toList ++ "2".toList ++ ":".toList ++ w :: rest) ∧
      Numeral "2".toList 2 := by
  refine ⟨⟨" ".toList, " ".toList, " ".toList, "High".toList, " ".toList, "Array index too large".toList, " ".toList,
    "CWE-119".toList, by decide +kernel, ?_⟩, by decide, ⟨' ', "warning: Goanna[MEM-leak] Severity-High, Array index too large. CWE-119".toList,
    by decide, by decide +kernel⟩, Numeral.snoc [] 0 '2' .nil⟩
  refine ⟨by decide, by decide, by decide, by decide, by decide, by decide, by decide, by decide, by decide, by decide, by decide⟩

/-- **Disagreement with C131.** A list with a blank behind a comma hides only its first check, of two markers in a
line only the first counts, and warnings about a file with a blank in its name are never hidden. -/
theorem markers_not_seen :
    keep (fun _ => some "x; /* goanna: suppress=A, B */".toList) "f.c:1: warning: Goanna[B] Severity-Low, m. r".toList = true ∧
      keep (fun _ => some "x; /* goanna: suppress=A */ /* goanna: suppress=B */".toList)
        "f.c:1: warning: Goanna[B] Severity-Low, m. r".toList = true ∧
      keep (fun _ => some "x; /* goanna: suppress=B */".toList) "a b.c:1: warning: Goanna[B] Severity-Low, m. r".toList = true ∧
      keep (fun _ => some "x; /* goanna: suppress=B */".toList) "b.c:1: warning: Goanna[B] Severity-Low, m. r".toList = false := by
  decide +kernel

/-- A whole run. -/
theorem demo_run :
    main (some (0, "note\n".toList ++ demoWarning "MEM-leak" "2" ++ "\n".toList ++ demoWarning "MEM-leak" "3" ++ "\nlost".toList)) demoFiles =
      (0, "note\n".toList ++ demoWarning "MEM-leak" "3" ++ "\n".toList) := by
  decide +kernel

/-! ## The classes of characters -/

theorem char_eq_iff (c d : Char) : c = d ↔ c.toNat = d.toNat :=
  ⟨fun h => by rw [h], fun h => Char.ext (UInt32.toNat_inj.mp h)⟩

/-- The classes that the specification speaks of, spelled out: blanks, digits, and the characters of words. -/
theorem classes (c : Char) :
    (isBlank c = true ↔ c ∈ " \t\n\x0b\x0c\r\x1c\x1d\x1e\x1f".toList) ∧
    (isDigit c = true ↔ c ∈ "0123456789".toList) ∧
    (isWord c = true ↔ c ∈ "_0123456789abcdefghijklmnopqrstuvwxyzABCDEFGHIJKLMNOPQRSTUVWXYZ".toList) := by
  refine ⟨?_, ?_, ?_⟩
  · simp [isBlank, char_eq_iff]; omega
  · simp [isDigit, char_eq_iff]; omega
  · simp [isWord, isDigit, char_eq_iff]; omega

end Verif.Goanna
