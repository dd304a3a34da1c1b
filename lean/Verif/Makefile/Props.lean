import Verif.Makefile.Model
import Verif.Makefile.Spec
import Mathlib.Data.List.TakeWhile
import Mathlib.Tactic.Conv

namespace Verif.Makefile

/-- What is assumed about white space. -/
structure WsOk (ws : Char → Bool) : Prop where
  blank : ws ' ' = true
  newline : ws '\n' = true
  backslash : ws '\\' = false
  colon : ws ':' = false

/-! ### Words -/

theorem wordsAux_spec (ws : Char → Bool) : ∀ (l cur : Text), (∀ c ∈ cur, ws c = false) →
    wordsAux ws cur l = ((cur ++ l).splitOnP ws).filter (fun w => !w.isEmpty) := by
  have hpre : ∀ (cur : Text) (l : Text), (∀ c ∈ cur, ws c = false) →
      (cur ++ l).splitOnP ws = (l.splitOnP ws).modifyHead (cur ++ ·) := by
    intro cur
    induction cur with
    | nil =>
      intro l _
      cases h : l.splitOnP ws with
      | nil => simp [h]
      | cons a b => simp [h]
    | cons c cur ih =>
      intro l h
      rw [List.cons_append, List.splitOnP_cons_eq_if_modifyHead, ih l (fun c' hc' => h c' (by simp [hc'])), h c (by simp)]
      cases hs : l.splitOnP ws with
      | nil => simp
      | cons a b => simp
  intro l
  induction l with
  | nil =>
    intro cur hc
    rw [hpre cur [] hc]
    simp only [wordsAux, List.splitOnP_nil, List.modifyHead_cons]
    cases cur <;> simp
  | cons c cs ih =>
    intro cur hc
    rw [hpre cur (c :: cs) hc]
    simp only [wordsAux]
    cases hw : ws c with
    | true =>
      rw [List.splitOnP_cons_eq_if_modifyHead, hw]
      simp only [if_true, List.modifyHead_cons, List.append_nil]
      have := ih [] (by simp)
      cases cur with
      | nil => simpa using this
      | cons d cur => simp [this]
    | false =>
      simp only [Bool.false_eq_true, if_false]
      rw [ih (cur ++ [c]) (by
        intro d hd
        rcases List.mem_append.mp hd with h | h
        · exact hc d h
        · simp only [List.mem_singleton] at h; subst h; exact hw)]
      rw [List.append_assoc, List.singleton_append, hpre cur (c :: cs) hc]

theorem words_spec (ws : Char → Bool) (l : Text) : words ws l = Spec.pieces ws l := by
  have := wordsAux_spec ws l [] (by simp)
  simpa [words, Spec.pieces] using this

/-- Splitting distributes over a white space character. -/
theorem pieces_append (ws : Char → Bool) (c : Char) (hc : ws c = true) : ∀ a b : Text,
    Spec.pieces ws (a ++ [c] ++ b) = Spec.pieces ws a ++ Spec.pieces ws b := by
  intro a b
  have : (a ++ [c] ++ b).splitOnP ws = a.splitOnP ws ++ b.splitOnP ws := by
    induction a with
    | nil => simp [List.splitOnP_cons_eq_if_modifyHead, hc]
    | cons x a ih =>
      rw [List.cons_append, List.cons_append, List.splitOnP_cons_eq_if_modifyHead, ih, List.splitOnP_cons_eq_if_modifyHead]
      split
      · rfl
      · cases h : a.splitOnP ws with
        | nil => exact absurd h (List.splitOnP_ne_nil ws a)
        | cons y ys => simp
  simp only [Spec.pieces, this, List.filter_append]

theorem pieces_nil (ws : Char → Bool) : Spec.pieces ws [] = [] := by simp [Spec.pieces]

theorem pieces_ws (ws : Char → Bool) : ∀ l : Text, (∀ c ∈ l, ws c = true) → Spec.pieces ws l = [] := by
  intro l
  induction l with
  | nil => intro _; exact pieces_nil ws
  | cons c l ih =>
    intro h
    have := pieces_append ws c (h c (by simp)) [] l
    simp only [List.nil_append, List.singleton_append] at this
    rw [this, pieces_nil, ih (fun c' hc' => h c' (by simp [hc']))]
    rfl

theorem pieces_append_ws (ws : Char → Bool) : ∀ (b a : Text), (∀ c ∈ b, ws c = true) →
    Spec.pieces ws (a ++ b) = Spec.pieces ws a := by
  intro b a h
  cases b with
  | nil => simp
  | cons c b =>
    have := pieces_append ws c (h c (by simp)) a b
    rw [List.append_assoc, List.singleton_append] at this
    rw [this, pieces_ws ws b (fun c' hc' => h c' (by simp [hc'])), List.append_nil]

theorem pieces_ws_append (ws : Char → Bool) : ∀ (a b : Text), (∀ c ∈ a, ws c = true) →
    Spec.pieces ws (a ++ b) = Spec.pieces ws b := by
  intro a
  induction a with
  | nil => intro b _; rfl
  | cons c a ih =>
    intro b h
    have := pieces_append ws c (h c (by simp)) [] (a ++ b)
    simp only [List.nil_append, List.singleton_append] at this
    rw [List.cons_append, this, pieces_nil, List.nil_append, ih b (fun c' hc' => h c' (by simp [hc']))]

/-- A word without white space is one piece. -/
theorem pieces_word (ws : Char → Bool) (w : Text) (hne : w ≠ []) (h : ∀ c ∈ w, ws c = false) :
    Spec.pieces ws w = [w] := by
  rw [← words_spec]
  have aux : ∀ (l cur : Text), (∀ c ∈ l, ws c = false) → cur ++ l ≠ [] → wordsAux ws cur l = [cur ++ l] := by
    intro l
    induction l with
    | nil =>
      intro cur _ hne
      simp only [List.append_nil] at hne
      simp [wordsAux, hne]
    | cons c l ih =>
      intro cur h hne
      simp only [wordsAux, h c (by simp), Bool.false_eq_true, if_false]
      rw [ih (cur ++ [c]) (fun c' hc' => h c' (by simp [hc'])) (by simp)]
      simp
  have := aux w [] h (by simpa using hne)
  simpa [words] using this

/-- The characters of the pieces are characters of the text. -/
theorem mem_piece (ws : Char → Bool) (l w : Text) (h : w ∈ Spec.pieces ws l) : ∀ c ∈ w, c ∈ l := by
  have key : ∀ (l : Text), ∀ w ∈ l.splitOnP ws, ∀ c ∈ w, c ∈ l := by
    intro l
    induction l with
    | nil => intro w hw c hc; simp at hw; subst hw; simp at hc
    | cons x l ih =>
      intro w hw c hc
      rw [List.splitOnP_cons_eq_if_modifyHead] at hw
      split at hw
      · rcases List.mem_cons.mp hw with rfl | hw
        · simp at hc
        · exact List.mem_cons_of_mem _ (ih w hw c hc)
      · cases hs : l.splitOnP ws with
        | nil => rw [hs] at hw; simp at hw
        | cons a b =>
          rw [hs] at hw
          simp only [List.modifyHead_cons, List.mem_cons] at hw
          rcases hw with rfl | hw
          · rcases List.mem_cons.mp hc with rfl | hc
            · simp
            · exact List.mem_cons_of_mem _ (ih a (by rw [hs]; simp) c hc)
          · exact List.mem_cons_of_mem _ (ih w (by rw [hs]; simp [hw]) c hc)
  exact key l w (List.mem_filter.mp h).1

/-! ### Stripping -/

theorem dropWhile_split (ws : Char → Bool) (l : Text) : ∃ a, l = a ++ l.dropWhile ws ∧ ∀ c ∈ a, ws c = true :=
  ⟨l.takeWhile ws, (List.takeWhile_append_dropWhile).symm, fun c hc => by simpa using List.mem_takeWhile_imp hc⟩

theorem strip_split (ws : Char → Bool) (l : Text) : ∃ a b, l = a ++ strip ws l ++ b ∧
    (∀ c ∈ a, ws c = true) ∧ ∀ c ∈ b, ws c = true := by
  obtain ⟨a, h1, h2⟩ := dropWhile_split ws l
  obtain ⟨b, h3, h4⟩ := dropWhile_split ws (l.dropWhile ws).reverse
  refine ⟨a, b.reverse, ?_, h2, fun c hc => h4 c (List.mem_reverse.mp hc)⟩
  have : l.dropWhile ws = strip ws l ++ b.reverse := by
    have := congrArg List.reverse h3
    simpa [strip] using this
  rw [List.append_assoc, ← this]
  exact h1

theorem pieces_strip (ws : Char → Bool) (l : Text) : Spec.pieces ws (strip ws l) = Spec.pieces ws l := by
  obtain ⟨a, b, h, ha, hb⟩ := strip_split ws l
  conv_rhs => rw [h]
  rw [pieces_append_ws ws b _ hb, pieces_ws_append ws a _ ha]

/-- Stripping a text that ends with something solid followed by white space. -/
theorem strip_end (ws : Char → Bool) (x b : Text) (c : Char) (hc : ws c = false) (hb : ∀ d ∈ b, ws d = true) :
    strip ws (x ++ [c] ++ b) = (x ++ [c]).dropWhile ws := by
  have h1 : (x ++ [c] ++ b).dropWhile ws = (x ++ [c]).dropWhile ws ++ b := by
    rw [List.dropWhile_append]
    split
    · rename_i he
      have : ∀ d ∈ x ++ [c], ws d = true := by
        have := List.isEmpty_iff.mp he
        exact List.dropWhile_eq_nil_iff.mp this
      have := this c (by simp)
      rw [hc] at this; cases this
    · rfl
  have h2 : ∃ y, (x ++ [c]).dropWhile ws = y ++ [c] := by
    rw [List.dropWhile_append]
    split
    · exact ⟨[], by simp [hc]⟩
    · exact ⟨_, rfl⟩
  obtain ⟨y, hy⟩ := h2
  rw [strip, h1, hy]
  simp only [List.reverse_append, List.reverse_cons, List.reverse_nil, List.nil_append, List.cons_append]
  rw [List.dropWhile_append_of_pos (by simpa using hb), List.dropWhile_cons, hc]
  simp

theorem strip_ws (ws : Char → Bool) (l : Text) (h : ∀ c ∈ l, ws c = true) : strip ws l = [] := by
  have : l.dropWhile ws = [] := List.dropWhile_eq_nil_iff.mpr h
  simp [strip, this]

theorem strip_getLast (ws : Char → Bool) (l : Text) (c : Char) (h : (strip ws l).getLast? = some c) : c ∈ l := by
  obtain ⟨a, b, he, _, _⟩ := strip_split ws l
  rw [he]
  have := List.mem_of_getLast? h
  simp [this]

/-! ### The rule (C42) -/

/-- A text that may be followed by a continuation: it is empty or ends with white space. -/
def MayContinue (ws : Char → Bool) (l : Text) : Prop := ∀ x c, l = x ++ [c] → ws c = true

theorem filter_none (ws : Char → Bool) (l : Text) (h : '\\' ∉ l) :
    (Spec.pieces ws l).filter (fun d => !decide (d = ['\\'])) = Spec.pieces ws l := by
  apply List.filter_eq_self.mpr
  intro w hw
  simp only [Bool.not_eq_true', decide_eq_false_iff_not]
  rintro rfl
  exact h (mem_piece ws l _ hw '\\' (by simp))

/-- The words of a continued line. -/
theorem pieces_continued (ws : Char → Bool) (hws : WsOk ws) (l : Text) (h : '\\' ∉ l) (hc : MayContinue ws l) :
    (Spec.pieces ws (l ++ ['\\'])).filter (fun d => !decide (d = ['\\'])) = Spec.pieces ws l := by
  have hb : Spec.pieces ws ['\\'] = [['\\']] := pieces_word ws _ (by simp) (by
    intro c hc; simp only [List.mem_singleton] at hc; subst hc; exact hws.backslash)
  rcases List.eq_nil_or_concat l with rfl | ⟨x, c, rfl⟩
  · rw [List.nil_append, hb, pieces_nil]; simp
  · have hcw := hc x c (by simp)
    rw [List.concat_eq_append, pieces_append ws c hcw, hb, List.filter_append,
      filter_none ws x (fun hm => h (by simp [hm]))]
    rw [pieces_append_ws ws [c] x (by intro d hd; simp only [List.mem_singleton] at hd; subst hd; exact hcw)]
    simp

theorem joined_cons (ws : Char → Bool) (hws : WsOk ws) (l : Text) (m : Text) (ms : List Text) :
    Spec.prerequisites ws (l :: m :: ms) = Spec.pieces ws l ++ Spec.prerequisites ws (m :: ms) := by
  simp only [Spec.prerequisites, Spec.joined]
  exact pieces_append ws ' ' hws.blank _ _

theorem dropWhile_suffix_pieces (ws : Char → Bool) (l : Text) : Spec.pieces ws (l.dropWhile ws) = Spec.pieces ws l := by
  obtain ⟨a, h, ha⟩ := dropWhile_split ws l
  conv_rhs => rw [h]
  rw [pieces_ws_append ws a _ ha]

/-- The lines after the first. -/
theorem parse_rest (ws : Char → Bool) (hws : WsOk ws) (rest : List Text) : ∀ (parts : List Text), parts ≠ [] →
    (∀ p ∈ parts, '\\' ∉ p) → (∀ p ∈ parts.dropLast, MayContinue ws p) →
    ((∃ p, parts.getLast? = some p ∧ ∃ c ∈ p, ws c = false) ∨ rest = []) →
    parseRule ws true (Spec.physical parts ++ rest) = .ok (Spec.prerequisites ws parts) := by
  intro parts
  induction parts with
  | nil => intro h; exact absurd rfl h
  | cons p parts ih =>
    intro _ hb hc hl
    cases parts with
    | nil =>
      simp only [Spec.physical, List.cons_append, List.nil_append, parseRule, if_true]
      have hp : Spec.pieces ws (strip ws (p ++ ['\n'])) = Spec.pieces ws p := by
        rw [pieces_strip, pieces_append_ws ws ['\n'] p (by
          intro d hd; simp only [List.mem_singleton] at hd; subst hd; exact hws.newline)]
      have hnb : '\\' ∉ strip ws (p ++ ['\n']) := by
        intro hm
        obtain ⟨a, b, he, _, _⟩ := strip_split ws (p ++ ['\n'])
        have : '\\' ∈ p ++ ['\n'] := by rw [he]; simp [hm]
        simp only [List.mem_append, List.mem_singleton] at this
        rcases this with h | h
        · exact hb p (by simp) h
        · revert h; decide
      by_cases hs : strip ws (p ++ ['\n']) = []
      · rw [if_pos hs]
        rw [hs, pieces_nil] at hp
        have hrest : rest = [] := by
          rcases hl with ⟨q, hq, c, hcm, hcw⟩ | h
          · exfalso
            simp only [List.getLast?_singleton, Option.some.injEq] at hq
            subst hq
            obtain ⟨a, b, he, ha, hb'⟩ := strip_split ws (p ++ ['\n'])
            rw [hs, List.append_nil] at he
            have : c ∈ a ++ b := by rw [← he]; simp [hcm]
            rcases List.mem_append.mp this with h | h
            · rw [ha c h] at hcw; cases hcw
            · rw [hb' c h] at hcw; cases hcw
          · exact h
        subst hrest
        simp only [parseRule, Spec.prerequisites, Spec.joined, ← hp]
      · rw [if_neg hs]
        have hlast : ¬ (strip ws (p ++ ['\n'])).getLast? = some '\\' := fun h => hnb (List.mem_of_getLast? h)
        simp only [hlast, if_false, words_spec]
        rw [filter_none ws _ hnb, hp]
        rfl
    | cons q parts =>
      have hcp : MayContinue ws p := hc p (by simp [List.dropLast])
      have hrec := ih (by simp) (fun p' hp' => hb p' (List.mem_cons_of_mem _ hp'))
        (fun p' hp' => hc p' (by simp only [List.dropLast_cons_cons]; exact List.mem_cons_of_mem _ hp'))
        (by
          rcases hl with ⟨z, hz, h⟩ | h
          · exact .inl ⟨z, by simpa using hz, h⟩
          · exact .inr h)
      rw [Spec.physical, List.cons_append, parseRule]
      · have hline : strip ws (p ++ ['\\', '\n']) = (p ++ ['\\']).dropWhile ws := by
          have := strip_end ws p ['\n'] '\\' hws.backslash (by
            intro d hd; simp only [List.mem_singleton] at hd; subst hd; exact hws.newline)
          simpa using this
        have hlast : ((p ++ ['\\']).dropWhile ws).getLast? = some '\\' := by
          rw [List.dropWhile_append]
          split
          · simp [hws.backslash]
          · simp
        have hne : (p ++ ['\\']).dropWhile ws ≠ [] := by
          intro h; rw [h] at hlast; simp at hlast
        simp only [hline, if_true]
        rw [if_neg hne]
        simp only [hlast, if_true, hrec, words_spec, dropWhile_suffix_pieces]
        rw [pieces_continued ws hws p (hb p (by simp)) hcp, joined_cons ws hws]
      · intro h; cases h

theorem afterColon_append (t b : Text) (h : ':' ∉ t) : afterColon (t ++ ':' :: b) = some b := by
  induction t with
  | nil => simp [afterColon]
  | cons c t ih =>
    simp only [List.mem_cons, not_or] at h
    simp only [List.cons_append, afterColon]
    rw [if_neg (fun e => h.1 e.symm)]
    exact ih h.2

theorem afterColon_dropWhile (ws : Char → Bool) (hws : WsOk ws) (t b : Text) (h : ':' ∉ t) :
    afterColon ((t ++ ':' :: b).dropWhile ws) = some b := by
  have : (t ++ ':' :: b).dropWhile ws = t.dropWhile ws ++ ':' :: b := by
    rw [List.dropWhile_append]
    split
    · rename_i he
      rw [List.isEmpty_iff.mp he, List.dropWhile_cons, hws.colon]
      simp
    · rfl
  rw [this]
  apply afterColon_append
  intro hm
  obtain ⟨a, he, _⟩ := dropWhile_split ws t
  exact h (by rw [he]; simp [hm])

/-- C42: for every rule whose target has no colon, whose text has no backslashes besides those that
continue lines, and whose continued lines have white space before the backslash, the prerequisites
are returned: exactly the words of the joined lines, in order. Leading blank lines are skipped and
what follows the rule is not read. -/
theorem rule_prerequisites (ws : Char → Bool) (hws : WsOk ws) (blank : List Text) (hblank : ∀ l ∈ blank, ∀ c ∈ l, ws c = true)
    (target first : Text) (parts rest : List Text) (ht : ':' ∉ target)
    (hb : ∀ p ∈ first :: parts, '\\' ∉ p) (hc : ∀ p ∈ (first :: parts).dropLast, MayContinue ws p)
    (hl : (∃ p, parts.getLast? = some p ∧ ∃ c ∈ p, ws c = false) ∨ parts = [] ∨ rest = []) :
    parseRule ws false (blank ++ Spec.physical ((target ++ [':'] ++ first) :: parts) ++ rest) =
      .ok (Spec.prerequisites ws (first :: parts)) := by
  induction blank with
  | cons l blank ih =>
    have := strip_ws ws l (hblank l (by simp))
    rw [List.cons_append, List.cons_append, parseRule]
    simp only [this, if_true]
    exact ih (fun l' hl' => hblank l' (List.mem_cons_of_mem _ hl'))
  | nil =>
    rw [List.nil_append]
    have hfirst : '\\' ∉ first := hb first (by simp)
    cases parts with
    | nil =>
      simp only [Spec.physical, List.cons_append, List.nil_append, parseRule]
      -- the body is the text after the colon, without white space at its end
      have hbody : ∃ body, afterColon (strip ws (target ++ [':'] ++ first ++ ['\n'])) = some body ∧
          Spec.pieces ws body = Spec.pieces ws first ∧ '\\' ∉ body := by
        rcases List.eq_nil_or_concat ((first.reverse.dropWhile ws).reverse) with hr | ⟨x, c, hx⟩
        · have hall : ∀ c ∈ first, ws c = true := by
            have := List.reverse_eq_nil_iff.mp hr
            have := List.dropWhile_eq_nil_iff.mp this
            intro c hcm
            exact this c (List.mem_reverse.mpr hcm)
          have := strip_end ws target (first ++ ['\n']) ':' hws.colon (by
            intro d hd
            rcases List.mem_append.mp hd with h | h
            · exact hall d h
            · simp only [List.mem_singleton] at h; subst h; exact hws.newline)
          rw [← List.append_assoc] at this
          refine ⟨[], ?_, ?_, by simp⟩
          · rw [this]; exact afterColon_dropWhile ws hws target [] ht
          · rw [pieces_nil, pieces_ws ws first hall]
        · obtain ⟨a, ha, haw⟩ := dropWhile_split ws first.reverse
          have hf : first = x ++ [c] ++ a.reverse := by
            have h1 := congrArg List.reverse ha
            rw [List.reverse_reverse, List.reverse_append, hx, List.concat_eq_append] at h1
            exact h1
          have hcw : ws c = false := by
            have h1 := congrArg List.reverse hx
            rw [List.reverse_reverse, List.concat_eq_append, List.reverse_append] at h1
            simp only [List.reverse_cons, List.reverse_nil, List.nil_append, List.cons_append] at h1
            have := List.head?_dropWhile_not ws first.reverse
            rw [h1] at this
            simpa using this
          have := strip_end ws (target ++ [':'] ++ x) (a.reverse ++ ['\n']) c hcw (by
            intro d hd
            rcases List.mem_append.mp hd with h | h
            · exact haw d (List.mem_reverse.mp h)
            · simp only [List.mem_singleton] at h; subst h; exact hws.newline)
          have e : target ++ [':'] ++ first ++ ['\n'] = target ++ [':'] ++ x ++ [c] ++ (a.reverse ++ ['\n']) := by
            rw [hf]; simp
          refine ⟨x ++ [c], ?_, ?_, ?_⟩
          · rw [e, this]
            have := afterColon_dropWhile ws hws target (x ++ [c]) ht
            simpa using this
          · rw [hf, pieces_append_ws ws a.reverse _ (fun d hd => haw d (List.mem_reverse.mp hd))]
          · intro hm; exact hfirst (by rw [hf]; exact List.mem_append_left _ hm)
      obtain ⟨body, h1, h2, h3⟩ := hbody
      have hne : strip ws (target ++ [':'] ++ first ++ ['\n']) ≠ [] := by
        intro h; rw [h] at h1; simp [afterColon] at h1
      rw [if_neg hne]
      simp only [Bool.false_eq_true, if_false, h1]
      have hlast : ¬ body.getLast? = some '\\' := fun h => h3 (List.mem_of_getLast? h)
      simp only [hlast, if_false, words_spec]
      rw [filter_none ws _ h3, h2]
      rfl
    | cons q parts =>
      have hcp : MayContinue ws first := hc first (by simp [List.dropLast])
      have hrec := parse_rest ws hws rest (q :: parts) (by simp) (fun p' hp' => hb p' (List.mem_cons_of_mem _ hp'))
        (fun p' hp' => hc p' (by simp only [List.dropLast_cons_cons]; exact List.mem_cons_of_mem _ hp'))
        (by
          rcases hl with h | h | h
          · exact .inl h
          · cases h
          · exact .inr h)
      rw [Spec.physical, List.cons_append, parseRule]
      · have hline : strip ws (target ++ [':'] ++ first ++ ['\\', '\n']) = (target ++ ':' :: (first ++ ['\\'])).dropWhile ws := by
          have := strip_end ws (target ++ [':'] ++ first) ['\n'] '\\' hws.backslash (by
            intro d hd; simp only [List.mem_singleton] at hd; subst hd; exact hws.newline)
          simpa using this
        have h1 : afterColon (strip ws (target ++ [':'] ++ first ++ ['\\', '\n'])) = some (first ++ ['\\']) := by
          rw [hline]; exact afterColon_dropWhile ws hws target (first ++ ['\\']) ht
        have hne : strip ws (target ++ [':'] ++ first ++ ['\\', '\n']) ≠ [] := by
          intro h; rw [h] at h1; simp [afterColon] at h1
        simp only [if_neg hne, Bool.false_eq_true, if_false, h1]
        have hlast : (first ++ ['\\']).getLast? = some '\\' := by simp
        simp only [hlast, if_true, hrec, words_spec]
        rw [pieces_continued ws hws first hfirst hcp, joined_cons ws hws]
      · intro h; cases h

/-- C42: a file whose first line that is not blank has no colon is rejected. -/
theorem rule_without_colon (ws : Char → Bool) (blank : List Text) (hblank : ∀ l ∈ blank, ∀ c ∈ l, ws c = true)
    (line : Text) (rest : List Text) (hn : ':' ∉ line) (hs : ∃ c ∈ line, ws c = false) :
    ∃ e, parseRule ws false (blank ++ line :: rest) = .error e := by
  induction blank with
  | cons l blank ih =>
    have := strip_ws ws l (hblank l (by simp))
    rw [List.cons_append, parseRule]
    simp only [this, if_true]
    exact ih (fun l' hl' => hblank l' (List.mem_cons_of_mem _ hl'))
  | nil =>
    rw [List.nil_append, parseRule]
    obtain ⟨a, b, he, ha, hb⟩ := strip_split ws line
    have hne : strip ws line ≠ [] := by
      intro h
      obtain ⟨c, hcm, hcw⟩ := hs
      rw [h, List.append_nil] at he
      rw [he] at hcm
      rcases List.mem_append.mp hcm with h | h
      · rw [ha c h] at hcw; cases hcw
      · rw [hb c h] at hcw; cases hcw
    have hnone : ∀ l : Text, ':' ∉ l → afterColon l = none := by
      intro l
      induction l with
      | nil => intro _; rfl
      | cons c l ih =>
        intro h
        simp only [List.mem_cons, not_or] at h
        simp only [afterColon]
        rw [if_neg (fun e => h.1 e.symm)]
        exact ih h.2
    have := hnone (strip ws line) (fun hm => hn (by rw [he]; simp [hm]))
    simp only [if_neg hne, Bool.false_eq_true, if_false, this]
    exact ⟨_, rfl⟩

/-- The parts that the runner writes. -/
def writtenParts : List Text → List Text
  | [] => [[' ', ' ']]
  | [f] => [' ' :: ' ' :: f]
  | f :: fs => (' ' :: ' ' :: f ++ [' ']) :: writtenParts fs

theorem writeRule_physical (target : Text) (files : List Text) :
    writeRule target files = Spec.physical ((target ++ [':'] ++ [' ']) :: writtenParts files) := by
  have key : ∀ (fs : List Text) (f : Text), writeRule.lines f fs = Spec.physical (writtenParts (f :: fs)) := by
    intro fs
    induction fs with
    | nil => intro f; simp [writeRule.lines, writtenParts, Spec.physical]
    | cons g gs ih =>
      intro f
      rw [writeRule.lines, ih g]
      cases gs <;> simp [writtenParts, Spec.physical]
  cases files with
  | nil => simp [writeRule, writtenParts, Spec.physical]
  | cons f fs =>
    rw [writeRule, key]
    cases fs <;> simp [writtenParts, Spec.physical]

theorem writtenParts_ne (files : List Text) : writtenParts files ≠ [] := by
  match files with
  | [] => simp [writtenParts]
  | [f] => simp [writtenParts]
  | f :: g :: fs => simp [writtenParts]

theorem writtenParts_prereq (ws : Char → Bool) (hws : WsOk ws) : ∀ (files : List Text),
    (∀ f ∈ files, f ≠ [] ∧ ∀ c ∈ f, ws c = false) → Spec.prerequisites ws (writtenParts files) = files := by
  have hlead : ∀ l : Text, Spec.pieces ws (' ' :: ' ' :: l) = Spec.pieces ws l := by
    intro l
    have := pieces_ws_append ws [' ', ' '] l (by intro c hc; simp at hc; subst hc; exact hws.blank)
    simpa using this
  intro files
  induction files with
  | nil =>
    intro _
    simp only [writtenParts, Spec.prerequisites, Spec.joined]
    rw [hlead, pieces_nil]
  | cons f fs ih =>
    intro h
    obtain ⟨h1, h2⟩ := h f (by simp)
    cases fs with
    | nil =>
      simp only [writtenParts, Spec.prerequisites, Spec.joined]
      rw [hlead, pieces_word ws f h1 h2]
    | cons g gs =>
      have hih := ih (fun f' hf' => h f' (List.mem_cons_of_mem _ hf'))
      simp only [writtenParts]
      cases hw : writtenParts (g :: gs) with
      | nil => exact absurd hw (writtenParts_ne _)
      | cons m ms =>
        rw [hw] at hih
        rw [joined_cons ws hws, hih]
        have : ' ' :: ' ' :: f ++ [' '] = ' ' :: ' ' :: (f ++ [' ']) := by simp
        rw [this, hlead, pieces_append_ws ws [' '] f (by intro c hc; simp at hc; subst hc; exact hws.blank),
          pieces_word ws f h1 h2]
        rfl

theorem writtenParts_clean (ws : Char → Bool) (hws : WsOk ws) : ∀ (files : List Text), (∀ f ∈ files, '\\' ∉ f) →
    (∀ p ∈ writtenParts files, '\\' ∉ p) ∧ (∀ p ∈ (writtenParts files).dropLast, MayContinue ws p) := by
  intro files
  induction files with
  | nil => intro _; simp [writtenParts]
  | cons f fs ih =>
    intro h
    have hf := h f (by simp)
    cases fs with
    | nil => simp [writtenParts, hf]
    | cons g gs =>
      obtain ⟨i1, i2⟩ := ih (fun f' hf' => h f' (List.mem_cons_of_mem _ hf'))
      cases hw : writtenParts (g :: gs) with
      | nil => exact absurd hw (writtenParts_ne _)
      | cons m ms =>
        rw [hw] at i1 i2
        simp only [writtenParts, hw, List.dropLast_cons_cons]
        constructor
        · intro p hp
          rcases List.mem_cons.mp hp with rfl | hp
          · simp [hf]
          · exact i1 p hp
        · intro p hp
          rcases List.mem_cons.mp hp with rfl | hp
          · intro x c hx
            have := congrArg List.getLast? hx
            rw [List.getLast?_append, List.getLast?_append] at this
            simp only [List.getLast?_singleton, Option.some_or, Option.some.injEq] at this
            rw [← this]
            exact hws.blank
          · exact i2 p hp

/-- C42: reading the rule that the runner writes gives back the files, for all lists of files without
white space and backslashes. -/
theorem write_then_parse (ws : Char → Bool) (hws : WsOk ws) (target : Text) (ht : ':' ∉ target) (files : List Text)
    (h : ∀ f ∈ files, f ≠ [] ∧ ∀ c ∈ f, ws c = false ∧ c ≠ '\\') :
    parseRule ws false (writeRule target files) = .ok files := by
  have hb : ∀ f ∈ files, '\\' ∉ f := fun f hf hm => ((h f hf).2 _ hm).2 rfl
  obtain ⟨c1, c2⟩ := writtenParts_clean ws hws files hb
  have := rule_prerequisites ws hws [] (by simp) target [' '] (writtenParts files) [] ht
    (by
      intro p hp
      rcases List.mem_cons.mp hp with rfl | hp
      · simp
      · exact c1 p hp)
    (by
      intro p hp
      cases hw : writtenParts files with
      | nil => exact absurd hw (writtenParts_ne _)
      | cons m ms =>
        rw [hw, List.dropLast_cons_cons] at hp
        rcases List.mem_cons.mp hp with rfl | hp
        · intro x c hx
          have := congrArg List.getLast? hx
          simp at this
          rw [← this]
          exact hws.blank
        · exact c2 p (by rw [hw]; exact hp))
    (.inr (.inr rfl))
  rw [List.nil_append, List.append_nil] at this
  rw [writeRule_physical, this]
  cases hw : writtenParts files with
  | nil => exact absurd hw (writtenParts_ne _)
  | cons m ms =>
    rw [joined_cons ws hws, ← hw, writtenParts_prereq ws hws files (fun f hf => ⟨(h f hf).1, fun c hc => ((h f hf).2 c hc).1⟩)]
    rw [pieces_ws ws [' '] (by intro c hc; simp at hc; subst hc; exact hws.blank)]
    rfl

/-- White space for the examples. -/
def ws0 (c : Char) : Bool := c == ' ' || c == '\n' || c == '\t'

example : WsOk ws0 := ⟨rfl, rfl, rfl, rfl⟩

/-- The hypotheses can be met: a rule over two lines. -/
example : (parseRule ws0 false ["a.o: b.c \\\n".toList, " c.h d:e.h\n".toList, "f: g\n".toList]).toOption =
    some ["b.c".toList, "c.h".toList, "d:e.h".toList] := by decide

/-- C42 needs the condition on white space: a name that touches the backslash keeps it. -/
theorem backslash_kept : (parseRule ws0 false ["a: b\\\n".toList, "c\n".toList]).toOption = some ["b\\".toList, "c".toList] := by
  decide

/-- C42 needs the condition on backslashes: a blank in a file name, which the preprocessor writes as
a backslash and a blank, splits the name. -/
theorem escaped_blank_splits : (parseRule ws0 false ["a: b\\ c\n".toList]).toOption = some ["b\\".toList, "c".toList] := by
  decide

/-- C42: the rule is not ended by a blank line after a continuation; the next rule is swallowed. -/
theorem blank_line_does_not_end : (parseRule ws0 false ["a: b \\\n".toList, "\n".toList, "c: d\n".toList]).toOption =
    some ["b".toList, "c:".toList, "d".toList] := by
  decide

end Verif.Makefile
