import Verif.Diag.Spec
import Mathlib.Tactic.ByContra

/-!
# C136: the tools say what is wrong, as loudly as they were asked to
-/

namespace Verif.Diag

/-! ### Verbosity -/

/-- The number of a loudness. -/
theorem verbosity_append (fs : List Flag) (f : Flag) : verbosity (fs ++ [f]) = f.const := by
  simp [verbosity]

/-- C136: a message is seen exactly if the last of the flags asks for messages of its level. -/
theorem seen_iff {fs : List Flag} {n : Loudness} (h : Asked fs n) (l : Level) : shown (verbosity fs) l = true ↔ Audible n l := by
  cases h with
  | default => cases l <;> simp [verbosity, shown, threshold, Level.number, Audible]
  | quiet fs => rw [verbosity_append]; cases l <;> simp [Flag.const, shown, threshold, Level.number, Audible]
  | verbose fs => rw [verbosity_append]; cases l <;> simp [Flag.const, shown, threshold, Level.number, Audible]
  | debug fs => rw [verbosity_append]; cases l <;> simp [Flag.const, shown, threshold, Level.number, Audible]

/-- Every list of flags asks for something, and only for one thing. -/
theorem asked (fs : List Flag) : ∃ n, Asked fs n := by
  rcases List.eq_nil_or_concat fs with rfl | ⟨gs, f, rfl⟩
  · exact ⟨_, .default⟩
  · rw [List.concat_eq_append]
    cases f
    · exact ⟨_, .quiet gs⟩
    · exact ⟨_, .verbose gs⟩
    · exact ⟨_, .debug gs⟩

theorem seen_append (v : Nat) (a b : Log) : seen v (a ++ b) = seen v a ++ seen v b := by simp [seen]

theorem seen_level (v : Nat) (l : Level) (ts : List Text) : seen v (ts.map fun t => (l, t)) = if shown v l = true then ts else [] := by
  induction ts with
  | nil => simp [seen]
  | cons t ts ih =>
    simp only [seen, List.map_cons, List.filter_cons] at ih ⊢
    by_cases h : shown v l = true
    · rw [if_pos h] at ih ⊢
      simp only [h, if_true, List.map_cons, List.cons.injEq, true_and]
      exact ih
    · rw [if_neg h] at ih ⊢
      simp only [Bool.not_eq_true] at h
      simp only [h, Bool.false_eq_true, if_false] at ih ⊢
      exact ih

theorem seen_die (v : Nat) (lines : List Text) (tb : Text) : seen v (die lines tb) =
    (if shown v .error = true then lines else []) ++ (if shown v .debug = true then [traceback tb] else []) := by
  unfold die
  rw [seen_append, seen_level, show ([(Level.debug, traceback tb)] : Log) = [traceback tb].map (fun t => (Level.debug, t)) from rfl, seen_level]

/-! ### The parser -/

/-- C136: if a specification has an error, the parser fails, saves nothing and, unless it was asked to be silent, says
each line of the error, in order, and nothing else (but for the traceback, if everything was asked for). -/
theorem parser_error {α : Type} {fs : List Flag} {n : Loudness} (h : Asked fs n) (lines : List Text) (tb : Text) :
    ∃ o : Outcome α, parserMain fs (.error (lines, tb)) = o ∧ o.code ≠ 0 ∧ o.saved = none ∧
      (n = .silent → o.err = []) ∧ (n = .normal ∨ n = .verbose → o.err = lines) ∧
      (n = .everything → ∃ t, o.err = lines ++ [t] ∧ tb <:+: t) := by
  refine ⟨_, rfl, by simp [parserMain], rfl, ?_, ?_, ?_⟩
  all_goals
    intro hn
    simp only [parserMain, seen_die]
    have he := seen_iff h .error
    have hd := seen_iff h .debug
  · subst hn
    rw [if_neg (fun x => he.mp x), if_neg (fun x => hd.mp x)]
    rfl
  · rcases hn with rfl | rfl
    · rw [if_pos (he.mpr (by simp [Audible])), if_neg (fun x => (hd.mp x).1 rfl)]
      simp
    · rw [if_pos (he.mpr (by simp [Audible])), if_neg (fun x => (hd.mp x) rfl)]
      simp
  · subst hn
    rw [if_pos (he.mpr trivial), if_pos (hd.mpr trivial)]
    exact ⟨_, rfl, _, _, rfl⟩

/-- C136: a specification without errors is saved, with nothing said and success reported; whatever the flags. -/
theorem parser_success {α : Type} (fs : List Flag) (ast : α) : parserMain fs (.ok ast) = ⟨0, [], some ast⟩ := rfl

/-- C136: the flags change only what is said. -/
theorem flags_only_speak {α : Type} (fs gs : List Flag) (p : Except (List Text × Text) α) :
    (parserMain fs p).code = (parserMain gs p).code ∧ (parserMain fs p).saved = (parserMain gs p).saved := by
  cases p <;> exact ⟨rfl, rfl⟩

/-- **Disagreement with C136.** Asked to be quiet, a tool that fails does not say why; all that is left is the exit
code. The help says that the flag turns off diagnostics, but this includes the error. -/
theorem quiet_fails_silently {α : Type} (lines : List Text) (tb : Text) :
    (parserMain (α := α) [.quiet] (.error (lines, tb))).err = [] ∧ (parserMain (α := α) [.quiet] (.error (lines, tb))).code = -1 := by
  obtain ⟨o, rfl, _, _, h, _⟩ := parser_error (α := α) (.quiet []) lines tb
  exact ⟨h rfl, rfl⟩

/-! ### Names of theories -/

theorem toNat_le (a b : Char) : (a ≤ b) ↔ a.toNat ≤ b.toNat := by
  rw [Char.le_def]
  exact UInt32.le_iff_toNat_le

theorem letter_iff (c : Char) : letter c = true ↔ IsLetter c := by
  simp only [letter, Bool.or_eq_true, Bool.and_eq_true, decide_eq_true_eq, toNat_le, IsLetter]
  rfl

theorem word_iff (c : Char) : word c = true ↔ IsLetter c ∨ IsDigit c ∨ c = '_' := by
  unfold word
  rw [Bool.or_eq_true, Bool.or_eq_true, letter_iff, or_assoc]
  simp only [Bool.and_eq_true, decide_eq_true_eq, toNat_le, IsDigit]
  rfl

theorem dropWhile_nil (p : Char → Bool) : ∀ r : Text, r.dropWhile p = [] ↔ ∀ x ∈ r, p x = true
  | [] => by simp
  | c :: r => by
    by_cases h : p c = true
    · rw [List.dropWhile_cons_of_pos h, dropWhile_nil p r]
      simp [h]
    · rw [List.dropWhile_cons_of_neg h]
      simp [h]

theorem dropWhile_one (p : Char → Bool) (e : Char) (he : p e = false) : ∀ r : Text,
    r.dropWhile p = [e] ↔ ∃ q, r = q ++ [e] ∧ ∀ x ∈ q, p x = true
  | [] => by simp
  | c :: r => by
    by_cases h : p c = true
    · rw [List.dropWhile_cons_of_pos h, dropWhile_one p e he r]
      constructor
      · rintro ⟨q, rfl, hq⟩
        exact ⟨c :: q, rfl, by simpa [h] using hq⟩
      · rintro ⟨q, hr, hq⟩
        cases q with
        | nil =>
          simp only [List.nil_append, List.cons.injEq] at hr
          rw [hr.1, he] at h
          cases h
        | cons d q =>
          simp only [List.cons_append, List.cons.injEq] at hr
          exact ⟨q, hr.2, fun x hx => hq x (by simp [hx])⟩
    · rw [List.dropWhile_cons_of_neg h]
      constructor
      · intro hr
        exact ⟨[], by simpa using hr, by simp⟩
      · rintro ⟨q, hr, hq⟩
        cases q with
        | nil => simpa using hr
        | cons d q =>
          simp only [List.cons_append, List.cons.injEq] at hr
          exact absurd (hr.1 ▸ hq d (by simp)) h

/-- C136: a base name for theories is accepted if it is an identifier, or one with a newline after it. That it is
accepted only for identifiers is missing, and false. -/
theorem base_name_partial (s : Text) : baseNameOk s = true ↔ Identifier s ∨ ∃ t, s = t ++ ['\n'] ∧ Identifier t := by
  cases s with
  | nil => simp [baseNameOk, Identifier]
  | cons c r =>
    simp only [baseNameOk, Bool.and_eq_true, Bool.or_eq_true, decide_eq_true_eq, letter_iff, dropWhile_nil,
      dropWhile_one word '\n' (by decide), word_iff]
    constructor
    · rintro ⟨hc, h | ⟨q, rfl, h⟩⟩
      · exact .inl ⟨c, r, rfl, hc, h⟩
      · exact .inr ⟨c :: q, rfl, c, q, rfl, hc, h⟩
    · rintro (⟨c', r', he, hc, h⟩ | ⟨t, ht, c', r', rfl, hc, h⟩)
      · simp only [List.cons.injEq] at he
        obtain ⟨rfl, rfl⟩ := he
        exact ⟨hc, .inl h⟩
      · simp only [List.cons_append, List.cons.injEq] at ht
        obtain ⟨rfl, rfl⟩ := ht
        exact ⟨hc, .inr ⟨r', rfl, h⟩⟩

theorem newline_not_identifier (t : Text) : ¬ Identifier (t ++ ['\n']) := by
  rintro ⟨c, r, he, hc, h⟩
  have hm : '\n' ∈ c :: r := by rw [← he]; simp
  rcases List.mem_cons.mp hm with rfl | hm
  · revert hc; simp [IsLetter]
  · rcases h _ hm with h | h | h
    · revert h; simp [IsLetter]
    · revert h; simp [IsDigit]
    · revert h; decide

/-- **Disagreement with C136.** An identifier with a newline after it is accepted as a base name, although it is none:
the name of the theory is then broken over two lines. -/
theorem newline_accepted (t : Text) (h : Identifier t) : baseNameOk (t ++ ['\n']) = true ∧ ¬ Identifier (t ++ ['\n']) :=
  ⟨(base_name_partial _).mpr (.inr ⟨t, rfl, h⟩), newline_not_identifier t⟩

theorem demo_names : baseNameOk "my_System2".toList = true ∧ baseNameOk "2nd".toList = false ∧
    baseNameOk "a-b".toList = false ∧ baseNameOk "a\nb".toList = false ∧ baseNameOk [] = false := by decide +kernel

theorem takeWhile_all {p : Char → Bool} : ∀ {a b : Text}, (∀ x ∈ a, p x = true) → (∀ x y, b = x :: y → p x = false) →
    (a ++ b).takeWhile p = a
  | [], b, _, hb => by
    cases b with
    | nil => rfl
    | cons x y => simp [hb x y rfl]
  | c :: a, b, ha, hb => by
    simp only [List.cons_append, List.takeWhile_cons, ha c (by simp), if_true]
    rw [takeWhile_all (fun x hx => ha x (by simp [hx])) hb]

/-- The name of a file is what comes after the last slash. -/
theorem base_name_after_slash (dir name : Text) (h : '/' ∉ name) (hd : dir = [] ∨ ∃ d, dir = d ++ ['/']) : baseName (dir ++ name) = name := by
  unfold baseName
  rw [List.reverse_append, takeWhile_all, List.reverse_reverse]
  · intro x hx
    simp only [List.mem_reverse] at hx
    simp only [ne_eq, decide_not, Bool.not_eq_true', decide_eq_false_iff_not]
    rintro rfl
    exact h hx
  · intro x y hxy
    rcases hd with rfl | ⟨d, rfl⟩
    · simp at hxy
    · simp only [List.reverse_append, List.reverse_cons, List.reverse_nil, List.nil_append, List.cons_append, List.cons.injEq] at hxy
      rw [← hxy.1]
      simp

/-- C136: the file that a theory is written to must have the name of the theory, in any directory, with or without
`.thy` after it. -/
theorem outfile_named {thy name dir : Text} (h : '/' ∉ name) (hd : dir = [] ∨ ∃ d, dir = d ++ ['/']) :
    outfileOk thy (dir ++ name) = true ↔ name = thy ++ ".thy".toList ∨ (name = thy ∧ ¬ ∃ t, name = t ++ ".thy".toList) := by
  unfold outfileOk withoutThy
  rw [base_name_after_slash dir name h hd, decide_eq_true_eq]
  by_cases hs : ".thy".toList.isSuffixOf name = true
  · rw [if_pos hs]
    rw [List.isSuffixOf_iff_suffix] at hs
    obtain ⟨t, rfl⟩ := hs
    have h4 : (t ++ ".thy".toList).take ((t ++ ".thy".toList).length - 4) = t := by
      rw [List.length_append, show ".thy".toList.length = 4 from by decide +kernel, Nat.add_sub_cancel]
      exact List.take_left' rfl
    rw [h4]
    constructor
    · rintro rfl
      exact .inl rfl
    · rintro (h | ⟨_, h⟩)
      · exact (List.append_cancel_right h).symm
      · exact absurd ⟨t, rfl⟩ h
  · rw [if_neg hs]
    have hn : ¬ ∃ t, name = t ++ ".thy".toList := by
      rintro ⟨t, rfl⟩
      exact hs (by rw [List.isSuffixOf_iff_suffix]; exact ⟨t, rfl⟩)
    constructor
    · intro h
      exact .inr ⟨h.symm, hn⟩
    · rintro (h | ⟨h, _⟩)
      · exact absurd ⟨thy, h⟩ hn
      · exact h.symm

theorem demo_outfile : outfileOk "a_CDL".toList "build/thy/a_CDL.thy".toList = true ∧ outfileOk "a_CDL".toList "a_CDL".toList = true ∧
    outfileOk "a_CDL".toList "b/a_CDL.txt".toList = false ∧ outfileOk "a_CDL".toList "b/xa_CDL.thy".toList = false := by decide +kernel

/-! ### The types of attributes -/

theorem string_ne_int : ("string".toList : Text) ≠ "int".toList := by decide +kernel

/-- C136: the warnings about attributes are exactly those about strings set to something else and about integers set to
something that is no number, of attributes that are set; and they are made exactly if verbose output was asked for. -/
theorem warnings_exact (v : Nat) (is : List Inst) (conf : Text → Text → Value) (m : Level × Text) :
    m ∈ warnTypes v is conf ↔ 2 ≤ v ∧ ∃ i ∈ is, ∃ a ∈ i.attributes,
      (a.type = some "string".toList ∧ (conf i.name a.name) ≠ .none ∧ (∀ s, conf i.name a.name ≠ .str s) ∧ m = (.warning, notString i.name a.name)) ∨
      (a.type = some "int".toList ∧ (conf i.name a.name) ≠ .none ∧ (∀ n, conf i.name a.name ≠ .int n) ∧ (∀ b, conf i.name a.name ≠ .bool b) ∧
        conf i.name a.name ≠ .float ∧ m = (.warning, notInt i.name a.name)) := by
  unfold warnTypes
  by_cases hv : 2 ≤ v
  · rw [if_pos hv]
    simp only [List.mem_flatMap, hv, true_and]
    refine exists_congr fun i => and_congr_right fun _ => exists_congr fun a => and_congr_right fun _ => ?_
    unfold warnAttr
    by_cases hs : a.type = some "string".toList
    · have hi : a.type ≠ some "int".toList := by rw [hs]; intro h; exact string_ne_int (Option.some.inj h)
      cases hc : conf i.name a.name <;> simp [hs, Value.isNone, Value.isStr]
    · by_cases hi : a.type = some "int".toList
      · cases hc : conf i.name a.name <;> simp [hi, Value.isNone, Value.isNumber]
      · cases hn : (conf i.name a.name).isNone <;>
          simp only [hs, hi, decide_false, Bool.false_and, Bool.false_eq_true, if_false, if_true, ite_self, false_and, or_false, List.not_mem_nil]
  · rw [if_neg hv]
    simp [hv]

theorem seen_warnings {fs : List Flag} {n : Loudness} (h : Asked fs n) (is : List Inst) (conf : Text → Text → Value) :
    seen (verbosity fs) (warnTypes (verbosity fs) is conf) = (warnTypes (verbosity fs) is conf).map (·.2) := by
  unfold seen
  rw [List.filter_eq_self.mpr]
  intro m hm
  obtain ⟨hv, i, _, a, _, hcase⟩ := (warnings_exact _ _ _ _).mp hm
  have hw : m.1 = .warning := by
    rcases hcase with ⟨_, _, _, rfl⟩ | ⟨_, _, _, _, _, rfl⟩ <;> rfl
  rw [hw, seen_iff h]
  cases h with
  | default => simp [verbosity] at hv
  | quiet fs => rw [verbosity_append] at hv; simp [Flag.const] at hv
  | verbose fs => simp [Audible]
  | debug fs => trivial

/-- C136: no warning is made about attributes that are not arrays and whose values fit their types. Missing: arrays. -/
theorem fits_no_warning_partial (conf : Text → Text → Value) (i : Inst) (a : Attr) (ha : a.array = false)
    (hf : Fits a (conf i.name a.name)) : warnAttr conf i a = [] := by
  unfold warnAttr
  generalize conf i.name a.name = v at hf
  cases hf with
  | string ht _ => simp [Value.isNone, Value.isStr, ht]
  | int ht _ => simp [Value.isNone, Value.isNumber, ht]
  | strings _ h => rw [ha] at h; cases h
  | ints _ h => rw [ha] at h; cases h

/-- **Disagreement with C136.** An array of integers whose value is a list of integers is warned about as not being an
integer, and so is every array that is set to what it should be. -/
theorem arrays_warned (conf : Text → Text → Value) (i : Inst) (a : Attr) (ha : a.array = true) (hf : Fits a (conf i.name a.name)) :
    warnAttr conf i a ≠ [] := by
  unfold warnAttr
  generalize conf i.name a.name = v at hf
  cases hf with
  | string _ h => rw [ha] at h; cases h
  | int _ h => rw [ha] at h; cases h
  | strings ht _ _ => simp [Value.isNone, Value.isStr, ht]
  | ints ht _ _ => simp [Value.isNone, Value.isNumber, ht, Value.isStr]

/-- **Disagreement with C136.** An integer that is set to a fraction or to a truth value is not warned about. -/
theorem fractions_not_warned (conf : Text → Text → Value) (i : Inst) (a : Attr) (ht : a.type = some "int".toList)
    (hv : conf i.name a.name = .float ∨ ∃ b, conf i.name a.name = .bool b) :
    warnAttr conf i a = [] ∧ ¬ Fits a (conf i.name a.name) := by
  unfold warnAttr
  rcases hv with h | ⟨b, h⟩
  · rw [h]
    exact ⟨by simp [Value.isNone, Value.isNumber, ht], by intro hf; cases hf⟩
  · rw [h]
    exact ⟨by simp [Value.isNone, Value.isNumber, ht], by intro hf; cases hf⟩

/-! ### The runner -/

/-- C136: if every item renders, the runner succeeds and each text is written, whatever it says about types. -/
theorem runner_success {encoding : Text} (he : encoding.map Char.toLower = "utf-8".toList ∨ encoding.map Char.toLower = "utf8".toList)
    (fs : List Flag) (is : List Inst) (conf : Text → Text → Value) (ts : List Text) :
    ∃ o, runnerMain encoding fs is conf (ts.map .ok) = o ∧ o.code = 0 ∧ o.saved = some ts ∧
      o.err = (warnTypes (verbosity fs) is conf).map (·.2) := by
  have hr : ∀ ts : List Text, renderAll (ts.map .ok) = (ts, none) := by
    intro ts
    induction ts with
    | nil => rfl
    | cons t ts ih => simp [renderAll, ih]
  obtain ⟨n, hn⟩ := asked fs
  refine ⟨_, rfl, ?_⟩
  unfold runnerMain
  rw [if_pos he, hr]
  exact ⟨rfl, rfl, seen_warnings hn is conf⟩

/-- C136: if an item does not render, the runner fails, whatever comes after it, and, unless it was asked to be silent, it
says each line of the error with what was being rendered. What was rendered before is written. -/
theorem runner_error {encoding : Text} (he : encoding.map Char.toLower = "utf-8".toList ∨ encoding.map Char.toLower = "utf8".toList)
    {fs : List Flag} {n : Loudness} (h : Asked fs n) (is : List Inst) (conf : Text → Text → Value) (ts : List Text)
    (item : Text) (args lines : List Text) (tb : Text) (rest : List Rendered) :
    ∃ o, runnerMain encoding fs is conf (ts.map .ok ++ .error (item, args, lines, tb) :: rest) = o ∧ o.code ≠ 0 ∧ o.saved = some ts ∧
      (n = .silent → o.err = []) ∧
      (n ≠ .silent → ∀ l ∈ args, "While rendering ".toList ++ item ++ ": ".toList ++ l ∈ o.err) := by
  have hr : ∀ ts : List Text, renderAll (ts.map .ok ++ .error (item, args, lines, tb) :: rest) =
      (ts, some (die (renderingError item args lines) tb)) := by
    intro ts
    induction ts with
    | nil => rfl
    | cons t ts ih => simp only [List.map_cons, List.cons_append, renderAll, ih]
  refine ⟨_, rfl, ?_⟩
  unfold runnerMain
  rw [if_pos he, hr]
  have herr := seen_iff h .error
  have hdeb := seen_iff h .debug
  refine ⟨by simp, rfl, ?_, ?_⟩
  · intro hn
    subst hn
    simp only [seen_append, seen_die]
    rw [if_neg (fun x => herr.mp x), if_neg (fun x => hdeb.mp x)]
    have : warnTypes (verbosity fs) is conf = [] := by
      unfold warnTypes
      rw [if_neg]
      cases h
      rw [verbosity_append]
      simp [Flag.const]
    rw [this]
    rfl
  · intro hn l hl
    simp only [seen_append, seen_die]
    rw [if_pos (herr.mpr (by cases n <;> simp_all [Audible]))]
    simp only [renderingError, List.mem_append, List.mem_map]
    exact .inr (.inl (.inl ⟨l, hl, rfl⟩))

/-- C136: under a locale that is not UTF-8 nothing is rendered, and this is said whatever the flags. -/
theorem locale_refused {encoding : Text} (he : ¬ (encoding.map Char.toLower = "utf-8".toList ∨ encoding.map Char.toLower = "utf8".toList))
    (fs : List Flag) (is : List Inst) (conf : Text → Text → Value) (rs : List Rendered) :
    (runnerMain encoding fs is conf rs).saved = none ∧ (runnerMain encoding fs is conf rs).code ≠ 0 ∧
    (runnerMain encoding fs is conf rs).err ≠ [] := by
  unfold runnerMain
  rw [if_neg he]
  exact ⟨rfl, by simp, by simp⟩

/-! ### A concrete case -/

def demoInst : Inst := ⟨"uart".toList, [⟨"base".toList, some "int".toList, false⟩, ⟨"name".toList, some "string".toList, false⟩,
  ⟨"irqs".toList, some "int".toList, true⟩, ⟨"cfg".toList, none, false⟩]⟩

def demoConf : Text → Text → Value := fun _ a =>
  if a = "base".toList then .str "0x1000".toList else if a = "irqs".toList then .list [.int 3] else .none

/-- A verbose run that fails on its second item: two warnings, one of them wrong, and the error. -/
theorem demo_run : runnerMain "UTF-8".toList [.quiet, .verbose] [demoInst] demoConf
    [.ok "text".toList, .error ("c1".toList, ["bad".toList], [], []), .ok "more".toList] =
    ⟨-1, ["attribute uart.base has type int but is set to a value that is not an integer".toList,
      "attribute uart.irqs has type int but is set to a value that is not an integer".toList,
      "While rendering c1: bad".toList], some ["text".toList]⟩ := by decide +kernel

theorem demo_locale : (runnerMain "ANSI_X3.4-1968".toList [.quiet] [] demoConf [.ok []]).err.length = 1 := by decide +kernel

end Verif.Diag
