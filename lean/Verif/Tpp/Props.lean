import Verif.Tpp.Form
import Mathlib.Tactic.IntervalCases

/-!
# Disagreements and examples
-/

namespace Verif.Tpp

open Spec

/-- The values used in the theories. -/
def demoEval (t : List Char) : Option Val :=
  if rstrip t = "True".toList then some (.bool true)
  else if rstrip t = "False".toList then some (.bool false)
  else if rstrip t = "4".toList then some (.int 4)
  else if rstrip t = "'four'".toList then some (.other true)
  else none

/-- A way to wrap text that breaks no line. -/
def demoEnv : Env := ⟨demoEval, fun t _ => if ink t = [] then [] else [t]⟩

theorem demo_wraps : Wraps demoEnv.wrap := by
  constructor
  · intro t i
    show ink (text (if ink t = [] then [] else [t])) = ink t
    split_ifs with h
    · rw [h]; rfl
    · rw [ink_text_cons]; simp [text, ink_nil]
  · intro t i l hl
    change l ∈ (if ink t = [] then [] else [t]) at hl
    split_ifs at hl with h
    · cases hl
    · simp at hl
      subst hl
      rw [blank_iff_ink]; exact h

theorem demo_fits : Fits demoEnv.wrap := by
  intro t i _ P _ hP
  have hP' : ∀ c, P c → ¬ Space c := fun c hc => (hP c hc).1
  show runs P (text (if ink t = [] then [] else [t])) = runs P t
  split_ifs with h
  · have hb := (blank_iff_ink t).2 h
    rw [runs_nil_of (s := t) (fun c hc hp => hP' c hp (hb c hc))]
    simp [text, runs]
  · rw [runs_text_cons hP']; simp [text, runs]

theorem noneHidden_of {inp : List Line} (h : ∀ l ∈ inp, directive l ≠ none ∨ '*' ∉ l) : NoneHidden inp := by
  have hp : ∀ l ∈ plain inp, '*' ∉ l := by
    intro l hl
    simp only [plain, List.mem_filter, decide_eq_true_eq] at hl
    rcases h l hl.1 with h1 | h1
    · exact absurd ((directive_none l).2 hl.2) h1
    · exact h1
  rintro ⟨a, b, he⟩
  have : '*' ∈ ink (text (plain inp)) := by rw [he]; simp
  simp only [ink, text, List.mem_filter, List.mem_flatMap, List.mem_append, List.mem_singleton] at this
  obtain ⟨⟨l, hl, h1 | h1⟩, -⟩ := this
  · exact hp l hl h1
  · exact absurd h1 (by decide)

/-- What is written. -/
def written (r : Except Stop (List Line × St)) : Option (List Line) :=
  match r with
  | .ok (out, _) => some out
  | .error _ => none

/-- The state at the end. -/
def final (r : Except Stop (List Line × St)) : Option St :=
  match r with
  | .ok (_, st) => some st
  | .error _ => none

/-! ## Disagreements -/

/-- **Disagreement with C117.** Text that is still kept back at the end of the file is lost, without a warning. -/
theorem unfinished_lost :
    written (run demoEnv .default 10 ["(** TPP: accumulate = True *)".toList, "lemma wellformed: x".toList, "  by simp".toList]) = some [] ∧
    (final (run demoEnv .default 10 ["(** TPP: accumulate = True *)".toList, "lemma wellformed: x".toList, "  by simp".toList])).map warns =
      some false := by decide +kernel

/-- **Disagreement with C117.** A space that is removed can make another symbol: here a comment is opened that is
never closed. -/
theorem comment_opened :
    written (run demoEnv .default 10 ["definition f where f = foldl ( * ) 1".toList]) = some ["definition f where f = foldl (*) 1".toList] := by
  decide +kernel

/-- **Disagreement with C117.** Text in quotes is changed as well. -/
theorem quoted_changed :
    written (run demoEnv .default 10 ["value ''a , ( b''".toList]) = some ["value ''a, (b''".toList] := by decide +kernel

/-- **Disagreement with C117.** Of two spaces before closing brackets one is left. -/
theorem bracket_space_left :
    written (run demoEnv .default 10 ["f (g (h x ) )".toList, "( ( x".toList]) = some ["f (g (h x) )".toList, "(( x".toList] ∧
    Loose "f (g (h x) )".toList :=
  ⟨by decide +kernel, "f (g (h x".toList, [], ')', ')', by decide, by decide, by decide, Or.inr (by decide)⟩

/-- **Disagreement with C117.** An indentation that is no number ends the tool with an exception, although the
directive could be evaluated; other directives that are wrong are reported and skipped. -/
theorem bad_indent_stops :
    (match run demoEnv .default 10 ["(** TPP: lock_indent = 'four' *)".toList, "end".toList] with
      | .error e => some e
      | .ok _ => none) = some .noNumber ∧
    written (run demoEnv .default 10 ["(** TPP: lock_indent = four *)".toList, "end".toList]) = some ["end".toList] := by decide +kernel

/-- A word of 78 letters, and one of 81. -/
def word78 : List Char := List.replicate 78 'k'
def word81 : List Char := List.replicate 81 'k'

def dirOn : Line := "(** TPP: accumulate = True *)".toList
def dirOff : Line := "(** TPP: accumulate = False *)".toList
def comment : Line := "(** TPP: condense = True *)".toList

theorem dirOn_eq : directive dirOn = some ("accumulate".toList, "True ".toList) := by decide +kernel
theorem dirOff_eq : directive dirOff = some ("accumulate".toList, "False ".toList) := by decide +kernel
theorem plain78 : directive (word78 ++ ' ' :: comment) = none := by decide +kernel
theorem plain78' : directive word78 = none := by decide +kernel
theorem plain81 : directive word81 = none := by decide +kernel
theorem comment_eq : directive ("  ".toList ++ comment) = some ("condense".toList, "True ".toList) := by decide +kernel
theorem acc_not : ("accumulate".toList = "condense".toList) = False ∧ ("accumulate".toList = "lock_indent".toList) = False := by
  refine ⟨?_, ?_⟩ <;> simp

theorem setOn {env : Env} (h : env.eval "True ".toList = some (.bool true)) (st : St) :
    setProp env st "accumulate".toList "True ".toList = { st with acc := some (.bool true) } := by
  unfold setProp
  rw [h]
  dsimp only
  rw [if_neg (by simp), if_neg (by simp), if_pos rfl]

theorem setOff {env : Env} (h : env.eval "False ".toList = some (.bool false)) (st : St) :
    setProp env st "accumulate".toList "False ".toList = { st with acc := some (.bool false) } := by
  unfold setProp
  rw [h]
  dsimp only
  rw [if_neg (by simp), if_neg (by simp), if_pos rfl]

/-- The state in which text is kept back. -/
def onSt (l : Line) : St := { acc := some (.bool true), initial := false, accumulated := some (l ++ [' ']) }

theorem keep78 : passes .default { acc := some (.bool true) } (word78 ++ ' ' :: comment) = .ok (onSt (word78 ++ ' ' :: comment), none) := by
  decide +kernel
theorem keep81 : passes .default { acc := some (.bool true) } word81 = .ok (onSt word81, none) := by decide +kernel

theorem strip78 : rstrip ((word78 ++ ' ' :: comment) ++ [' ']) = word78 ++ ' ' :: comment ∧
    lstrip (word78 ++ ' ' :: comment) = word78 ++ ' ' :: comment := by decide +kernel
theorem strip81 : rstrip (word81 ++ [' ']) = word81 ∧ lstrip word81 = word81 := by decide +kernel

/-- The state after the text is given back. -/
def offSt : St := { acc := some (.bool false), initial := false }

theorem out78 : passes .default offSt word78 = .ok (offSt, some word78) := by decide +kernel

/-- A file with text between two directives. -/
theorem kept_run {env : Env} (h1 : env.eval "True ".toList = some (.bool true)) (h2 : env.eval "False ".toList = some (.bool false))
    {l : Line} (hl : directive l = none) (hk : passes .default { acc := some (.bool true) } l = .ok (onSt l, none))
    (hs : rstrip (l ++ [' ']) = l ∧ lstrip l = l) (n : Nat) :
    run env .default (n + 3) [dirOn, l, dirOff] = loop env .default n offSt (env.wrap l 2) [] := by
  have e1 : notify env .default { acc := some (.bool true) } = ({ acc := some (.bool true) }, []) := rfl
  have e2 : notify env .default { onSt l with acc := some (.bool false) } = (offSt, env.wrap l 2) := by
    simp only [notify, onSt, Opts.default, truthy, if_true, hs.1, hs.2]
    simp [offSt]
  simp only [run, loop, dirOn_eq, dirOff_eq, hl, hk, setOn h1, setOff h2, e1, e2]

/-- **Disagreement with C117.** A comment in text that is kept back becomes a directive if it comes to stand on a line
of its own: it takes effect, and it is not written. -/
theorem hidden_directive (env : Env) (h1 : env.eval "True ".toList = some (.bool true)) (h2 : env.eval "False ".toList = some (.bool false))
    (hw : env.wrap (word78 ++ ' ' :: comment) 2 = [word78, "  ".toList ++ comment]) :
    written (run env .default 10 [dirOn, word78 ++ ' ' :: comment, dirOff]) = some [word78] ∧
    (final (run env .default 10 [dirOn, word78 ++ ' ' :: comment, dirOff])).map warns = some true := by
  have e : setProp env offSt "condense".toList "True ".toList = { offSt with condense := some (.bool true) } := by
    unfold setProp; rw [h1]; rfl
  have e1 : notify env .default { offSt with condense := some (.bool true) } = ({ offSt with condense := some (.bool true) }, []) := rfl
  have : run env .default 10 [dirOn, word78 ++ ' ' :: comment, dirOff] = .ok ([word78], { offSt with condense := some (.bool true) }) := by
    rw [kept_run h1 h2 plain78 keep78 strip78 7, hw]
    simp only [loop, plain78', out78, comment_eq, e, e1, List.nil_append]
  rw [this]
  exact ⟨rfl, rfl⟩

theorem length_before (x : Char) (l : List Char) : (before x l).length ≤ l.length := by
  fun_induction before x l <;> (simp_all; try omega)

theorem length_behind (x : Char) (l : List Char) : (behind x l).length ≤ l.length := by
  fun_induction behind x l <;> (simp_all; try omega)

theorem runs_length {P : Char → Prop} [DecidablePred P] {l w : List Char} (h : w ∈ runs P l) : w.length ≤ l.length := by
  induction l generalizing w with
  | nil => simp [runs] at h
  | cons c l ih =>
    cases l with
    | nil =>
      simp only [runs] at h
      split_ifs at h
      · simp at h; subst h; simp
      · simp at h
    | cons d r =>
      simp only [runs] at h
      split_ifs at h
      · cases hr : runs P (d :: r) with
        | nil =>
          rw [hr] at h; simp at h; subst h; simp
        | cons u us =>
          rw [hr] at h ih
          simp at h
          rcases h with rfl | h
          · have := ih (w := u) (by simp); simp at this ⊢; omega
          · have := ih (w := w) (by simp [h]); simp at this ⊢; omega
      · simp at h
        rcases h with rfl | h
        · simp
        · have := ih h; simp at this ⊢; omega
      · have := ih h; simp at this ⊢; omega

theorem short_run {env : Env} {st s' : St} {buf inp out : List Line} (h : Run env .default st buf inp out s') :
    inp = [] → Inv .default st buf [] → st.lock = none → (∀ l ∈ buf, l.length ≤ 80) → ∀ l ∈ out, l.length ≤ 80 := by
  induction h with
  | done st => simp
  | bdir hd _ _ => rintro rfl hi; rw [hi.buf] at hd; cases hd
  | bdrop hd hp _ ih =>
    rintro rfl hi hl hb
    exact ih rfl (inv_bdrop hi hp) (by rw [(passes_fields hp).2.1]; exact hl) (fun l h => hb l (by simp [h]))
  | @bout st l buf inp s w out s' hd hp _ ih =>
    rintro rfl hi hl hb x hx
    rcases List.mem_cons.1 hx with rfl | hx
    · obtain ⟨-, -, m, hm, rfl⟩ := passes_out hp
      have hm' : m = l1 .default l := by
        rcases locked_ok hm with h | ⟨-, -, n, -, ⟨b, h, -⟩ | ⟨b, h, -⟩⟩
        · exact h
        · rw [hl] at h; cases h
        · rw [hl] at h; cases h
      have hlen : m.length ≤ l.length := by
        rw [hm']
        have e : l1 .default l = rstrip l := rfl
        rw [e]
        obtain ⟨t, -, he, -⟩ := rstrip_split l
        have := congrArg List.length he
        rw [List.length_append] at this
        omega
      have hc : (compress .default m).length ≤ m.length := by
        have e : compress .default m = before ',' (before '}' (behind '{' (before ')' (behind '(' m)))) := rfl
        rw [e]
        exact (length_before _ _).trans ((length_before _ _).trans ((length_behind _ _).trans ((length_before _ _).trans (length_behind _ _))))
      exact hc.trans (hlen.trans (hb l (by simp)))
    · exact ih rfl (inv_bout hi hp) (by rw [(passes_fields hp).2.1]; exact hl) (fun l h => hb l (by simp [h])) x hx
  | idir => intro h; cases h
  | idrop => intro h; cases h
  | iout => intro h; cases h

/-- **Disagreement with C117.** If the lines of wrapped text have at most 80 characters, as `textwrap` guarantees, then a
longer word is split. -/
theorem long_word_split (env : Env) (hw : Wraps env.wrap) (hb : ∀ t i, ∀ l ∈ env.wrap t i, l.length ≤ 80)
    (h1 : env.eval "True ".toList = some (.bool true)) (h2 : env.eval "False ".toList = some (.bool false))
    (n : Nat) (out : List Line) (st : St) (h : run env .default n [dirOn, word81, dirOff] = .ok (out, st)) :
    word81 ∉ runs (fun c => c = 'k') (text out) ∧ word81 ∈ runs (fun c => c = 'k') word81 := by
  refine ⟨?_, by decide +kernel⟩
  have hP : ∀ c, (fun c => c = 'k') c → ¬ Space c := by rintro c rfl; decide
  have hshort : ∀ l ∈ out, l.length ≤ 80 := by
    obtain ⟨m, hm⟩ : ∃ m, n = m + 3 := by
      refine ⟨n - 3, ?_⟩
      have : ¬ n < 3 := by
        intro hlt
        have e1 : notify env .default { acc := some (.bool true) } = ({ acc := some (.bool true) }, []) := rfl
        interval_cases n
        · cases h
        · simp only [run, loop, dirOn_eq] at h; cases h
        · simp only [run, loop, dirOn_eq, setOn h1, e1, plain81, keep81] at h; cases h
      omega
    subst hm
    rw [kept_run h1 h2 plain81 keep81 strip81 m] at h
    refine short_run (loop_run h) rfl ⟨fun hn => absurd rfl hn, ?_, ?_⟩ rfl (hb _ _)
    · rintro - ⟨-, ht⟩; cases ht
    · have e : todo offSt (env.wrap word81 2) [] = ink word81 := by
        have : ink (held offSt) = [] := rfl
        unfold todo
        rw [this, plain_nil, hw.ink]
        simp [text, ink_nil]
      rw [e]
      rintro ⟨a, b, he⟩
      have : '*' ∈ ink word81 := by rw [he]; simp
      exact absurd this (by decide +kernel)
  intro hin
  have : ∃ l ∈ out, word81 ∈ runs (fun c => c = 'k') l := by
    clear h hshort
    induction out with
    | nil => simp [text, runs] at hin
    | cons x out ih =>
      rw [runs_text_cons hP] at hin
      rcases List.mem_append.1 hin with hin | hin
      · exact ⟨x, by simp, hin⟩
      · obtain ⟨l, hl, hr⟩ := ih hin
        exact ⟨l, by simp [hl], hr⟩
  obtain ⟨l, hl, hr⟩ := this
  have := (runs_length hr).trans (hshort l hl)
  simp [word81] at this

/-! ## Examples: the hypotheses are met -/

/-- A file as the templates write it. -/
def demoFile : List Line :=
  ["".toList, "theory X  ".toList, "imports Main".toList, "begin".toList, "".toList, "".toList, "(** TPP: condense = True *)".toList,
   "datatype channel".toList, "".toList, "  = a".toList, "  | b".toList, "(** TPP: condense = False *)".toList, "".toList,
   "(** TPP: accumulate = True *)".toList, "  definition f ( x , y ) =".toList, "".toList, "      { x , y }".toList,
   "(** TPP: accumulate = False *)".toList, "(** TPP: lock_indent = 4 *)".toList, "by simp".toList, "end".toList]

theorem demo_run :
    written (run demoEnv .default 40 demoFile) =
      some ["theory X".toList, "imports Main".toList, "begin".toList, "".toList, "datatype channel".toList, "  = a".toList, "  | b".toList,
        "".toList, "  definition f (x, y) =  {x, y}".toList, "    by simp".toList, "    end".toList] ∧
    (final (run demoEnv .default 40 demoFile)).map (·.accumulated) = some none := by decide +kernel

theorem demo_hidden : NoneHidden demoFile := noneHidden_of (by decide +kernel)

theorem demo_narrow : Narrow demoEnv.eval demoFile 12 6 := by
  refine ⟨by omega, by omega, by decide +kernel, ?_, ?_⟩
  · intro l hl s r he hs
    by_cases hr : Blank r
    · exact Or.inr hr
    · left
      have hlead : s.length ≤ lead l := by
        subst he
        clear hl hr
        induction s with
        | nil => simp
        | cons c s ih =>
          have hc := (space_iff c).2 (hs c (by simp))
          have := ih fun x hx => hs x (by simp [hx])
          simp only [lead, List.cons_append, List.takeWhile_cons, hc, if_true, List.length_cons] at this ⊢
          omega
      have : ∀ l ∈ demoFile, lead l ≤ 6 := by decide +kernel
      exact hlead.trans (this l hl)
  · intro l hl v n hd he
    change demoEval v = some (.int n) at he
    unfold demoEval at he
    split_ifs at he
    · cases he
    · cases he
    · cases he; decide
    · cases he

theorem demo_tight : Unset "accumulate" ["f ( x , y )".toList] ∧ ¬ Twice "f ( x , y )".toList ∧
    written (run demoEnv .default 5 ["f ( x , y )".toList]) = some ["f (x, y)".toList] := by
  refine ⟨?_, ?_, by decide +kernel⟩
  · intro l hl v hd
    simp at hl
    subst hl
    have := directive_of hd
    have e : directive "f ( x , y )".toList = none := by decide +kernel
    simp at e
    rw [e] at this
    cases this
  · rintro ⟨a, b, x, he, hx⟩
    have h : has3 x ' ' x "f ( x , y )".toList := (has3_iff _ _ _ _).2 ⟨a, b, he⟩
    simp only [List.mem_cons, List.not_mem_nil, or_false] at hx
    rcases hx with rfl | rfl | rfl | rfl | rfl <;> simp [has3] at h

theorem demo_condense : Directive "(** TPP: condense = True *)".toList "condense".toList "True ".toList :=
  directive_to (by decide +kernel)

theorem demo_lock : Directive "(** TPP: lock_indent = 4 *)".toList "lock_indent".toList "4 ".toList ∧
    written (run demoEnv .default 5 ["(** TPP: lock_indent = 4 *)".toList, "x".toList, "      y".toList]) = some ["    x".toList, "    y".toList] :=
  ⟨directive_to (by decide +kernel), by decide +kernel⟩

end Verif.Tpp
