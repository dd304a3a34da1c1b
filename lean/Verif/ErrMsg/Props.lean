import Verif.ErrMsg.Spec
import Verif.Location.Props
import Mathlib.Tactic.ByContra

/-!
# C110: error messages
-/

namespace Verif.ErrMsg

open Verif.Location (Str splitLines isSpace skipSpaces takeDigits toNat locate)
open Verif.Location.Spec (Decimal FileOf LineOf joinLines Blank)
open Spec

/-! ### Lines of files -/

theorem fileLines_ne (s : Str) (h : s ≠ []) : fileLines s ≠ [] := by
  cases s with
  | nil => exact absurd rfl h
  | cons c s =>
    rw [fileLines]
    split
    · simp
    · split <;> simp

theorem fileLines_append (b rest : Str) :
    fileLines (b ++ '\n' :: rest) = fileLines (b ++ ['\n']) ++ fileLines rest := by
  induction b with
  | nil => simp [fileLines]
  | cons c b ih =>
    simp only [List.cons_append]
    rw [fileLines, fileLines]
    split
    · rw [ih]; rfl
    · rw [ih]
      have hne := fileLines_ne (b ++ ['\n']) (by simp)
      generalize fileLines (b ++ ['\n']) = ls at hne
      cases ls with
      | nil => exact absurd rfl hne
      | cons l ls => rfl

theorem fileLines_length (b : Str) :
    (fileLines (b ++ ['\n'])).length = (b ++ ['\n']).count '\n' := by
  induction b with
  | nil => rfl
  | cons c b ih =>
    simp only [List.cons_append]
    rw [fileLines, List.count_cons]
    by_cases hc : c = '\n'
    · rw [if_pos hc, List.length_cons, ih, hc]; rfl
    · rw [if_neg hc]
      have hne := fileLines_ne (b ++ ['\n']) (by simp)
      generalize fileLines (b ++ ['\n']) = ls at hne ih
      cases ls with
      | nil => exact absurd rfl hne
      | cons l ls => simpa [hc] using ih

theorem fileLines_line (l after : Str) (h : '\n' ∉ l) :
    fileLines (l ++ '\n' :: after) = (l ++ ['\n']) :: fileLines after := by
  induction l with
  | nil => simp [fileLines]
  | cons c l ih =>
    simp only [List.mem_cons, not_or] at h
    rw [List.cons_append, fileLines, if_neg (fun e => h.1 e.symm), ih h.2]
    rfl

theorem fileLines_last (l : Str) (h : '\n' ∉ l) (hne : l ≠ []) : fileLines l = [l] := by
  induction l with
  | nil => exact absurd rfl hne
  | cons c l ih =>
    simp only [List.mem_cons, not_or] at h
    rw [fileLines, if_neg (fun e => h.1 e.symm)]
    cases l with
    | nil => rfl
    | cons d l => rw [ih h.2 (by simp)]

theorem getLine_has (fs : Str → Option Str) (f text l : Str) (n : Nat) (hf : fs f = some text)
    (h : HasLine text n l) : getLine fs f n = some (l ++ ['\n']) := by
  obtain ⟨before, after, rfl, hl, rfl, hb⟩ := h
  simp only [getLine, hf]
  rcases hb with rfl | ⟨b, rfl⟩
  · rw [List.nil_append, fileLines_line l after hl]; rfl
  · rw [← fileLines_length, List.append_assoc, List.append_assoc, List.singleton_append,
      fileLines_append, List.getElem?_append_right (Nat.le_refl _), Nat.sub_self,
      fileLines_line l after hl]
    rfl

theorem getLine_last (fs : Str → Option Str) (f text l : Str) (n : Nat) (hf : fs f = some text)
    (h : HasLastLine text n l) : getLine fs f n = some l := by
  obtain ⟨before, rfl, hne, hl, rfl, hb⟩ := h
  simp only [getLine, hf]
  rcases hb with rfl | ⟨b, rfl⟩
  · rw [List.nil_append, fileLines_last l hl hne]; rfl
  · rw [← fileLines_length, List.append_assoc, List.singleton_append,
      fileLines_append, List.getElem?_append_right (Nat.le_refl _), Nat.sub_self,
      fileLines_last l hl hne]
    rfl

theorem fileLines_count (s : Str) : (fileLines s).length ≤ s.count '\n' + 1 := by
  induction s with
  | nil => simp [fileLines]
  | cons c s ih =>
    rw [fileLines, List.count_cons]
    by_cases hc : c = '\n'
    · rw [if_pos hc, hc]; simpa using ih
    · rw [if_neg hc]
      have : (c == '\n') = false := by simpa using hc
      simp only [this]
      generalize fileLines s = ls at ih
      cases ls with
      | nil => simp
      | cons l ls => simpa using ih

theorem splitLines_line (a b : Str) (h : '\n' ∉ a) :
    splitLines (a ++ '\n' :: b) = a :: splitLines b := by
  induction a with
  | nil => simp [splitLines]
  | cons c a ih =>
    simp only [List.mem_cons, not_or] at h
    rw [List.cons_append, splitLines, if_neg (fun e => h.1 e.symm), ih h.2]

theorem splitLines_ne (s : Str) : splitLines s ≠ [] := by
  cases s with
  | nil => simp [splitLines]
  | cons c s =>
    rw [splitLines]
    split
    · simp
    · split <;> simp

/-! ### The place -/

theorem number_digit (n : Nat) (c : Char) (h : c ∈ number n) : c.isDigit = true :=
  Nat.isDigit_of_mem_toDigits (by decide) (by decide) h

theorem number_line (n : Nat) : '\n' ∉ number n := fun h => by
  have := number_digit n _ h
  revert this
  decide

theorem heading_place (f : Str) (n m : Nat) : heading (some f) (some n) (some m) = place f n m := by
  simp [heading, place, number, spaced]

theorem heading_line (f : Str) (n : Nat) :
    heading (some f) (some n) none = f ++ [':'] ++ Nat.toDigits 10 n ++ [':', ' '] := by
  simp [heading, number, spaced]

theorem place_line (f : Str) (n m : Nat) (h : '\n' ∉ f) : '\n' ∉ place f n m := by
  have h1 := number_line n
  have h2 := number_line m
  unfold number at h1 h2
  simp [place, h, h1, h2]

theorem sliced (l : Str) (m x : Nat) (h1 : 1 ≤ m) (h2 : m ≤ x + 1) :
    sliceTo l m ++ sliceMid l m x ++ l.drop x = l := by
  rw [sliceTo, sliceMid, if_neg (by omega), if_neg (by omega)]
  have e : l.take (m - 1) = (l.take x).take (m - 1) := by
    rw [List.take_take, Nat.min_eq_left (by omega)]
  rw [e, List.take_append_drop, List.take_append_drop]

theorem marks_under (indent m x : Nat) (h1 : 1 ≤ m) (h2 : m ≤ x) :
    MarksUnder indent m x
      (List.replicate (indent + m - 1) ' ' ++ ['^'] ++ List.replicate (x - m) '^') := by
  constructor
  · simp; omega
  · intro k c hk
    rw [List.append_assoc, show ['^'] ++ List.replicate (x - m) '^' = List.replicate (x - m + 1) '^'
      from rfl] at hk
    rw [List.getElem?_append] at hk
    split at hk
    · next h =>
      rw [List.length_replicate] at h
      rw [if_neg (by omega)]
      exact (List.mem_replicate.1 (List.mem_of_getElem? hk)).2
    · next h =>
      rw [List.length_replicate] at h
      rw [if_pos (by omega)]
      exact (List.mem_replicate.1 (List.mem_of_getElem? hk)).2

/-- **C110.**  An error with a place is printed as three parts: the place and the source line; carets
exactly under the columns of the place; and the message. -/
theorem marked_partial (fs : Str → Option Str) (f text l message : Str) (n m x : Nat)
    (hf : fs f = some text) (hl : HasLine text n l) (hfl : '\n' ∉ f) (h1 : 1 ≤ m) (h2 : m ≤ x) :
    ∃ marks, MarksUnder (place f n m).length m x marks
      ∧ format false fs message (some f) (some n) (some m) (some x)
        = (place f n m ++ l) :: marks :: splitLines message := by
  refine ⟨_, marks_under _ m x h1 h2, ?_⟩
  have hln : '\n' ∉ l := by obtain ⟨_, _, _, h, _⟩ := hl; exact h
  simp only [format, heading_place, getLine_has fs f text l n hf hl, quoted, Bool.false_eq_true,
    if_false, List.append_nil]
  rw [sliced _ m x h1 (by omega)]
  have e : ∀ s t : Str, place f n m ++ (l ++ ['\n'] ++ (s ++ ['\n'])) ++ t
      = (place f n m ++ l) ++ '\n' :: (s ++ '\n' :: t) := by intro s t; simp
  rw [e, splitLines_line _ _ (by simp [hln, place_line f n m hfl]), splitLines_line]
  simp [List.mem_replicate]

theorem shown_append (a b : Str) (h : '\x1b' ∉ a) : shown false (a ++ b) = a ++ shown false b := by
  induction a with
  | nil => rfl
  | cons c a ih =>
    simp only [List.mem_cons, not_or] at h
    rw [List.cons_append, shown, if_neg (fun e => h.1 e.symm), ih h.2]
    rfl

theorem shown_plain (a : Str) (h : '\x1b' ∉ a) : shown false a = a := by
  have := shown_append a [] h
  simpa [shown] using this

theorem redBold_list : redBold = ['\x1b', '[', '3', '1', 'm', '\x1b', '[', '1', 'm'] := by
  decide +kernel

theorem reset_list : reset = ['\x1b', '[', '0', 'm'] := by decide +kernel

theorem coloured_mk (pre mid post : Str) :
    coloured (pre ++ redBold ++ mid ++ reset ++ post) pre mid post := by
  unfold coloured redBold reset
  rfl

theorem shown_redBold (s : Str) : shown false (redBold ++ s) = shown false s := by
  rw [redBold_list]
  rfl

theorem shown_reset (s : Str) : shown false (reset ++ s) = shown false s := by
  rw [reset_list]
  rfl

/-- **C110.**  On a terminal with colours the same is seen, with the columns of the place in colour. -/
theorem coloured_partial (fs : Str → Option Str) (f text l message : Str) (n m x : Nat)
    (hf : fs f = some text) (hl : HasLine text n l) (hfl : '\n' ∉ f) (h1 : 1 ≤ m) (h2 : m ≤ x)
    (h3 : x ≤ l.length) (hfe : '\x1b' ∉ f) (hle : '\x1b' ∉ l) :
    ∃ first marks, format true fs message (some f) (some n) (some m) (some x)
        = first :: marks :: splitLines message
      ∧ shown false first = place f n m ++ l ∧ MarksUnder (place f n m).length m x marks
      ∧ coloured first (place f n m ++ l.take (m - 1)) ((l.take x).drop (m - 1)) (l.drop x) := by
  have hln : '\n' ∉ l := by obtain ⟨_, _, _, h, _⟩ := hl; exact h
  have ht : ∀ k, '\n' ∉ l.take k := fun k h => hln (List.mem_of_mem_take h)
  have hd : ∀ k, '\n' ∉ l.drop k := fun k h => hln (List.mem_of_mem_drop h)
  have hp := place_line f n m hfl
  refine ⟨place f n m ++ l.take (m - 1) ++ redBold ++ (l.take x).drop (m - 1) ++ reset ++ l.drop x, _,
    ?_, ?_, marks_under _ m x h1 h2, ?_⟩
  rotate_left 2
  · exact coloured_mk _ _ _
  · simp only [format, heading_place, getLine_has fs f text l n hf hl, quoted, if_true]
    have e1 : sliceTo (l ++ ['\n']) m = l.take (m - 1) := by
      rw [sliceTo, if_neg (by omega), List.take_append_of_le_length (by omega)]
    have e2 : sliceMid (l ++ ['\n']) m x = (l.take x).drop (m - 1) := by
      rw [sliceMid, if_neg (by omega), List.take_append_of_le_length h3]
    have e3 : (l ++ ['\n']).drop x = l.drop x ++ ['\n'] := by
      rw [List.drop_append_of_le_length h3]
    rw [e1, e2, e3]
    have e : ∀ s t a b c d g : Str, place f n m ++ (a ++ b ++ c ++ d ++ (g ++ ['\n']) ++ (s ++ ['\n']))
        ++ t = (place f n m ++ a ++ b ++ c ++ d ++ g) ++ '\n' :: (s ++ '\n' :: t) := by
      intros; simp
    rw [e, splitLines_line, splitLines_line]
    · simp [List.mem_replicate]
    · have hr : '\n' ∉ redBold := by decide +kernel
      have hs : '\n' ∉ reset := by decide +kernel
      have hm : '\n' ∉ (l.take x).drop (m - 1) := fun h => ht x (List.mem_of_mem_drop h)
      simp only [List.mem_append, not_or]
      exact ⟨⟨⟨⟨⟨hp, ht _⟩, hr⟩, hm⟩, hs⟩, hd _⟩
  · have hnum : ∀ k, '\x1b' ∉ number k := fun k h => by
      have := number_digit k _ h
      revert this
      decide
    have hpe : '\x1b' ∉ place f n m := by
      have a := hnum n
      have b := hnum m
      unfold number at a b
      simp [place, hfe, a, b]
    have hr : ∀ s, shown false (redBold ++ s) = shown false s := by
      exact shown_redBold
    have hs : ∀ s, shown false (reset ++ s) = shown false s := by
      exact shown_reset
    have hte : ∀ k, '\x1b' ∉ l.take k := fun k h => hle (List.mem_of_mem_take h)
    simp only [List.append_assoc]
    rw [shown_append _ _ hpe, shown_append _ _ (hte _), hr,
      shown_append _ _ (fun h => hte x (List.mem_of_mem_drop h)), hs,
      shown_plain _ (fun h => hle (List.mem_of_mem_drop h))]
    have := sliced l m x h1 (by omega)
    rw [sliceTo, sliceMid, if_neg (by omega), if_neg (by omega), List.append_assoc] at this
    rw [this]

/-- **C110.**  Without columns the source line is printed without marks; without a file that has the
line, only the place is printed before the message; without a place, only the message. -/
theorem unmarked (colour : Bool) (fs : Str → Option Str) (f message : Str) (n : Nat) (hfl : '\n' ∉ f) :
    (∀ text l, fs f = some text → HasLine text n l →
      format colour fs message (some f) (some n) none none
        = (f ++ [':'] ++ Nat.toDigits 10 n ++ [':', ' '] ++ l) :: splitLines message)
    ∧ (fs f = none ∨ (∃ text, fs f = some text ∧ text.count '\n' + 1 < n) → ∀ m x,
      format colour fs message (some f) (some n) (some m) x = splitLines (place f n m ++ message)
      ∧ format colour fs message (some f) (some n) none x
        = splitLines (f ++ [':'] ++ Nat.toDigits 10 n ++ [':', ' '] ++ message))
    ∧ (∀ m x, format colour fs message (some f) none m x
        = splitLines (f ++ [':', ' '] ++ message))
    ∧ (∀ m x, format colour fs message none none m x = splitLines message)
    ∧ (∀ m x, format colour fs message none (some n) (some m) x
        = splitLines (Nat.toDigits 10 n ++ [':'] ++ Nat.toDigits 10 m ++ [':', ' '] ++ message)) := by
  have hd := number_line n
  unfold number at hd
  refine ⟨?_, ?_, ?_, ?_, ?_⟩
  · intro text l hf hl
    have hln : '\n' ∉ l := by obtain ⟨_, _, _, h, _⟩ := hl; exact h
    simp only [format, getLine_has fs f text l n hf hl, quoted, heading_line]
    have e : ∀ t : Str, f ++ [':'] ++ Nat.toDigits 10 n ++ [':', ' '] ++ (l ++ ['\n'] ++ []) ++ t
        = (f ++ [':'] ++ Nat.toDigits 10 n ++ [':', ' '] ++ l) ++ '\n' :: t := by intro t; simp
    rw [e, splitLines_line]
    simp [hfl, hd, hln]
  · intro h m x
    have hg : getLine fs f n = none := by
      rcases h with h | ⟨text, h, hc⟩
      · simp [getLine, h]
      · cases n with
        | zero => omega
        | succ n =>
          simp only [getLine, h]
          rw [List.getElem?_eq_none_iff]
          have := fileLines_count text
          omega
    constructor
    · simp only [format, heading_place, hg, List.append_nil]
    · simp only [format, hg, heading_line, List.append_nil]
  · intro m x
    simp [format, heading, spaced]
  · intro m x
    simp [format, heading, spaced]
  · intro m x
    simp [format, heading, number, spaced]

/-- The message is never lost. -/
theorem message_kept (colour : Bool) (fs : Str → Option Str) (message : Str) (file : Option Str)
    (n m x : Option Nat) :
    ∃ before, format colour fs message file n m x = splitLines (before ++ message) := ⟨_, rfl⟩

/-- **Disagreement with C110.**  If the source line is the last of its file and has no line feed, the
carets are behind it, on the same line. -/
theorem last_line_marks (fs : Str → Option Str) (f text l message : Str) (n m x : Nat)
    (hf : fs f = some text) (hl : HasLastLine text n l) (hfl : '\n' ∉ f) (h1 : 1 ≤ m) (h2 : m ≤ x) :
    (∃ marks, MarksUnder (place f n m).length m x marks
      ∧ format false fs message (some f) (some n) (some m) (some x)
        = (place f n m ++ l ++ marks) :: splitLines message)
    ∧ format false fs message (some f) (some n) none none
      = splitLines (f ++ [':'] ++ Nat.toDigits 10 n ++ [':', ' '] ++ l ++ message) := by
  have hln : '\n' ∉ l := by obtain ⟨_, _, _, h, _⟩ := hl; exact h
  constructor
  · refine ⟨_, marks_under _ m x h1 h2, ?_⟩
    simp only [format, heading_place, getLine_last fs f text l n hf hl, quoted, Bool.false_eq_true,
      if_false, List.append_nil]
    rw [sliced _ m x h1 (by omega)]
    have e : ∀ s t : Str, place f n m ++ (l ++ (s ++ ['\n'])) ++ t
        = (place f n m ++ l ++ s) ++ '\n' :: t := by intro s t; simp
    rw [e, splitLines_line]
    simp [List.mem_replicate, hln, place_line f n m hfl]
  · simp only [format, getLine_last fs f text l n hf hl, quoted, heading_line, List.append_nil]

/-! ### Messages of the parser -/

theorem str0 : "Syntax error in input at '".toList = ['S', 'y', 'n', 't', 'a', 'x', ' ', 'e', 'r', 'r',
    'o', 'r', ' ', 'i', 'n', ' ', 'i', 'n', 'p', 'u', 't', ' ', 'a', 't', ' ', '\''] := by decide +kernel

theorem str1 : ") line ".toList = ')' :: (" line".toList ++ [' ']) := by decide +kernel

theorem str2 : "' (type ".toList = '\'' :: " (type ".toList := by decide +kernel

theorem str3 : " col ".toList = ' ' :: ("col".toList ++ [' ']) := by decide +kernel

theorem str4 : "col".toList = ['c', 'o', 'l'] := by decide +kernel

theorem str5 : " (type ".toList = [' ', '(', 't', 'y', 'p', 'e', ' '] := by decide +kernel

theorem assoc8 (a b c d e f g h r : Str) : a ++ b ++ c ++ d ++ e ++ f ++ g ++ h ++ r
    = a ++ (b ++ (c ++ (d ++ (e ++ (f ++ (g ++ (h ++ r))))))) := by
  simp

theorem message_split (token type ds cs rest : Str) : parserMessage token type ds cs ++ rest
    = "Syntax error in input at '".toList ++ (token ++ ("' (type ".toList ++ (type
      ++ (") line ".toList ++ (ds ++ (" col ".toList ++ (cs ++ rest))))))) := by
  unfold parserMessage
  exact assoc8 _ _ _ _ _ _ _ _ _

theorem blank_digit (c : Char) (h : isSpace c = true) (hd : Location.isDigit c = true) : False := by
  rw [Location.isSpace_iff] at h
  simp only [Blank, List.mem_cons, List.not_mem_nil, or_false] at h
  rcases h with rfl | rfl | rfl | rfl | rfl | rfl <;> revert hd <;> decide

theorem literal_append (p s : Str) : literal p (p ++ s) = some s := by
  induction p with
  | nil => rfl
  | cons c p ih => rw [List.cons_append, literal, if_pos rfl, ih]

theorem literal_prefix (p s r : Str) (h : literal p s = some r) : s = p ++ r := by
  induction p generalizing s with
  | nil => simpa [literal] using h
  | cons c p ih =>
    cases s with
    | nil => cases h
    | cons d s =>
      rw [literal] at h
      split at h
      · next e => rw [e, ih s h]; rfl
      · cases h

theorem upTo_append (c : Char) (a s : Str) (h : c ∉ a) : upTo c (a ++ c :: s) = some (a, s) := by
  induction a with
  | nil => simp [upTo]
  | cons d a ih =>
    simp only [List.mem_cons, not_or] at h
    rw [List.cons_append, upTo, if_neg (fun e => h.1 e.symm), ih h.2]
    rfl

theorem digits_append (ds rest : Str) (n : Nat) (hd : Decimal ds n) (hne : ds ≠ [])
    (hr : ∀ c, rest.head? = some c → Location.isDigit c = false) : digits (ds ++ rest) = some (n, rest) := by
  unfold digits
  rw [Location.takeDigits_append ds rest (Location.decimal_digits hd) hr]
  cases ds with
  | nil => exact absurd rfl hne
  | cons d ds => simp only [Location.decimal_toNat hd]

theorem spaces_digits (ds rest : Str) (n : Nat) (hd : Decimal ds n) (hne : ds ≠ []) :
    spaces (' ' :: (ds ++ rest)) = some (ds ++ rest) := by
  have h := Location.decimal_digits hd
  cases ds with
  | nil => exact absurd rfl hne
  | cons d ds =>
    have hd := h d (by simp)
    rw [spaces, if_pos (by decide), List.cons_append, Location.skipSpaces_cons]
    intro hb
    have : isSpace d = true := (Location.isSpace_iff d).2 hb
    exact blank_digit d this hd

theorem message_match (token type ds cs rest : Str) (n m : Nat) (ht : '\'' ∉ token) (hy : ')' ∉ type)
    (hd : Decimal ds n) (hdne : ds ≠ []) (hc : Decimal cs m) (hcne : cs ≠ [])
    (hr : rest = [] ∨ ∃ r, rest = '\n' :: r) :
    matchError (parserMessage token type ds cs ++ rest) = some ⟨token, n, some m⟩ := by
  have e : parserMessage token type ds cs ++ rest = "Syntax error in input at '".toList ++ (token
      ++ '\'' :: (" (type ".toList ++ (type ++ ')' :: (" line".toList ++ ' ' :: (ds ++ ' ' ::
        ("col".toList ++ ' ' :: (cs ++ rest))))))) := by
    rw [message_split, str1, str2, str3]
    generalize "Syntax error in input at '".toList = s1
    generalize " (type ".toList = s2
    generalize " line".toList = s3
    generalize "col".toList = s4
    simp only [List.append_assoc, List.cons_append, List.nil_append]
  rw [e, matchError, literal_append]
  simp only [upTo_append _ _ _ ht]
  rw [matchRest, literal_append]
  simp only [upTo_append _ _ _ hy]
  rw [literal_append]
  simp only
  rw [spaces_digits ds _ n hd hdne]
  simp only
  rw [digits_append ds _ n hd hdne (by intro c h; simp only [List.head?_cons, Option.some.injEq] at h; subst h; rfl)]
  simp only
  have hcol : colPart (' ' :: ("col".toList ++ ' ' :: (cs ++ rest))) = some m := by
    unfold colPart
    have : spaces (' ' :: ("col".toList ++ ' ' :: (cs ++ rest))) = some ("col".toList ++ ' ' :: (cs ++ rest)) := by
      rw [spaces, if_pos (by decide), str4, List.cons_append, Location.skipSpaces_cons]
      simp [Blank]
    rw [this]
    simp only
    rw [literal_append]
    simp only
    rw [spaces_digits cs _ m hc hcne]
    simp only
    rw [digits_append cs rest m hc hcne]
    · rcases hr with rfl | ⟨r, rfl⟩ <;> simp [atEnd]
    · rcases hr with rfl | ⟨r, rfl⟩
      · simp
      · intro c h
        simp only [List.head?_cons, Option.some.injEq] at h
        subst h
        rfl
  rw [hcol]

theorem search_skip (b rest : Str) (hb : '\n' ∉ b) :
    search false (b ++ '\n' :: rest) = search true rest := by
  induction b with
  | nil => rfl
  | cons c b ih =>
    simp only [List.mem_cons, not_or] at hb
    rw [List.cons_append, search]
    simp only [Bool.false_eq_true, if_false]
    have : (c == '\n') = false := by simpa using fun e => hb.1 e.symm
    rw [this, ih hb.2]

theorem search_false (b : Str) (hb : '\n' ∉ b) : search false b = none := by
  induction b with
  | nil => rfl
  | cons c b ih =>
    simp only [List.mem_cons, not_or] at hb
    rw [search]
    simp only [Bool.false_eq_true, if_false]
    have : (c == '\n') = false := by simpa using fun e => hb.1 e.symm
    rw [this, ih hb.2]

theorem search_line (b rest : Str) (hb : '\n' ∉ b)
    (hn : ¬ "Syntax error in input at '".toList <+: b) :
    search true (b ++ '\n' :: rest) = search true rest := by
  have hm : matchError (b ++ '\n' :: rest) = none := by
    unfold matchError
    cases hl : literal "Syntax error in input at '".toList (b ++ '\n' :: rest) with
    | none => rfl
    | some r =>
      exfalso
      have := literal_prefix _ _ _ hl
      rcases List.append_eq_append_iff.1 this with ⟨a, h1, h2⟩ | ⟨a, h1, h2⟩
      · cases a with
        | nil => exact hn ⟨[], by simpa using h1⟩
        | cons d a =>
          simp only [List.cons_append, List.cons.injEq] at h2
          have : '\n' ∈ "Syntax error in input at '".toList := by rw [h1, ← h2.1]; simp
          exact absurd this (by decide +kernel)
      · exact hn ⟨a, h1.symm⟩
  cases b with
  | nil => rw [List.nil_append] at hm ⊢; rw [search, if_pos rfl, hm]; rfl
  | cons c b =>
    rw [List.cons_append] at hm ⊢
    simp only [List.mem_cons, not_or] at hb
    rw [search, if_pos rfl, hm]
    have : (c == '\n') = false := by simpa using fun e => hb.1 e.symm
    simp only [this]
    exact search_skip b rest hb.2

/-- **C110.**  Line and columns of a syntax error are found in the message of the parser, wherever in
the message they are: the columns are those of the token. -/
theorem place_found_partial (before : List Str) (token type ds cs rest : Str) (n m : Nat)
    (hb : ∀ b ∈ before, '\n' ∉ b ∧ ¬ "Syntax error in input at '".toList <+: b)
    (ht : '\'' ∉ token) (hy : ')' ∉ type) (hd : Decimal ds n) (hdne : ds ≠ []) (hc : Decimal cs m)
    (hcne : cs ≠ []) (hr : rest = [] ∨ ∃ r, rest = '\n' :: r) :
    errorPlace (before.flatMap (· ++ ['\n']) ++ (parserMessage token type ds cs ++ rest))
      = (some n, some m, if token = [] then none else some (m + token.length - 1)) := by
  have hs : search true (before.flatMap (· ++ ['\n']) ++ (parserMessage token type ds cs ++ rest))
      = some ⟨token, n, some m⟩ := by
    induction before with
    | nil =>
      have h := message_match token type ds cs rest n m ht hy hd hdne hc hcne hr
      rw [List.flatMap_nil, List.nil_append]
      cases hmsg : parserMessage token type ds cs ++ rest with
      | nil => rw [hmsg] at h; cases h
      | cons c s => rw [hmsg] at h; rw [search, if_pos rfl, h]
    | cons b before ih =>
      obtain ⟨h1, h2⟩ := hb b (by simp)
      rw [List.flatMap_cons, List.append_assoc, List.append_assoc, List.singleton_append,
        search_line b _ h1 h2]
      exact ih (fun x hx => hb x (by simp [hx]))
  unfold errorPlace
  rw [hs]
  cases token <;> simp

theorem augment_other (s : Str) : augment ("Syntax error in input at '".toList ++ s)
    = "Syntax error in input at '".toList ++ s := by
  unfold augment
  rw [if_neg]
  intro h
  have := congrArg (fun l => l[22]?) h
  revert this
  rw [str0]
  simp only [List.cons_append, List.getElem?_cons_succ, List.getElem?_cons_zero]
  decide +kernel

theorem parserMessage_start (token type ds cs : Str) : ∃ s, parserMessage token type ds cs
    = "Syntax error in input at '".toList ++ s := by
  have h := message_split token type ds cs []
  rw [List.append_nil] at h
  exact ⟨_, h⟩

/-- **C110.**  A syntax error is reported at the place in the user's files where the line of the token
comes from, with that line and with carets under the columns of the token. -/
theorem reported_partial (fs : Str → Option Str) (main f text l l0 : Str) (before after : List Str)
    (token type ds cs : Str) (n m : Nat) (hnl : ∀ x ∈ before ++ l0 :: after, '\n' ∉ x)
    (hfile : FileOf (some main) before (some f)) (hline : LineOf before n) (hf : fs f = some text)
    (hl : HasLine text n l) (hfl : '\n' ∉ f) (ht : '\'' ∉ token) (htne : token ≠ []) (hy : ')' ∉ type)
    (hd : Decimal ds (before.length + 1)) (hdne : ds ≠ []) (hc : Decimal cs m) (hcne : cs ≠ [])
    (hm : 1 ≤ m) :
    ∃ marks, MarksUnder (place f n m).length m (m + token.length - 1) marks
      ∧ parseFailure false fs (some main) (joinLines (before ++ l0 :: after))
          (parserMessage token type ds cs)
        = some ((place f n m ++ l) :: marks :: splitLines (parserMessage token type ds cs)) := by
  have hp := place_found_partial [] token type ds cs [] (before.length + 1) m (by simp) ht hy hd hdne hc
    hcne (.inl rfl)
  rw [if_neg htne] at hp
  simp only [List.flatMap_nil, List.nil_append, List.append_nil] at hp
  obtain ⟨file, line, hloc, hF, hL⟩ := Location.location_honours_directives (some main) before l0 after hnl
  obtain rfl := Location.fileOf_unique _ _ _ _ hF hfile
  obtain rfl := Location.lineOf_unique _ _ _ hL hline
  have hpos : 1 ≤ token.length := List.length_pos_iff.2 htne
  obtain ⟨marks, hM, hfmt⟩ := marked_partial fs f text l (parserMessage token type ds cs) line m
    (m + token.length - 1) hf hl hfl hm (by omega)
  refine ⟨marks, hM, ?_⟩
  unfold parseFailure
  rw [hp]
  simp only [hloc]
  obtain ⟨s, hs⟩ := parserMessage_start token type ds cs
  rw [show augment (parserMessage token type ds cs) = parserMessage token type ds cs by
    rw [hs, augment_other], hfmt]

/-- **Disagreement with C110.**  If the token contains an apostrophe the error is reported without a
line, in the main file, wherever it is. -/
theorem apostrophe_lost (colour : Bool) (fs : Str → Option Str) (main processed a b type ds cs : Str)
    (ha : '\'' ∉ a) (hb : b.head? ≠ some ' ')
    (hnl : '\n' ∉ parserMessage (a ++ '\'' :: b) type ds cs) :
    errorPlace (parserMessage (a ++ '\'' :: b) type ds cs) = (none, none, none)
    ∧ parseFailure colour fs (some main) processed (parserMessage (a ++ '\'' :: b) type ds cs)
      = some (splitLines (main ++ [':', ' '] ++ parserMessage (a ++ '\'' :: b) type ds cs)) := by
  obtain ⟨s, hs⟩ := parserMessage_start (a ++ '\'' :: b) type ds cs
  have hm : matchError (parserMessage (a ++ '\'' :: b) type ds cs) = none := by
    have e : parserMessage (a ++ '\'' :: b) type ds cs = "Syntax error in input at '".toList ++ (a
      ++ '\'' :: (b ++ ("' (type ".toList ++ (type ++ (") line ".toList ++ (ds ++
        (" col ".toList ++ (cs ++ [])))))))) := by
      have h := message_split (a ++ '\'' :: b) type ds cs []
      rw [List.append_nil] at h
      rw [h, List.append_assoc, List.cons_append]
    rw [e, matchError, literal_append]
    simp only [upTo_append _ _ _ ha]
    rw [matchRest]
    have hlit : ∀ t : Str, t.head? ≠ some ' ' → literal " (type ".toList t = none := by
      intro t ht
      rw [str5]
      cases t with
      | nil => rfl
      | cons c t => rw [literal, if_neg]; intro h; exact ht (by rw [← h]; rfl)
    rw [hlit]
    cases b with
    | nil => rw [str2]; simp
    | cons c b => simpa using hb
  have hsearch : search true (parserMessage (a ++ '\'' :: b) type ds cs) = none := by
    cases hmsg : parserMessage (a ++ '\'' :: b) type ds cs with
    | nil => rfl
    | cons c t =>
      rw [hmsg] at hm hnl
      simp only [List.mem_cons, not_or] at hnl
      rw [search, if_pos rfl, hm]
      have : (c == '\n') = false := by simpa using fun e => hnl.1 e.symm
      simp only [this]
      exact search_false t hnl.2
  have hp : errorPlace (parserMessage (a ++ '\'' :: b) type ds cs) = (none, none, none) := by
    rw [errorPlace, hsearch]
  refine ⟨hp, ?_⟩
  unfold parseFailure
  rw [hp]
  simp only [locate]
  rw [show augment (parserMessage (a ++ '\'' :: b) type ds cs) = parserMessage (a ++ '\'' :: b) type ds cs by
    rw [hs, augment_other]]
  simp [format, heading, spaced]

/-! ### Examples -/

def demoText : Str := "import <a>;\nfoo bar;\nlast".toList

def demoFs (f : Str) : Option Str := if f = "b.camkes".toList then some demoText else none

theorem demo_lines : HasLine demoText 2 "foo bar;".toList ∧ HasLastLine demoText 3 "last".toList := by
  refine ⟨⟨"import <a>;\n".toList, "last".toList, by decide +kernel, by decide +kernel,
      by decide +kernel, .inr ⟨"import <a>;".toList, by decide +kernel⟩⟩,
    ⟨"import <a>;\nfoo bar;\n".toList, by decide +kernel, by decide +kernel, by decide +kernel,
      by decide +kernel, .inr ⟨"import <a>;\nfoo bar;".toList, by decide +kernel⟩⟩⟩

theorem demo_format :
    format false demoFs "oh".toList (some "b.camkes".toList) (some 2) (some 5) (some 7)
      = ["b.camkes:2:5: foo bar;".toList, "                  ^^^".toList, "oh".toList]
    ∧ format false demoFs "oh".toList (some "b.camkes".toList) (some 3) (some 1) (some 4)
      = ["b.camkes:3:1: last              ^^^^".toList, "oh".toList]
    ∧ format false demoFs "a\nb".toList (some "c.camkes".toList) (some 2) (some 5) (some 7)
      = ["c.camkes:2:5: a".toList, "b".toList]
    ∧ format true demoFs "oh".toList (some "b.camkes".toList) (some 2) (some 5) (some 7)
      = ["b.camkes:2:5: foo \x1b[31m\x1b[1mbar\x1b[0m;".toList, "                  ^^^".toList,
        "oh".toList] := by
  decide +kernel

/-- The line before the error is a directive for the line 2 of `b.camkes`. -/
def demoBefore : List Str := ["assembly {".toList, "# 2 \"b.camkes\" 1".toList]

theorem demo_directive : Location.Spec.IsDirective "# 2 \"b.camkes\" 1".toList 2
    (some "b.camkes".toList) := (Location.directive_iff _ _ _).mp (by decide +kernel)

theorem demo_places : FileOf (some "m.camkes".toList) demoBefore (some "b.camkes".toList)
    ∧ LineOf demoBefore 2 :=
  ⟨.after ["assembly {".toList] _ [] 2 _ demo_directive (by simp),
    .after ["assembly {".toList] _ [] 2 _ demo_directive (by simp)⟩

theorem demo_decimal : Decimal "3".toList 3 ∧ Decimal "5".toList 5 := by
  constructor
  · exact Location.toNat_decimal "3".toList (by decide +kernel)
  · exact Location.toNat_decimal "5".toList (by decide +kernel)

theorem demo_reported :
    parseFailure false demoFs (some "m.camkes".toList)
        (joinLines (demoBefore ++ "foo bar;".toList :: ["}".toList]))
        (parserMessage "bar".toList "ID".toList "3".toList "5".toList)
      = some ["b.camkes:2:5: foo bar;".toList, "                  ^^^".toList,
          "Syntax error in input at 'bar' (type ID) line 3 col 5".toList]
    ∧ parseFailure false demoFs (some "m.camkes".toList)
        (joinLines (demoBefore ++ "foo bar;".toList :: ["}".toList]))
        (parserMessage "\"it's\"".toList "STRING".toList "3".toList "5".toList)
      = some ["m.camkes: Syntax error in input at '\"it's\"' (type STRING) line 3 col 5".toList] := by
  decide +kernel

theorem demo_missing_brace (fs : Str → Option Str) :
    parseFailure false fs (some "m.camkes".toList) []
      "Syntax error in input (details unknown): None\nCould not create parse tree!".toList
    = some ["m.camkes: Syntax error in input (details unknown): None".toList,
        "Could not create parse tree! (missing closing brace?)".toList] := by
  have h : errorPlace "Syntax error in input (details unknown): None\nCould not create parse tree!".toList
      = (none, none, none) := by decide +kernel
  unfold parseFailure
  rw [h]
  simp only [locate, format, heading]
  decide +kernel

end Verif.ErrMsg
