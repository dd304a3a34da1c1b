import Verif.Lint.Spec
import Mathlib.Data.List.Nodup
import Mathlib.Tactic.ByContra
import Mathlib.Tactic.Tauto

/-!
# C108: the linter of templates
-/

namespace Verif.Lint

open Spec (Piece Opened Says SaysLow Paired Kind Nested Single Alternate Usable Tokens Piece Directives HasDir Assignment)

/-! ### Directives -/

theorem dropWhile_append_cons {p : Char → Bool} (a : Str) (x : Char) (b : Str)
    (ha : ∀ c ∈ a, p c = true) (hx : p x = false) : (a ++ x :: b).dropWhile p = x :: b := by
  induction a with
  | nil => simp [hx]
  | cons c a ih =>
    rw [List.cons_append, List.dropWhile_cons, ha c List.mem_cons_self]
    exact ih fun d hd => ha d (List.mem_cons_of_mem _ hd)

theorem dropWhile_split {p : Char → Bool} (l : Str) :
    ∃ a, l = a ++ l.dropWhile p ∧ ∀ c ∈ a, p c = true := by
  refine ⟨l.takeWhile p, (List.takeWhile_append_dropWhile).symm, fun c hc => ?_⟩
  have := List.all_takeWhile (l := l) (p := p)
  exact List.all_eq_true.1 this c hc

theorem setHere_iff (s : Str) : setHere s = true ↔
    ∃ x sp1 sp2 y b, s = x :: sp1 ++ '=' :: sp2 ++ y :: b ∧ isSpace x = false ∧ isSpace y = false
      ∧ (∀ c ∈ sp1, isSpace c = true) ∧ ∀ c ∈ sp2, isSpace c = true := by
  cases s with
  | nil => simp [setHere]
  | cons x l =>
    constructor
    · intro h
      unfold setHere at h
      simp only [Bool.and_eq_true, Bool.not_eq_true'] at h
      obtain ⟨hx, h⟩ := h
      obtain ⟨a, ha, ha'⟩ := dropWhile_split (p := isSpace) l
      cases hd : l.dropWhile isSpace with
      | nil => rw [hd] at h; simp at h
      | cons d r =>
        rw [hd] at h
        simp only [Bool.and_eq_true, decide_eq_true_eq] at h
        obtain ⟨rfl, hr⟩ := h
        obtain ⟨b, hb, hb'⟩ := dropWhile_split (p := isSpace) r
        cases hr' : r.dropWhile isSpace with
        | nil => exact absurd hr' hr
        | cons y c =>
          have hy : isSpace y = false := by
            have := List.head?_dropWhile_not isSpace r
            rw [hr'] at this
            simpa using this
          refine ⟨x, a, b, y, c, ?_, hx, hy, ha', hb'⟩
          rw [hd, hb, hr'] at ha
          rw [ha]
          simp
    · rintro ⟨x', sp1, sp2, y, b, he, hx, hy, h1, h2⟩
      have he' : x = x' ∧ l = sp1 ++ '=' :: (sp2 ++ y :: b) := by simpa using he
      obtain ⟨rfl, rfl⟩ := he'
      simp only [setHere]
      rw [dropWhile_append_cons sp1 '=' _ h1 (by decide)]
      simp [hx, dropWhile_append_cons sp2 y b h2 hy]

theorem setOk_iff (s : Str) : setOk s = true ↔ Assignment s := by
  induction s with
  | nil => simp [setOk, Assignment]
  | cons c l ih =>
    unfold setOk
    simp only [Bool.or_eq_true, Bool.and_eq_true, decide_eq_true_eq, setHere_iff, ih]
    constructor
    · rintro (⟨x, sp1, sp2, y, b, he, h⟩ | ⟨hc, a, x, sp1, sp2, y, b, he, ha, h⟩)
      · exact ⟨[], x, sp1, sp2, y, b, by simpa using he, by simp, h⟩
      · exact ⟨c :: a, x, sp1, sp2, y, b, by rw [he]; simp, by simp [ha, Ne.symm hc], h⟩
    · rintro ⟨a, x, sp1, sp2, y, b, he, ha, h⟩
      cases a with
      | nil => exact .inl ⟨x, sp1, sp2, y, b, by simpa using he, h⟩
      | cons d a =>
        have he' : c = d ∧ l = a ++ x :: sp1 ++ '=' :: sp2 ++ y :: b := by simpa using he
        simp only [List.mem_cons, not_or] at ha
        exact .inr ⟨fun e => ha.1 (by rw [← he'.1, e]), a, x, sp1, sp2, y, b, he'.2, ha.2, h⟩

/-- The words on the stack. -/
def st (ks : List Kind) : List Str := ks.map fun k => k.word.toList

theorem word_inj (k l : Kind) (h : k.word.toList = l.word.toList) : k = l := by
  revert h; cases k <;> cases l <;> decide +kernel

theorem head_st (ks : List Kind) (k : Kind) :
    (st ks).head? = some k.word.toList ↔ ks.head? = some k := by
  cases ks with
  | nil => simp [st]
  | cons l ks =>
    simp only [st, List.map_cons, List.head?_cons, Option.some.injEq]
    exact ⟨word_inj l k, fun h => by rw [h]⟩

theorem mem_st (ks : List Kind) (k : Kind) : k.word.toList ∈ st ks ↔ k ∈ ks := by
  unfold st
  rw [List.mem_map]
  exact ⟨fun ⟨l, hl, he⟩ => word_inj l k he ▸ hl, fun h => ⟨k, h, rfl⟩⟩

/-- There is a `for` block around. -/
def loopOf (ks : List Kind) : Bool := decide (Kind.for_ ∈ ks)

theorem endDir_ok (k : Kind) (d : Dir) (ks : List Kind) (s' : List Str) :
    endDir k.word.toList d (st ks) = .ok s' ↔
      d.content = [] ∧ ∃ ks', ks = k :: ks' ∧ s' = st ks' := by
  cases ks with
  | nil => simp [endDir, st]
  | cons l ks =>
    unfold endDir
    simp only [st, List.map_cons]
    by_cases h : l = k
    · subst h
      by_cases hc : d.content = []
      · simp only [ne_eq, not_true_eq_false, if_false, hc, Except.ok.injEq, true_and]
        constructor
        · rintro rfl; exact ⟨ks, rfl, rfl⟩
        · rintro ⟨ks', he, rfl⟩; rw [(List.cons.inj he).2]
      · simp [hc]
    · have h1 : l.word.toList ≠ k.word.toList := fun e => h (word_inj _ _ e)
      simp only [ne_eq, h1, not_false_eq_true, if_true, reduceCtorEq, List.cons.injEq, false_iff]
      rintro ⟨_, ks', ⟨he, _⟩, _⟩
      exact h he

/-- What one directive does, in the words of the specification. -/
inductive Effect (ks : List Kind) (d : Dir) : List Kind → Prop
  | opens (k : Kind) : d.word = k.word.toList → Effect ks d (k :: ks)
  | closes (k : Kind) (ks' : List Kind) : ks = k :: ks' → d.word = k.endWord.toList →
      d.content = [] → Effect ks d ks'
  | single : Single (loopOf ks) ks.head? d → Effect ks d ks

theorem dirStep_effect (ks : List Kind) (d : Dir) (s' : List Str)
    (h : dirStep (st ks) d = .ok s') : ∃ ks', s' = st ks' ∧ Effect ks d ks' := by
  unfold dirStep at h
  by_cases h1 : d.word ∈ ["if".toList, "for".toList, "macro".toList, "call".toList]
  · rw [if_pos h1] at h
    obtain rfl := Except.ok.inj h
    simp only [List.mem_cons, List.not_mem_nil, or_false] at h1
    rcases h1 with h1 | h1 | h1 | h1
    · exact ⟨Kind.if_ :: ks, by rw [h1]; rfl, .opens _ h1⟩
    · exact ⟨Kind.for_ :: ks, by rw [h1]; rfl, .opens _ h1⟩
    · exact ⟨Kind.macro_ :: ks, by rw [h1]; rfl, .opens _ h1⟩
    · exact ⟨Kind.call_ :: ks, by rw [h1]; rfl, .opens _ h1⟩
  rw [if_neg h1] at h
  by_cases h2 : d.word = "endif".toList
  · rw [if_pos h2] at h
    obtain ⟨hc, ks', he, rfl⟩ := (endDir_ok .if_ d ks s').1 h
    exact ⟨ks', rfl, .closes _ ks' he h2 hc⟩
  rw [if_neg h2] at h
  by_cases h3 : d.word = "elif".toList
  · rw [if_pos h3] at h
    by_cases h4 : (st ks).head? = some "if".toList
    · rw [if_pos h4] at h
      obtain rfl := Except.ok.inj h
      exact ⟨ks, rfl, .single (.elif_ h3 ((head_st ks .if_).1 h4))⟩
    · rw [if_neg h4] at h; simp at h
  rw [if_neg h3] at h
  by_cases h4 : d.word = "else".toList
  · rw [if_pos h4] at h
    by_cases h5 : (st ks).head? = some "if".toList ∨ (st ks).head? = some "for".toList
    · rw [if_pos h5] at h
      by_cases h6 : d.content = []
      · rw [if_neg (by simpa using h6)] at h
        obtain rfl := Except.ok.inj h
        refine ⟨ks, rfl, .single (.else_ h4 ?_ h6)⟩
        exact h5.imp (head_st ks .if_).1 (head_st ks .for_).1
      · rw [if_pos h6] at h; simp at h
    · rw [if_neg h5] at h; simp at h
  rw [if_neg h4] at h
  by_cases h5 : d.word = "endfor".toList
  · rw [if_pos h5] at h
    obtain ⟨hc, ks', he, rfl⟩ := (endDir_ok .for_ d ks s').1 h
    exact ⟨ks', rfl, .closes _ ks' he h5 hc⟩
  rw [if_neg h5] at h
  by_cases h6 : d.word = "endmacro".toList
  · rw [if_pos h6] at h
    obtain ⟨hc, ks', he, rfl⟩ := (endDir_ok .macro_ d ks s').1 h
    exact ⟨ks', rfl, .closes _ ks' he h6 hc⟩
  rw [if_neg h6] at h
  by_cases h7 : d.word = "endcall".toList
  · rw [if_pos h7] at h
    obtain ⟨hc, ks', he, rfl⟩ := (endDir_ok .call_ d ks s').1 h
    exact ⟨ks', rfl, .closes _ ks' he h7 hc⟩
  rw [if_neg h7] at h
  by_cases h8 : d.word = "break".toList ∨ d.word = "continue".toList
  · rw [if_pos h8] at h
    by_cases h9 : "for".toList ∈ st ks
    · rw [if_neg (by simpa using h9)] at h
      by_cases hc : d.content = []
      · rw [if_neg (by simpa using hc)] at h
        obtain rfl := Except.ok.inj h
        exact ⟨ks, rfl, .single (.jump h8 (by simpa [loopOf] using (mem_st ks .for_).1 h9) hc)⟩
      · rw [if_pos hc] at h; simp at h
    · rw [if_pos h9] at h; simp at h
  rw [if_neg h8] at h
  by_cases h9 : d.word = "do".toList
  · rw [if_pos h9] at h
    by_cases hw : oneWord d.content = true
    · rw [if_pos hw] at h; simp at h
    · rw [if_neg hw] at h
      obtain rfl := Except.ok.inj h
      exact ⟨ks, rfl, .single (.do_ h9 (by simpa [oneWord] using hw))⟩
  rw [if_neg h9] at h
  by_cases h10 : d.word = "set".toList
  · rw [if_pos h10] at h
    by_cases hw : setOk d.content = true
    · rw [if_pos hw] at h
      obtain rfl := Except.ok.inj h
      exact ⟨ks, rfl, .single (.set_ h10 ((setOk_iff _).1 hw))⟩
    · rw [if_neg hw] at h; simp at h
  rw [if_neg h10] at h
  by_cases h11 : d.word ∈ ["import".toList, "include".toList, "from".toList]
  · rw [if_pos h11] at h
    obtain rfl := Except.ok.inj h
    exact ⟨ks, rfl, .single (.load (by simpa only [List.mem_cons, List.not_mem_nil, or_false]
      using h11))⟩
  · rw [if_neg h11] at h; simp at h

theorem step_open (s : List Str) (d : Dir) (k : Kind) (h : d.word = k.word.toList) :
    dirStep s d = .ok (k.word.toList :: s) := by
  cases k <;> simp only [Kind.word] at h <;> simp [dirStep, h, Kind.word]

theorem step_end (s : List Str) (d : Dir) (k : Kind) (h : d.word = k.endWord.toList) :
    dirStep s d = endDir k.word.toList d s := by
  cases k <;> simp only [Kind.endWord] at h <;> simp [dirStep, h, Kind.word]

theorem effect_dirStep (ks : List Kind) (d : Dir) (ks' : List Kind) (h : Effect ks d ks') :
    dirStep (st ks) d = .ok (st ks') := by
  cases h with
  | opens k hw => rw [step_open _ _ k hw]; rfl
  | closes k ks' he hw hc =>
    rw [step_end _ _ k hw]
    exact (endDir_ok k d ks (st ks')).2 ⟨hc, ks', he, rfl⟩
  | single hs =>
    cases hs with
    | elif_ hw hc =>
      have h1 : (st ks).head? = some "if".toList := (head_st ks .if_).2 hc
      simp only [String.reduceToList] at h1
      simp [dirStep, hw, h1]
    | else_ hw hc hn =>
      have h1 : (st ks).head? = some "if".toList ∨ (st ks).head? = some "for".toList :=
        hc.imp (head_st ks .if_).2 (head_st ks .for_).2
      simp only [String.reduceToList] at h1
      simp [dirStep, hw, h1, hn]
    | jump hw hl hn =>
      have hmem : "for".toList ∈ st ks := (mem_st ks .for_).2 (by simpa [loopOf] using hl)
      simp only [String.reduceToList] at hmem
      rcases hw with hw | hw <;> simp [dirStep, hw, hmem, hn]
    | do_ hw hn =>
      have h1 : oneWord d.content = false := by simpa [oneWord] using hn
      simp [dirStep, hw, h1]
    | set_ hw hn => simp [dirStep, hw, (setOk_iff _).2 hn]
    | load hw => rcases hw with hw | hw | hw <;> simp [dirStep, hw]

theorem highCheck_cons (s : List Str) (d : Dir) (rest : List Dir) :
    highCheck s (d :: rest) = match dirStep s d with
      | .error e => some e
      | .ok s' => highCheck s' rest := by
  cases s <;> rfl

theorem highCheck_effect (ks ks' : List Kind) (d : Dir) (rest : List Dir) (h : Effect ks d ks') :
    highCheck (st ks) (d :: rest) = highCheck (st ks') rest := by
  rw [highCheck_cons, effect_dirStep ks d ks' h]

theorem highCheck_none_cons (ks : List Kind) (d : Dir) (rest : List Dir)
    (h : highCheck (st ks) (d :: rest) = none) :
    ∃ ks', Effect ks d ks' ∧ highCheck (st ks') rest = none := by
  rw [highCheck_cons] at h
  cases hd : dirStep (st ks) d with
  | error e => rw [hd] at h; simp at h
  | ok s' =>
    rw [hd] at h
    obtain ⟨ks', rfl, he⟩ := dirStep_effect ks d s' hd
    exact ⟨ks', he, h⟩

theorem loop_cons (k : Kind) (ks : List Kind) : loopOf (k :: ks) = (loopOf ks || k == .for_) := by
  unfold loopOf
  cases k <;> simp

/-- Nested directives leave the stack as it was. -/
theorem nested_run {loop : Bool} {cur : Option Kind} {ds : List Dir} (h : Nested loop cur ds) :
    ∀ ks : List Kind, loopOf ks = loop → ks.head? = cur → ∀ rest,
      highCheck (st ks) (ds ++ rest) = highCheck (st ks) rest := by
  induction h with
  | nil => intro ks _ _ rest; rfl
  | single d ds hs _ ih =>
    intro ks hl hc rest
    rw [List.cons_append, highCheck_effect ks ks d _ (.single (by rw [hl, hc]; exact hs))]
    exact ih ks hl hc rest
  | block k b body e ds hb _ he hn _ ih1 ih2 =>
    intro ks hl hc rest
    rw [List.cons_append, List.cons_append, highCheck_effect ks (k :: ks) b _ (.opens k hb),
      List.append_assoc, ih1 (k :: ks) (by rw [loop_cons, hl]) rfl, List.cons_append,
      highCheck_effect (k :: ks) ks e _ (.closes k ks rfl he hn)]
    exact ih2 ks hl hc rest

theorem run_nested (n : Nat) : ∀ (ds : List Dir), ds.length ≤ n → ∀ ks : List Kind,
    highCheck (st ks) ds = none →
      match ks with
      | [] => Nested false none ds
      | k :: ks' => ∃ body e rest, ds = body ++ e :: rest
          ∧ Nested (loopOf (k :: ks')) (some k) body
          ∧ e.word = k.endWord.toList ∧ e.content = [] ∧ highCheck (st ks') rest = none := by
  induction n with
  | zero =>
    intro ds hl ks h
    obtain rfl := List.length_eq_zero_iff.1 (Nat.le_zero.1 hl)
    cases ks with
    | nil => exact .nil
    | cons k ks => simp [st, highCheck] at h
  | succ n ih =>
    intro ds hl ks h
    cases ds with
    | nil =>
      cases ks with
      | nil => exact .nil
      | cons k ks => simp [st, highCheck] at h
    | cons d ds =>
      simp only [List.length_cons] at hl
      obtain ⟨ks1, he, hr⟩ := highCheck_none_cons ks d ds h
      cases he with
      | opens k hw =>
        obtain ⟨body, e, rest, rfl, hb, hew, hec, hr2⟩ := ih ds (by omega) (k :: ks) hr
        have hlen : rest.length ≤ n := by
          simp only [List.length_append, List.length_cons] at hl
          omega
        have h2 := ih rest hlen ks hr2
        rw [loop_cons] at hb
        cases ks with
        | nil => exact Nested.block k d body e rest hw (by simpa [loopOf] using hb) hew hec h2
        | cons k2 ks2 =>
          obtain ⟨body2, e2, rest2, rfl, hb2, hew2, hec2, hr3⟩ := h2
          refine ⟨d :: body ++ e :: body2, e2, rest2, by simp, ?_, hew2, hec2, hr3⟩
          exact Nested.block k d body e body2 hw hb hew hec hb2
      | closes k ks' hks hw hc =>
        subst hks
        exact ⟨[], d, ds, rfl, .nil, hw, hc, hr⟩
      | single hs =>
        have h2 := ih ds (by omega) ks hr
        cases ks with
        | nil => exact .single d ds (by simpa [loopOf] using hs) h2
        | cons k2 ks2 =>
          obtain ⟨body2, e2, rest2, rfl, hb2, hew2, hec2, hr3⟩ := h2
          exact ⟨d :: body2, e2, rest2, rfl, .single d body2 hs hb2, hew2, hec2, hr3⟩

/-- **C108.**  The second part of the linter accepts exactly the directives that are nested. -/
theorem highCheck_iff (ds : List Dir) : highCheck [] ds = none ↔ Nested false none ds := by
  constructor
  · intro h
    exact run_nested ds.length ds (Nat.le_refl _) [] h
  · intro h
    have := nested_run h [] rfl rfl []
    rw [List.append_nil] at this
    exact this

/-! ### Where the second part refuses -/

theorem nested_append {loop : Bool} {cur : Option Kind} {a b : List Dir} (ha : Nested loop cur a)
    (hb : Nested loop cur b) : Nested loop cur (a ++ b) := by
  induction ha with
  | nil => exact hb
  | single d ds hs _ ih => exact .single d _ hs (ih hb)
  | block k b0 body e ds h1 h2 h3 h4 _ _ ih2 =>
    have := Nested.block k b0 body e _ h1 h2 h3 h4 (ih2 hb)
    simpa using this

theorem opened_append {ds : List Dir} {ks : List Kind} (h : Opened ds ks) (x : List Dir)
    (hx : Nested (loopOf ks) ks.head? x) : Opened (ds ++ x) ks := by
  cases h with
  | none ds hn => exact .none _ (nested_append hn (by simpa [loopOf] using hx))
  | block ds ks k b body ho hb hn =>
    have := Opened.block ds ks k b (body ++ x) ho hb (nested_append hn hx)
    simpa using this

theorem opened_effect {ds : List Dir} {ks ks' : List Kind} (h : Opened ds ks) (d : Dir)
    (he : Effect ks d ks') : Opened (ds ++ [d]) ks' := by
  cases he with
  | opens k hw => exact .block ds ks k d [] h hw .nil
  | single hs => exact opened_append h [d] (.single d [] hs .nil)
  | closes k ks' hk hw hc =>
    subst hk
    cases h with
    | block ds ks k b body ho hb hn =>
      have := opened_append ho (b :: body ++ d :: [])
        (Nested.block k b body d [] hb (by rw [← loop_cons]; exact hn) hw hc .nil)
      simpa using this

theorem opened_run {ds : List Dir} {ks : List Kind} (h : Opened ds ks) (rest : List Dir) :
    highCheck [] (ds ++ rest) = highCheck (st ks) rest := by
  induction h generalizing rest with
  | none ds hn => exact nested_run hn [] rfl rfl rest
  | block ds ks k b body _ hb hn ih =>
    rw [List.append_assoc, ih, List.cons_append,
      highCheck_effect ks (k :: ks) b _ (.opens k hb)]
    exact nested_run hn (k :: ks) rfl rfl rest

theorem endDir_says (k : Kind) (d : Dir) (ks : List Kind) (e : Err)
    (hw : d.word = k.endWord.toList) (h : endDir k.word.toList d (st ks) = .error e) :
    Says ks d e := by
  unfold endDir at h
  cases ks with
  | nil =>
    simp only [st, List.map_nil, Except.error.injEq] at h
    subst h
    exact ⟨rfl, rfl, rfl, k, hw⟩
  | cons l ks =>
    simp only [st, List.map_cons] at h
    by_cases hl : l = k
    · subst hl
      rw [if_neg (by simp)] at h
      by_cases hc : d.content = []
      · rw [if_neg (by simpa using hc)] at h; simp at h
      · rw [if_pos hc] at h
        obtain rfl := Except.error.inj h
        exact ⟨rfl, rfl, rfl, hc, .inl ⟨l, hw⟩⟩
    · rw [if_pos (fun e => hl (word_inj _ _ e))] at h
      obtain rfl := Except.error.inj h
      exact ⟨rfl, rfl, k, l, fun e => hl e.symm, hw, rfl, rfl⟩

theorem dirStep_says (ks : List Kind) (d : Dir) (e : Err) (h : dirStep (st ks) d = .error e) :
    Says ks d e := by
  unfold dirStep at h
  by_cases h1 : d.word ∈ ["if".toList, "for".toList, "macro".toList, "call".toList]
  · rw [if_pos h1] at h; simp at h
  rw [if_neg h1] at h
  by_cases h2 : d.word = "endif".toList
  · rw [if_pos h2] at h
    exact endDir_says .if_ d ks e h2 h
  rw [if_neg h2] at h
  by_cases h3 : d.word = "elif".toList
  · rw [if_pos h3] at h
    by_cases h4 : (st ks).head? = some "if".toList
    · rw [if_pos h4] at h; simp at h
    · rw [if_neg h4] at h
      obtain rfl := Except.error.inj h
      exact ⟨rfl, rfl, h3, fun e => h4 ((head_st ks .if_).2 e)⟩
  rw [if_neg h3] at h
  by_cases h4 : d.word = "else".toList
  · rw [if_pos h4] at h
    by_cases h5 : (st ks).head? = some "if".toList ∨ (st ks).head? = some "for".toList
    · rw [if_pos h5] at h
      by_cases h6 : d.content = []
      · rw [if_neg (by simpa using h6)] at h; simp at h
      · rw [if_pos h6] at h
        obtain rfl := Except.error.inj h
        exact ⟨rfl, rfl, rfl, h6, .inr (by rw [h4]; simp)⟩
    · rw [if_neg h5] at h
      obtain rfl := Except.error.inj h
      exact ⟨rfl, rfl, h4, fun e => h5 (.inl ((head_st ks .if_).2 e)),
        fun e => h5 (.inr ((head_st ks .for_).2 e))⟩
  rw [if_neg h4] at h
  by_cases h5 : d.word = "endfor".toList
  · rw [if_pos h5] at h
    exact endDir_says .for_ d ks e h5 h
  rw [if_neg h5] at h
  by_cases h6 : d.word = "endmacro".toList
  · rw [if_pos h6] at h
    exact endDir_says .macro_ d ks e h6 h
  rw [if_neg h6] at h
  by_cases h7 : d.word = "endcall".toList
  · rw [if_pos h7] at h
    exact endDir_says .call_ d ks e h7 h
  rw [if_neg h7] at h
  by_cases h8 : d.word = "break".toList ∨ d.word = "continue".toList
  · rw [if_pos h8] at h
    by_cases h9 : "for".toList ∈ st ks
    · rw [if_neg (by simpa using h9)] at h
      by_cases hc : d.content = []
      · rw [if_neg (by simpa using hc)] at h; simp at h
      · rw [if_pos hc] at h
        obtain rfl := Except.error.inj h
        refine ⟨rfl, rfl, rfl, hc, .inr ?_⟩
        rcases h8 with h8 | h8 <;> rw [h8] <;> simp
    · rw [if_pos h9] at h
      obtain rfl := Except.error.inj h
      refine ⟨rfl, rfl, ?_, fun e => h9 ((mem_st ks .for_).2 e)⟩
      rcases h8 with h8 | h8 <;> rw [h8] <;> simp
  rw [if_neg h8] at h
  by_cases h9 : d.word = "do".toList
  · rw [if_pos h9] at h
    by_cases hw : oneWord d.content = true
    · rw [if_pos hw] at h
      obtain rfl := Except.error.inj h
      exact ⟨rfl, h9, rfl, by simpa [oneWord] using hw⟩
    · rw [if_neg hw] at h; simp at h
  rw [if_neg h9] at h
  by_cases h10 : d.word = "set".toList
  · rw [if_pos h10] at h
    by_cases hw : setOk d.content = true
    · rw [if_pos hw] at h; simp at h
    · rw [if_neg hw] at h
      obtain rfl := Except.error.inj h
      exact ⟨rfl, h10, rfl, fun e => hw ((setOk_iff _).2 e)⟩
  rw [if_neg h10] at h
  by_cases h11 : d.word ∈ ["import".toList, "include".toList, "from".toList]
  · rw [if_pos h11] at h; simp at h
  · rw [if_neg h11] at h
    obtain rfl := Except.error.inj h
    simp only [List.mem_cons, List.not_mem_nil, or_false, not_or] at h1 h8 h11
    refine ⟨rfl, rfl, ?_, ?_⟩
    · intro k
      cases k
      · exact ⟨h1.1, h2⟩
      · exact ⟨h1.2.1, h5⟩
      · exact ⟨h1.2.2.1, h6⟩
      · exact ⟨h1.2.2.2, h7⟩
    · simp only [List.map_cons, List.map_nil, List.mem_cons, List.not_mem_nil, or_false, not_or]
      exact ⟨h3, h4, h8.1, h8.2, h9, h10, h11.1, h11.2.1, h11.2.2⟩

theorem highCheck_some (ds : List Dir) (pre : List Dir) (ks : List Kind) (ho : Opened pre ks)
    (e : Err) (h : highCheck (st ks) ds = some e) :
    (∃ k ks', Opened (pre ++ ds) (k :: ks') ∧ e = .openAtEnd k.word.toList)
    ∨ ∃ a d b ks', ds = a ++ d :: b ∧ Opened (pre ++ a) ks' ∧ Says ks' d e
      ∧ dirStep (st ks') d = .error e := by
  induction ds generalizing pre ks with
  | nil =>
    cases ks with
    | nil => simp [st, highCheck] at h
    | cons k ks =>
      simp only [st, List.map_cons, highCheck, Option.some.injEq] at h
      exact .inl ⟨k, ks, by simpa using ho, h.symm⟩
  | cons d ds ih =>
    rw [highCheck_cons] at h
    cases hd : dirStep (st ks) d with
    | error e' =>
      rw [hd] at h
      obtain rfl : e' = e := by simpa using h
      exact .inr ⟨[], d, ds, ks, rfl, by simpa using ho, dirStep_says ks d e' hd, hd⟩
    | ok s' =>
      rw [hd] at h
      obtain ⟨ks', rfl, he⟩ := dirStep_effect ks d s' hd
      rcases ih (pre ++ [d]) ks' (opened_effect ho d he) h with
        ⟨k, k2, h1, h2⟩ | ⟨a, d2, b, k2, h1, h2, h3⟩
      · exact .inl ⟨k, k2, by simpa using h1, h2⟩
      · exact .inr ⟨d :: a, d2, b, k2, by rw [h1]; rfl, by simpa using h2, h3⟩

/-- **C108.**  Where the second part refuses, it is at the end of the file, with a block open and
named in the message, or at a directive after which nothing could make the whole nested, while what
is before it could be continued; and what the message says is true. -/
theorem highCheck_refusal (ds : List Dir) (e : Err) (h : highCheck [] ds = some e) :
    (∃ k ks, Opened ds (k :: ks) ∧ e = .openAtEnd k.word.toList)
    ∨ ∃ a d b ks, ds = a ++ d :: b ∧ Opened a ks ∧ Says ks d e
      ∧ ∀ cont, ¬ Nested false none (a ++ d :: cont) := by
  rcases highCheck_some ds [] [] (.none [] .nil) e h with ⟨k, ks, h1, h2⟩ | ⟨a, d, b, ks, h1, h2, h3, h4⟩
  · exact .inl ⟨k, ks, h1, h2⟩
  · refine .inr ⟨a, d, b, ks, h1, h2, h3, fun cont hn => ?_⟩
    rw [← highCheck_iff, opened_run (by simpa using h2), highCheck_cons, h4] at hn
    simp at hn

/-- Directives with open blocks can be continued: close the blocks. -/
theorem opened_viable {ds : List Dir} {ks : List Kind} (h : Opened ds ks) :
    ∃ cont, Nested false none (ds ++ cont) := by
  refine ⟨ks.map fun k => ⟨0, k.endWord.toList, []⟩, ?_⟩
  rw [← highCheck_iff, opened_run h]
  clear h
  induction ks with
  | nil => rfl
  | cons k ks ih =>
    rw [List.map_cons, highCheck_effect (k :: ks) ks _ _ (.closes k ks rfl rfl rfl)]
    exact ih

/-! ### The first part -/

theorem isStarter_iff (o : Opts) (t : Str) :
    isStarter o t = true ↔ ∃ p ∈ Spec.pairs o, t = p.1 := by
  simp [isStarter, Spec.pairs, or_assoc]

theorem paired_iff (o : Opts) (s e : Str) : paired o s e = true ↔ (s, e) ∈ Spec.pairs o := by
  simp [paired, Spec.pairs, or_assoc]

theorem all_cases (o : Opts) (t : Str) (ht : t ∈ o.all) :
    (∃ p ∈ Spec.pairs o, t = p.1) ∨ ∃ p ∈ Spec.pairs o, t = p.2 := by
  simp only [Opts.all, List.mem_cons, List.not_mem_nil, or_false] at ht
  simp only [Spec.pairs, List.mem_cons, List.not_mem_nil, or_false, exists_eq_or_imp,
    exists_eq_left]
  tauto

theorem pairs_apart (o : Opts) (hd : o.all.Nodup) (p q : Str × Str) (hp : p ∈ Spec.pairs o)
    (hq : q ∈ Spec.pairs o) : (p.1 = q.1 → p = q) ∧ (p.2 = q.2 → p = q) ∧ p.1 ≠ q.2 := by
  simp only [Opts.all, List.nodup_cons, List.mem_cons, List.not_mem_nil, or_false, not_or,
    not_false_eq_true, List.nodup_nil, and_true] at hd
  obtain ⟨⟨a1, a2, a3, a4, a5⟩, ⟨b2, b3, b4, b5⟩, ⟨c3, c4, c5⟩, ⟨d4, d5⟩, e5⟩ := hd
  simp only [Spec.pairs, List.mem_cons, List.not_mem_nil, or_false] at hp hq
  rcases hp with rfl | rfl | rfl <;> rcases hq with rfl | rfl | rfl <;>
    refine ⟨fun h => ?_, fun h => ?_, fun h => ?_⟩ <;>
    first
      | rfl
      | exact absurd h (by assumption)
      | exact absurd h.symm (by assumption)

theorem paired_snoc (o : Opts) (a : List Str) (p : Str × Str) (ha : Paired o a)
    (hp : p ∈ Spec.pairs o) : Paired o (a ++ [p.1, p.2]) := by
  induction ha with
  | nil => exact .pair p [] hp .nil
  | pair q rest hq _ ih => exact .pair q _ hq ih

theorem lowCheck_spec (o : Opts) (toks : List (Nat × Str)) (a : List Str) (last : Option Str)
    (hall : ∀ t ∈ toks, t.2 ∈ o.all) (h0 : last = none → Paired o a)
    (h1 : ∀ s, last = some s → ∃ b p, Paired o b ∧ p ∈ Spec.pairs o ∧ s = p.1 ∧ a = b ++ [p.1]) :
    (lowCheck o last toks = none → Spec.Alternate o (a ++ toks.map Prod.snd))
    ∧ ∀ e, lowCheck o last toks = some e → ∃ x n t y, toks = x ++ (n, t) :: y
      ∧ SaysLow o (a ++ x.map Prod.snd) n t e := by
  induction toks generalizing a last with
  | nil =>
    refine ⟨fun _ => ?_, fun e he => by simp [lowCheck] at he⟩
    cases last with
    | none => exact .inl (by simpa using h0 rfl)
    | some s =>
      obtain ⟨b, p, hb, hp, _, rfl⟩ := h1 s rfl
      exact .inr ⟨b, p, hb, hp, by simp⟩
  | cons t toks ih =>
    obtain ⟨n, t⟩ := t
    have hall' : ∀ u ∈ toks, u.2 ∈ o.all := fun u hu => hall u (by simp [hu])
    have ht : t ∈ o.all := hall (n, t) (by simp)
    by_cases hs : isStarter o t = true
    · obtain ⟨q, hq, hqt⟩ := (isStarter_iff o t).1 hs
      cases last with
      | none =>
        rw [show lowCheck o none ((n, t) :: toks) = lowCheck o (some t) toks by
          simp [lowCheck, hs]]
        have := ih (a ++ [t]) (some t) hall' (by simp) (by
          intro s hst
          obtain rfl := Option.some.inj hst
          exact ⟨a, q, h0 rfl, hq, hqt, by rw [hqt]⟩)
        refine ⟨fun h => by simpa using this.1 h, fun e he => ?_⟩
        obtain ⟨x, m, u, y, rfl, h⟩ := this.2 e he
        exact ⟨(n, t) :: x, m, u, y, rfl, by simpa using h⟩
      | some s =>
        rw [show lowCheck o (some s) ((n, t) :: toks) = some (.openingInside n t s) by
          simp [lowCheck, hs]]
        refine ⟨by simp, fun e he => ?_⟩
        obtain rfl := Option.some.inj he
        obtain ⟨b, p, hb, hp, rfl, rfl⟩ := h1 s rfl
        exact ⟨[], n, t, toks, rfl, .openingInside b p q hb hp hq (by simp) hqt⟩
    · have hq : ∃ q ∈ Spec.pairs o, t = q.2 := by
        rcases all_cases o t ht with h | h
        · exact absurd ((isStarter_iff o t).2 h) hs
        · exact h
      obtain ⟨q, hq, hqt⟩ := hq
      cases last with
      | none =>
        rw [show lowCheck o none ((n, t) :: toks) = some (.closingOutside n t) by
          simp [lowCheck, hs]]
        refine ⟨by simp, fun e he => ?_⟩
        obtain rfl := Option.some.inj he
        exact ⟨[], n, t, toks, rfl, .closingOutside q (by simpa using h0 rfl) hq hqt⟩
      | some s =>
        obtain ⟨b, p, hb, hp, rfl, rfl⟩ := h1 s rfl
        by_cases hpt : paired o p.1 t = true
        · rw [show lowCheck o (some p.1) ((n, t) :: toks) = lowCheck o none toks by
            simp [lowCheck, hs, hpt]]
          have hmem := (paired_iff o p.1 t).1 hpt
          have := ih (b ++ [p.1, t]) none hall' (fun _ => paired_snoc o b (p.1, t) hb hmem)
            (by simp)
          refine ⟨fun h => by simpa using this.1 h, fun e he => ?_⟩
          obtain ⟨x, m, u, y, rfl, h⟩ := this.2 e he
          exact ⟨(n, t) :: x, m, u, y, rfl, by simpa using h⟩
        · rw [show lowCheck o (some p.1) ((n, t) :: toks) = some (.closingWrong n t p.1) by
            simp [lowCheck, hs, hpt]]
          refine ⟨by simp, fun e he => ?_⟩
          obtain rfl := Option.some.inj he
          refine ⟨[], n, t, toks, rfl, .closingWrong b p q hb hp hq ?_ (by simp) hqt⟩
          rintro rfl
          exact hpt ((paired_iff o p.1 t).2 (by rw [hqt]; exact hp))

theorem alternate_cons (o : Opts) (x : Str) (l : List Str) (h : Spec.Alternate o (x :: l)) :
    ∃ p ∈ Spec.pairs o, x = p.1 ∧ (l = [] ∨ ∃ l', l = p.2 :: l' ∧ Spec.Alternate o l') := by
  rcases h with h | ⟨a, p, ha, hp, h⟩
  · cases h with
    | pair p rest hp hr => exact ⟨p, hp, rfl, .inr ⟨rest, rfl, .inl hr⟩⟩
  · cases ha with
    | nil =>
      simp only [List.nil_append, List.cons.injEq] at h
      exact ⟨p, hp, h.1, .inl h.2⟩
    | pair q rest hq hr =>
      simp only [List.cons_append, List.cons.injEq] at h
      exact ⟨q, hq, h.1, .inr ⟨_, h.2, .inr ⟨rest, p, hr, hp, rfl⟩⟩⟩

theorem alternate_drop (o : Opts) (hd : o.all.Nodup) (b c : List Str) (hb : Paired o b)
    (h : Spec.Alternate o (b ++ c)) : Spec.Alternate o c := by
  induction hb with
  | nil => exact h
  | pair q rest hq _ ih =>
    obtain ⟨p, hp, hpq, hl⟩ := alternate_cons o _ _ h
    obtain rfl := (pairs_apart o hd q p hq hp).1 hpq
    rcases hl with hl | ⟨l', hl, ha⟩
    · simp at hl
    · simp only [List.append_eq, List.cons_append, List.cons.injEq, true_and] at hl
      exact ih (by rw [← hl] at ha; exact ha)

theorem saysLow_stuck (o : Opts) (hd : o.all.Nodup) (a : List Str) (n : Nat) (t : Str) (e : Err)
    (h : SaysLow o a n t e) (cont : List Str) : ¬ Spec.Alternate o (a ++ t :: cont) := by
  intro ha
  cases h with
  | openingInside b p q hb hp hq hab ht =>
    subst hab ht
    rw [List.append_assoc] at ha
    obtain ⟨r, hr, hpr, hl⟩ := alternate_cons o _ _ (alternate_drop o hd b _ hb ha)
    rcases hl with hl | ⟨l', hl, _⟩
    · simp at hl
    · simp only [List.nil_append, List.append_eq, List.cons.injEq] at hl
      exact (pairs_apart o hd q r hq hr).2.2 hl.1
  | closingOutside q hp hq ht =>
    subst ht
    obtain ⟨r, hr, hpr, _⟩ := alternate_cons o _ _ (alternate_drop o hd a _ hp ha)
    exact (pairs_apart o hd r q hr hq).2.2 hpr.symm
  | closingWrong b p q hb hp hq hne hab ht =>
    subst hab ht
    rw [List.append_assoc] at ha
    obtain ⟨r, hr, hpr, hl⟩ := alternate_cons o _ _ (alternate_drop o hd b _ hb ha)
    obtain rfl := (pairs_apart o hd p r hp hr).1 hpr
    rcases hl with hl | ⟨l', hl, _⟩
    · simp at hl
    · simp only [List.nil_append, List.append_eq, List.cons.injEq] at hl
      exact hne ((pairs_apart o hd p q hp hq).2.1 hl.1.symm)

/-- **C108.**  The first part accepts exactly the tokens that take turns and belong together, the
last start being allowed to be without its end. -/
theorem lowCheck_iff (o : Opts) (hd : o.all.Nodup) (toks : List (Nat × Str))
    (hall : ∀ t ∈ toks, t.2 ∈ o.all) :
    lowCheck o none toks = none ↔ Spec.Alternate o (toks.map Prod.snd) := by
  have h := lowCheck_spec o toks [] none hall (fun _ => .nil) (by simp)
  refine ⟨fun hn => by simpa using h.1 hn, fun ha => ?_⟩
  cases hc : lowCheck o none toks with
  | none => rfl
  | some e =>
    obtain ⟨x, n, t, y, rfl, hs⟩ := h.2 e hc
    exact absurd (by simpa using ha) (saysLow_stuck o hd _ n t e hs (y.map Prod.snd))

/-- **C108.**  Where the first part refuses, it is at a token after which nothing could make the
tokens take turns, and what the message says is true. -/
theorem lowCheck_refusal (o : Opts) (hd : o.all.Nodup) (toks : List (Nat × Str))
    (hall : ∀ t ∈ toks, t.2 ∈ o.all) (e : Err) (he : lowCheck o none toks = some e) :
    ∃ x n t y, toks = x ++ (n, t) :: y ∧ SaysLow o (x.map Prod.snd) n t e
      ∧ ∀ cont, ¬ Spec.Alternate o (x.map Prod.snd ++ t :: cont) := by
  obtain ⟨x, n, t, y, hx, hs⟩ :=
    (lowCheck_spec o toks [] none hall (fun _ => .nil) (by simp)).2 e he
  exact ⟨x, n, t, y, hx, by simpa using hs, saysLow_stuck o hd _ n t e (by simpa using hs)⟩

/-! ### The tokens of the first part -/

theorem lowLine_drop (o : Opts) (k : Nat) (l : Str) : lowLine o k l = lowLine o 0 (l.drop k) := by
  induction l generalizing k with
  | nil => cases k <;> rfl
  | cons c l ih =>
    cases k with
    | zero => rfl
    | succ k => rw [lowLine, ih, List.drop_succ_cons]

theorem lowLine_token (o : Opts) (hu : Spec.Usable o) (t l : Str) (ht : t ∈ o.all) :
    lowLine o 0 (t ++ l) = t :: lowLine o 0 l := by
  cases t with
  | nil => exact absurd rfl (hu.nonempty _ ht)
  | cons c t =>
    rw [List.cons_append, lowLine]
    cases hf : o.all.find? (fun u => u.isPrefixOf (c :: (t ++ l))) with
    | none =>
      have := List.find?_eq_none.1 hf _ ht
      exact absurd (List.isPrefixOf_iff_prefix.2 ⟨l, rfl⟩) this
    | some u =>
      have hum := List.mem_of_find?_eq_some hf
      have hup : u <+: c :: (t ++ l) := by
        have := List.find?_some hf
        exact List.isPrefixOf_iff_prefix.1 this
      have htp : (c :: t) <+: c :: (t ++ l) := ⟨l, rfl⟩
      have : u = c :: t := by
        rcases List.prefix_or_prefix_of_prefix hup htp with h | h
        · exact hu.apart _ hum _ ht h
        · exact (hu.apart _ ht _ hum h).symm
      subst this
      simp only [List.length_cons, Nat.add_sub_cancel]
      rw [lowLine_drop, List.drop_left]

theorem lowLine_other (o : Opts) (c : Char) (l : Str) (h : ∀ t ∈ o.all, ¬ t <+: c :: l) :
    lowLine o 0 (c :: l) = lowLine o 0 l := by
  rw [lowLine]
  have : o.all.find? (fun u => u.isPrefixOf (c :: l)) = none := by
    rw [List.find?_eq_none]
    intro t ht hp
    exact h t ht (List.isPrefixOf_iff_prefix.1 hp)
  rw [this]

theorem tokens_lowLine (o : Opts) (hu : Spec.Usable o) (n : Nat) (l : Str) (hl : l.length ≤ n) :
    Spec.Tokens o l (lowLine o 0 l) := by
  induction n generalizing l with
  | zero =>
    obtain rfl := List.length_eq_zero_iff.1 (Nat.le_zero.1 hl)
    exact .nil
  | succ n ih =>
    cases l with
    | nil => exact .nil
    | cons c l =>
      by_cases h : ∃ t ∈ o.all, t <+: c :: l
      · obtain ⟨t, ht, r, hr⟩ := h
        rw [← hr, lowLine_token o hu t r ht]
        refine .token t r _ ht (ih r ?_)
        have h1 := congrArg List.length hr
        have h2 := List.length_pos_of_ne_nil (hu.nonempty t ht)
        simp only [List.length_append, List.length_cons] at h1 hl
        omega
      · rw [lowLine_other o c l (fun t ht hp => h ⟨t, ht, hp⟩)]
        exact .other c l _ (fun t ht hp => h ⟨t, ht, hp⟩) (ih l (by simpa using hl))

/-- **C108.**  The tokens of a line are those of the specification, and no others. -/
theorem tokens_iff (o : Opts) (hu : Spec.Usable o) (l : Str) (ts : List Str) :
    Spec.Tokens o l ts ↔ lowLine o 0 l = ts := by
  refine ⟨fun h => ?_, fun h => h ▸ tokens_lowLine o hu _ l (Nat.le_refl _)⟩
  induction h with
  | nil => rfl
  | other c l ts hn _ ih => rw [lowLine_other o c l hn, ih]
  | token t l ts ht _ ih => rw [lowLine_token o hu t l ht, ih]

theorem lines_line (l rest : Str) (h : '\n' ∉ l) :
    lines (l ++ '\n' :: rest) = (l ++ ['\n']) :: lines rest := by
  induction l with
  | nil => simp [lines]
  | cons c l ih =>
    simp only [List.mem_cons, not_or] at h
    rw [List.cons_append, lines, if_neg (fun e => h.1 e.symm), ih h.2]
    rfl

theorem lines_last (l : Str) (h0 : l ≠ []) (h : '\n' ∉ l) : lines l = [l] := by
  induction l with
  | nil => exact absurd rfl h0
  | cons c l ih =>
    simp only [List.mem_cons, not_or] at h
    rw [lines, if_neg (fun e => h.1 e.symm)]
    cases l with
    | nil => rfl
    | cons d l => rw [ih (by simp) h.2]

theorem lines_eq {file : Str} {ls : List Str} (h : Spec.Lines file ls) : lines file = ls := by
  induction h with
  | nil => rfl
  | last l h0 h => exact lines_last l h0 h
  | line l rest ls hl _ ih => rw [lines_line l rest hl, ih]

theorem lines_exist (file : Str) : Spec.Lines file (lines file) := by
  induction file with
  | nil => exact .nil
  | cons c l ih =>
    by_cases hc : c = '\n'
    · subst hc
      have := Spec.Lines.line [] l _ (by simp) ih
      simpa [lines] using this
    · have hc' : '\n' ≠ c := fun e => hc e.symm
      rw [lines, if_neg hc]
      generalize lines l = ls at ih
      cases ih with
      | nil => exact .last [c] (by simp) (by simp [hc'])
      | last l h0 h => exact .last (c :: l) (by simp) (by simp [hc', h])
      | line l rest ls hl hr =>
        have := Spec.Lines.line (c :: l) rest ls (by simp [hc', hl]) hr
        simpa using this

theorem numbered_iff (o : Opts) (hu : Spec.Usable o) (n : Nat) (ls : List Str)
    (toks : List (Nat × Str)) : Spec.Numbered o n ls toks ↔ lowLines o n ls = toks := by
  constructor
  · intro h
    induction h with
    | nil => rfl
    | line n l ls ts rest ht _ ih => rw [lowLines, (tokens_iff o hu l ts).1 ht, ih]
  · rintro rfl
    induction ls generalizing n with
    | nil => exact .nil n
    | cons l ls ih => exact .line n l ls _ _ ((tokens_iff o hu l _).2 rfl) (ih (n + 1))

/-- **C108.**  The tokens of a file are those of its lines, with the numbers of the lines. -/
theorem lowTokens_iff (o : Opts) (hu : Spec.Usable o) (file : Str) (ls : List Str)
    (hl : Spec.Lines file ls) (toks : List (Nat × Str)) :
    Spec.Numbered o 1 ls toks ↔ lowTokens o file = toks := by
  rw [numbered_iff o hu, lowTokens, lines_eq hl]

theorem lowLine_mem (o : Opts) (k : Nat) (l : Str) : ∀ t ∈ lowLine o k l, t ∈ o.all := by
  induction l generalizing k with
  | nil => cases k <;> simp [lowLine]
  | cons c l ih =>
    cases k with
    | succ k => rw [lowLine]; exact ih k
    | zero =>
      rw [lowLine]
      cases hf : o.all.find? (fun u => u.isPrefixOf (c :: l)) with
      | none => exact ih 0
      | some u =>
        intro t ht
        rcases List.mem_cons.1 ht with rfl | ht
        · exact List.mem_of_find?_eq_some hf
        · exact ih _ t ht

theorem lowTokens_mem (o : Opts) (file : Str) : ∀ t ∈ lowTokens o file, t.2 ∈ o.all := by
  unfold lowTokens
  generalize 1 = n
  generalize lines file = ls
  induction ls generalizing n with
  | nil => simp [lowLines]
  | cons l ls ih =>
    intro t ht
    rw [lowLines] at ht
    rcases List.mem_append.1 ht with h | h
    · obtain ⟨u, hu, rfl⟩ := List.mem_map.1 h
      exact lowLine_mem o 0 l u hu
    · exact ih _ t h

/-! ### The directives of a template -/

theorem findSub_at (pat s rest : Str) (hne : pat ≠ []) (h : Spec.OnlyAtEnd pat s) :
    findSub pat (s ++ pat ++ rest) = some (s, pat ++ rest) := by
  induction s with
  | nil =>
    cases pat with
    | nil => exact absurd rfl hne
    | cons c p =>
      rw [List.nil_append, List.cons_append, findSub]
      exact if_pos (List.isPrefixOf_iff_prefix.2 ⟨rest, rfl⟩)
  | cons c s ih =>
    have hc : ¬ pat <+: c :: (s ++ pat ++ rest) := by
      intro hp
      refine h 0 (by simp) ?_
      refine List.prefix_of_prefix_length_le hp ⟨rest, by simp⟩ (by simp; omega)
    have hs : Spec.OnlyAtEnd pat s := fun j hj => by
      have := h (j + 1) (by simpa using hj)
      simpa using this
    rw [List.cons_append, List.cons_append, findSub,
      if_neg (fun e => hc (List.isPrefixOf_iff_prefix.1 e)), ih hs]
    rfl

theorem findSub_none (pat s : Str) (hne : pat ≠ []) (h : ∀ j, ¬ pat <+: s.drop j) :
    findSub pat s = none := by
  induction s with
  | nil => simp [findSub, hne]
  | cons c s ih =>
    rw [findSub, if_neg (fun e => h 0 (by simpa using List.isPrefixOf_iff_prefix.1 e)),
      ih (fun j => by simpa using h (j + 1))]
    rfl

theorem findSub_some (pat s a b : Str) (h : findSub pat s = some (a, b)) :
    s = a ++ b ∧ pat <+: b := by
  induction s generalizing a with
  | nil =>
    rw [findSub] at h
    split at h
    · next hp =>
      simp only [Option.some.injEq, Prod.mk.injEq] at h
      rw [← h.1, ← h.2, hp]; exact ⟨rfl, List.nil_prefix⟩
    · simp at h
  | cons c s ih =>
    rw [findSub] at h
    split at h
    · next hp =>
      simp only [Option.some.injEq, Prod.mk.injEq] at h
      rw [← h.1, ← h.2]
      exact ⟨rfl, List.isPrefixOf_iff_prefix.1 hp⟩
    · cases hf : findSub pat s with
      | none => rw [hf] at h; simp at h
      | some r =>
        rw [hf] at h
        simp only [Option.map_some, Option.some.injEq, Prod.mk.injEq] at h
        obtain ⟨h1, h2⟩ := ih r.1 (by rw [hf, ← h.2])
        rw [← h.1, h1]
        exact ⟨rfl, h2⟩

theorem dropWhile_append_all {p : Char → Bool} (a b : Str) (ha : ∀ c ∈ a, p c = true) :
    (a ++ b).dropWhile p = b.dropWhile p := by
  induction a with
  | nil => rfl
  | cons c a ih =>
    rw [List.cons_append, List.dropWhile_cons_of_pos (ha c (by simp)),
      ih (fun d hd => ha d (by simp [hd]))]

theorem dropWhile_head {p : Char → Bool} (b : Str) (hb : ∀ c, b.head? = some c → p c = false) :
    b.dropWhile p = b := by
  cases b with
  | nil => rfl
  | cons c b => rw [List.dropWhile_cons_of_neg (by simp [hb c rfl])]

theorem takeWhile_append_all {p : Char → Bool} (a b : Str) (ha : ∀ c ∈ a, p c = true)
    (hb : ∀ c, b.head? = some c → p c = false) : (a ++ b).takeWhile p = a := by
  induction a with
  | nil =>
    cases b with
    | nil => rfl
    | cons c b => rw [List.nil_append, List.takeWhile_cons_of_neg (by simp [hb c rfl])]
  | cons c a ih =>
    rw [List.cons_append, List.takeWhile_cons_of_pos (ha c (by simp)),
      ih (fun d hd => ha d (by simp [hd]))]

theorem strip_eq (l c r : Str) (hl : ∀ x ∈ l, isSpace x = true) (hr : ∀ x ∈ r, isSpace x = true)
    (h1 : ∀ x, c.head? = some x → isSpace x = false)
    (h2 : ∀ x, c.getLast? = some x → isSpace x = false) : strip (l ++ c ++ r) = c := by
  unfold strip
  rw [List.append_assoc, dropWhile_append_all l _ hl]
  cases c with
  | nil =>
    have : r.dropWhile isSpace = [] := by
      have := dropWhile_append_all r [] hr
      simpa using this
    simp [this]
  | cons x c =>
    rw [dropWhile_head (x :: c ++ r) (by intro y hy; exact h1 y (by simpa using hy)),
      List.reverse_append,
      dropWhile_append_all _ _ (by simpa using hr), dropWhile_head _ (by
        intro y hy
        rw [List.head?_reverse] at hy
        exact h2 y hy), List.reverse_reverse]

theorem word_not_space (c : Char) (h : isWord c = true) : isSpace c = false := by
  by_contra hs
  simp only [Bool.not_eq_false] at hs
  simp only [isSpace, Bool.or_eq_true, decide_eq_true_eq] at hs
  have key : ∀ n, c.toNat = n → n ≤ 32 → False := by
    intro n hn hle
    simp only [isWord, Char.isAlphanum, Char.isAlpha, Char.isUpper, Char.isLower, Char.isDigit,
      Bool.or_eq_true, Bool.and_eq_true, decide_eq_true_eq] at h
    have hv : c.val.toNat = n := hn
    rcases h with ((h | h) | h) | h
    · have := UInt32.le_iff_toNat_le.1 h.1; simp at this; omega
    · have := UInt32.le_iff_toNat_le.1 h.1; simp at this; omega
    · have := UInt32.le_iff_toNat_le.1 h.1; simp at this; omega
    · subst h; simp at hn; omega
  rcases hs with ((((rfl | rfl) | rfl) | rfl) | h) | h
  · exact key _ rfl (by decide)
  · exact key _ rfl (by decide)
  · exact key _ rfl (by decide)
  · exact key _ rfl (by decide)
  · exact key _ h (by decide)
  · exact key _ h (by decide)

theorem directive_eq (s : Str) (d : Dir) (h : Spec.HasDir s d) : directive d.line s = some d := by
  obtain ⟨⟨sp, rest, rfl, hsp, hrest, l, r, hl, hls, hrs⟩, ⟨hw0, hw⟩, hc1, hc2⟩ := h
  have h1 : (sp ++ d.word ++ rest).dropWhile isSpace = d.word ++ rest := by
    rw [List.append_assoc, dropWhile_append_all _ _ hsp, dropWhile_head]
    intro c hc
    cases hd : d.word with
    | nil => exact absurd hd hw0
    | cons x w =>
      rw [hd] at hc
      simp only [List.cons_append, List.head?_cons, Option.some.injEq] at hc
      subst hc
      exact word_not_space x (hw x (by simp [hd]))
  unfold directive
  simp only [h1]
  rw [takeWhile_append_all _ _ hw hrest, if_neg hw0, dropWhile_append_all _ _ hw,
    dropWhile_head _ hrest, hl, strip_eq l _ r hls hrs hc1 hc2]

theorem directive_none (n : Nat) (s : Str) (h : Spec.NoDir s) : directive n s = none := by
  obtain ⟨sp, rest, rfl, hsp, hr⟩ := h
  unfold directive
  have h1 : (sp ++ rest).dropWhile isSpace = rest := by
    rw [dropWhile_append_all _ _ hsp, dropWhile_head _ (fun c hc => (hr c hc).1)]
  simp only [h1]
  have h2 : rest.takeWhile isWord = [] := by
    have := takeWhile_append_all (p := isWord) [] rest (by simp) (fun c hc => (hr c hc).2)
    simpa using this
  rw [if_pos h2]

theorem dropCtl_pre (o : Opts) (p : Piece) (hp : p.Clear o) :
    ∀ rest, p.body ++ p.post.toList ++ o.blockEnd ≠ [] →
    dropCtl (p.pre.toList ++ (p.body ++ p.post.toList ++ o.blockEnd ++ rest))
      = p.body ++ p.post.toList ++ o.blockEnd ++ rest := by
  intro rest hne
  cases hpre : p.pre with
  | some c =>
    rw [Option.toList_some, List.cons_append, dropCtl, if_pos]
    · rfl
    · rcases hp.pre c hpre with rfl | rfl <;> rfl
  | none =>
    rw [Option.toList_none, List.nil_append]
    cases hb : p.body ++ p.post.toList ++ o.blockEnd with
    | nil => exact absurd hb hne
    | cons c b =>
      have := hp.noPre hpre c (by rw [hb]; rfl)
      rw [List.cons_append, dropCtl, if_neg]
      simp [isCtl, this.1, this.2]

theorem dropLastCtl_post (o : Opts) (p : Piece) (hp : p.Clear o) :
    dropLastCtl (p.body ++ p.post.toList) = p.body := by
  unfold dropLastCtl
  cases hpost : p.post with
  | some c =>
    rw [Option.toList_some, List.getLast?_concat]
    simp only
    rw [if_pos (by rcases hp.post c hpost with rfl | rfl <;> rfl), List.dropLast_concat]
  | none =>
    rw [Option.toList_none, List.append_nil]
    cases hl : p.body.getLast? with
    | none => rfl
    | some c =>
      have := hp.noPost hpost c hl
      simp only
      rw [if_neg (by simp [isCtl, this.1, this.2])]

theorem high_piece (o : Opts) (hu : Spec.Usable o) (p : Piece) (hp : p.Clear o) (fuel line : Nat)
    (rest : Str) :
    high o (fuel + 1) line (p.write o ++ rest)
      = (directive (line + p.text.count '\n') p.body).toList
        ++ high o fuel (line + (p.write o).count '\n') rest := by
  have hbs : o.blockStart ≠ [] := hu.nonempty _ (by simp [Opts.all])
  have hbe : o.blockEnd ≠ [] := hu.nonempty _ (by simp [Opts.all])
  have e1 : p.write o ++ rest = p.text ++ o.blockStart
      ++ (p.pre.toList ++ (p.body ++ p.post.toList ++ o.blockEnd ++ rest)) := by
    simp [Piece.write]
  rw [high, e1, findSub_at o.blockStart p.text _ hbs hp.text]
  simp only [List.drop_left]
  rw [dropCtl_pre o p hp rest (by simp [hbe]), findSub_at o.blockEnd _ rest hbe hp.body]
  simp only [List.drop_left, newlines]
  rw [dropLastCtl_post o p hp]
  congr 2
  have e2 : o.blockStart ++ (p.pre.toList ++ (p.body ++ p.post.toList ++ o.blockEnd ++ rest))
      = (o.blockStart ++ (p.pre.toList ++ (p.body ++ p.post.toList ++ o.blockEnd))) ++ rest := by
    simp
  rw [e2, List.length_append, Nat.add_sub_cancel, List.take_left]
  simp only [Piece.write, List.count_append]
  omega

theorem high_written (o : Opts) (hu : Spec.Usable o) (ps : List Piece) (tail : Str)
    (hps : ∀ p ∈ ps, p.Clear o) (htail : ∀ j, ¬ o.blockStart <+: tail.drop j) (n : Nat)
    (ds : List Dir) (hds : Spec.Directives o n ps ds) (fuel : Nat) (hf : ps.length < fuel) :
    high o fuel n (Spec.written o ps tail) = ds := by
  induction hds generalizing fuel with
  | nil n =>
    obtain ⟨f, rfl⟩ : ∃ f, fuel = f + 1 := ⟨fuel - 1, by simp at hf; omega⟩
    rw [high, Spec.written, List.flatMap_nil, List.nil_append,
      findSub_none _ _ (hu.nonempty _ (by simp [Opts.all])) htail]
  | piece n p ps d ds hd hl _ ih =>
    obtain ⟨f, rfl⟩ : ∃ f, fuel = f + 1 := ⟨fuel - 1, by simp at hf; omega⟩
    have e : Spec.written o (p :: ps) tail = p.write o ++ Spec.written o ps tail := by
      simp [Spec.written]
    rw [e, high_piece o hu p (hps p (by simp)), ← hl, directive_eq _ _ hd,
      ih (fun q hq => hps q (by simp [hq])) f (by simpa using hf)]
    rfl
  | skip n p ps ds hd _ ih =>
    obtain ⟨f, rfl⟩ : ∃ f, fuel = f + 1 := ⟨fuel - 1, by simp at hf; omega⟩
    have e : Spec.written o (p :: ps) tail = p.write o ++ Spec.written o ps tail := by
      simp [Spec.written]
    rw [e, high_piece o hu p (hps p (by simp)), directive_none _ _ hd,
      ih (fun q hq => hps q (by simp [hq])) f (by simpa using hf)]
    rfl

theorem written_length (o : Opts) (hu : Spec.Usable o) (ps : List Piece) (tail : Str) :
    ps.length ≤ (Spec.written o ps tail).length := by
  induction ps with
  | nil => simp
  | cons p ps ih =>
    have := List.length_pos_of_ne_nil (hu.nonempty o.blockStart (by simp [Opts.all]))
    simp only [Spec.written, List.flatMap_cons, List.length_append, List.length_cons,
      Piece.write] at ih ⊢
    omega

/-- **C108.**  The directives that are checked are those of the template, in their order, each with
the number of the line in which its block begins. -/
theorem highTokens_written (o : Opts) (hu : Spec.Usable o) (ps : List Piece) (tail : Str)
    (hps : ∀ p ∈ ps, p.Clear o) (htail : ∀ j, ¬ o.blockStart <+: tail.drop j) (ds : List Dir)
    (hds : Spec.Directives o 1 ps ds) : highTokens o (Spec.written o ps tail) = ds :=
  high_written o hu ps tail hps htail 1 ds hds _
    (Nat.lt_succ_of_le (written_length o hu ps tail))

theorem high_fuel (o : Opts) (hne : o.blockStart ≠ []) (f g line : Nat) (s : Str)
    (hf : s.length < f) (hg : s.length < g) : high o f line s = high o g line s := by
  induction f generalizing g line s with
  | zero => omega
  | succ f ih =>
    obtain ⟨g, rfl⟩ : ∃ g', g = g' + 1 := ⟨g - 1, by omega⟩
    rw [high, high]
    cases h1 : findSub o.blockStart s with
    | none => rfl
    | some r =>
      obtain ⟨before, rest⟩ := r
      simp only
      cases h2 : findSub o.blockEnd (dropCtl (rest.drop o.blockStart.length)) with
      | none => rfl
      | some r2 =>
        obtain ⟨body, rest2⟩ := r2
        simp only
        have hlen : (rest2.drop o.blockEnd.length).length < s.length := by
          obtain ⟨hs, hp⟩ := findSub_some _ _ _ _ h1
          have h3 := congrArg List.length (findSub_some _ _ _ _ h2).1
          have h4 : (dropCtl (rest.drop o.blockStart.length)).length
              ≤ (rest.drop o.blockStart.length).length := by
            cases rest.drop o.blockStart.length with
            | nil => simp [dropCtl]
            | cons c l => rw [dropCtl]; split <;> simp
          have h5 := congrArg List.length hs
          have h6 := hp.length_le
          have h7 := List.length_pos_of_ne_nil hne
          simp only [List.length_append, List.length_drop] at *
          omega
        rw [ih g _ _ (by omega) (by omega)]

/-! ### Templates -/

/-- **C108.**  A template whose blocks begin and end where they seem to passes exactly if its starts
and ends take turns and belong together and its directives are nested. -/
theorem lint_iff_partial (o : Opts) (hu : Spec.Usable o) (ps : List Piece) (tail : Str)
    (hps : ∀ p ∈ ps, p.Clear o) (htail : ∀ j, ¬ o.blockStart <+: tail.drop j) (ds : List Dir)
    (hds : Spec.Directives o 1 ps ds) (ls : List Str) (toks : List (Nat × Str))
    (hls : Spec.Lines (Spec.written o ps tail) ls) (htoks : Spec.Numbered o 1 ls toks) :
    lint o (Spec.written o ps tail) = none
      ↔ Spec.Alternate o (toks.map Prod.snd) ∧ Nested false none ds := by
  have h1 := (lowTokens_iff o hu _ ls hls toks).1 htoks
  have h2 := highTokens_written o hu ps tail hps htail ds hds
  unfold lint
  rw [h1, h2, ← highCheck_iff, ← lowCheck_iff o hu.distinct toks (h1 ▸ lowTokens_mem o _)]
  cases lowCheck o none toks <;> simp

/-- **C108.**  A template that does not pass is refused with one message: that of the first part if
the first part refuses, else that of the second. -/
theorem lint_refusal (o : Opts) (hu : Spec.Usable o) (ps : List Piece) (tail : Str)
    (hps : ∀ p ∈ ps, p.Clear o) (htail : ∀ j, ¬ o.blockStart <+: tail.drop j) (ds : List Dir)
    (hds : Spec.Directives o 1 ps ds) (ls : List Str) (toks : List (Nat × Str))
    (hls : Spec.Lines (Spec.written o ps tail) ls) (htoks : Spec.Numbered o 1 ls toks) (e : Err)
    (he : lint o (Spec.written o ps tail) = some e) :
    (∃ x n t y, toks = x ++ (n, t) :: y ∧ SaysLow o (x.map Prod.snd) n t e
      ∧ ∀ cont, ¬ Spec.Alternate o (x.map Prod.snd ++ t :: cont))
    ∨ Spec.Alternate o (toks.map Prod.snd)
      ∧ ((∃ k ks, Opened ds (k :: ks) ∧ e = .openAtEnd k.word.toList)
        ∨ ∃ a d b ks, ds = a ++ d :: b ∧ Opened a ks ∧ Says ks d e
          ∧ ∀ cont, ¬ Nested false none (a ++ d :: cont)) := by
  have h1 := (lowTokens_iff o hu _ ls hls toks).1 htoks
  have h2 := highTokens_written o hu ps tail hps htail ds hds
  have hall : ∀ t ∈ toks, t.2 ∈ o.all := h1 ▸ lowTokens_mem o _
  unfold lint at he
  rw [h1, h2] at he
  cases hl : lowCheck o none toks with
  | some e' =>
    rw [hl] at he
    obtain rfl : e' = e := by simpa using he
    exact .inl (lowCheck_refusal o hu.distinct toks hall e' hl)
  | none =>
    rw [hl] at he
    exact .inr ⟨(lowCheck_iff o hu.distinct toks hall).1 hl, highCheck_refusal ds e he⟩

/-! ### Cases -/

/-- The options of CAmkES templates. -/
def camkesOpts : Opts :=
  ⟨"/*-".toList, "-*/".toList, "/*?".toList, "?*/".toList, "/*#".toList, "#*/".toList⟩

/-- The options where none are given. -/
def defaultOpts : Opts :=
  ⟨"{%".toList, "%}".toList, "{{".toList, "}}".toList, "{#".toList, "#}".toList⟩

/-- Both can be used. -/
theorem demo_usable : Spec.Usable camkesOpts ∧ Spec.Usable defaultOpts :=
  ⟨⟨by decide +kernel, by decide +kernel, by decide +kernel⟩,
    ⟨by decide +kernel, by decide +kernel, by decide +kernel⟩⟩

/-- The pieces of a template with a loop, a condition in it and a block without a directive. -/
def demoPieces : List Piece :=
  [⟨"a\n".toList, none, " for x in xs ".toList, none⟩,
   ⟨"".toList, some '+', " if x ".toList, some '-'⟩,
   ⟨"\nb".toList, none, " break ".toList, none⟩,
   ⟨" ".toList, none, " endif ".toList, none⟩,
   ⟨"".toList, none, "  ".toList, none⟩,
   ⟨"".toList, none, "\nendfor ".toList, none⟩]

/-- Its directives. -/
def demoDirs : List Dir :=
  [⟨2, "for".toList, "x in xs".toList⟩, ⟨2, "if".toList, "x".toList⟩, ⟨3, "break".toList, []⟩,
   ⟨3, "endif".toList, []⟩, ⟨3, "endfor".toList, []⟩]

theorem demo_clear : ∀ p ∈ demoPieces, p.Clear defaultOpts := by
  have h : ∀ p ∈ demoPieces, (∀ j, j < p.text.length →
        ¬ defaultOpts.blockStart <+: (p.text ++ defaultOpts.blockStart).drop j)
      ∧ (∀ j, j < (p.body ++ p.post.toList).length →
        ¬ defaultOpts.blockEnd <+: (p.body ++ p.post.toList ++ defaultOpts.blockEnd).drop j)
      ∧ (∀ c ∈ p.pre, c = '-' ∨ c = '+')
      ∧ (∀ c ∈ (p.body ++ p.post.toList ++ defaultOpts.blockEnd).head?, c ≠ '-' ∧ c ≠ '+')
      ∧ (∀ c ∈ p.post, c = '-' ∨ c = '+')
      ∧ ∀ c ∈ p.body.getLast?, c ≠ '-' ∧ c ≠ '+' := by decide +kernel
  intro p hp
  obtain ⟨h1, h2, h3, h4, h5, h6⟩ := h p hp
  exact ⟨h1, h2, fun c hc => h3 c (by simpa using hc), fun _ c hc => h4 c hc,
    fun c hc => h5 c (by simpa using hc), fun _ c hc => h6 c hc⟩

theorem demo_directives : Spec.Directives defaultOpts 1 demoPieces demoDirs := by
  refine .piece _ _ _ _ _ ⟨⟨[' '], " x in xs ".toList, by decide +kernel, by decide +kernel,
    by simp; decide +kernel, [' '], [' '], by decide +kernel, by decide +kernel, by decide +kernel⟩,
    by decide +kernel, by simp; decide +kernel⟩ (by decide +kernel) ?_
  refine .piece _ _ _ _ _ ⟨⟨[' '], " x ".toList, by decide +kernel, by decide +kernel,
    by simp; decide +kernel, [' '], [' '], by decide +kernel, by decide +kernel, by decide +kernel⟩,
    by decide +kernel, by simp; decide +kernel⟩ (by decide +kernel) ?_
  refine .piece _ _ _ _ _ ⟨⟨[' '], " ".toList, by decide +kernel, by decide +kernel,
    by simp; decide +kernel, [' '], [], by decide +kernel, by decide +kernel, by decide +kernel⟩,
    by decide +kernel, by simp⟩ (by decide +kernel) ?_
  refine .piece _ _ _ _ _ ⟨⟨[' '], " ".toList, by decide +kernel, by decide +kernel,
    by simp; decide +kernel, [' '], [], by decide +kernel, by decide +kernel, by decide +kernel⟩,
    by decide +kernel, by simp⟩ (by decide +kernel) ?_
  refine .skip _ _ _ _ ⟨[' ', ' '], [], by decide +kernel, by decide +kernel, by simp⟩ ?_
  refine .piece _ _ _ _ _ ⟨⟨['\n'], " ".toList, by decide +kernel, by decide +kernel,
    by simp; decide +kernel, [' '], [], by decide +kernel, by decide +kernel, by decide +kernel⟩,
    by decide +kernel, by simp⟩ (by decide +kernel) ?_
  exact .nil _

/-- A template to which the theorems apply passes; without its last directive it is refused. -/
theorem demo_lint :
    lint defaultOpts (Spec.written defaultOpts demoPieces "{{ x }}".toList) = none
    ∧ lint defaultOpts (Spec.written defaultOpts demoPieces.dropLast "{{ x }}".toList)
      = some (.openAtEnd "for".toList)
    ∧ lint defaultOpts "a\n{% if x %}{% endfor %}".toList
      = some (.endInside 2 "endfor".toList "if".toList)
    ∧ lint defaultOpts "a\n{% if {{ x".toList
      = some (.openingInside 2 "{{".toList "{%".toList) := by decide +kernel

/-- **Disagreement with C108.**  A block without an end at the end of the file is accepted, although
the template cannot be read. -/
theorem unterminated_accepted (c : Str) (hc : ∀ x ∈ c, isWord x = true) :
    lint defaultOpts ("{% if ".toList ++ c) = none := by
  have hn : ∀ (x : Char), isWord x = true → x ≠ '{' ∧ x ≠ '%' ∧ x ≠ '}' ∧ x ≠ '#' ∧ x ≠ '\n' := by
    intro x hx
    refine ⟨?_, ?_, ?_, ?_, ?_⟩ <;> (rintro rfl; revert hx; decide +kernel)
  have hlow : ∀ c : Str, (∀ x ∈ c, isWord x = true) → lowLine defaultOpts 0 c = [] := by
    intro c
    induction c with
    | nil => intro _; rfl
    | cons x c ih =>
      intro h
      rw [lowLine_other, ih (fun y hy => h y (by simp [hy]))]
      intro t ht hp
      have hx := hn x (h x (by simp))
      simp only [Opts.all, defaultOpts, String.reduceToList, List.mem_cons, List.not_mem_nil,
        or_false] at ht
      rcases ht with rfl | rfl | rfl | rfl | rfl | rfl <;>
        simp only [List.cons_prefix_cons] at hp
      · exact hx.1 hp.1.symm
      · exact hx.2.1 hp.1.symm
      · exact hx.1 hp.1.symm
      · exact hx.2.2.1 hp.1.symm
      · exact hx.1 hp.1.symm
      · exact hx.2.2.2.1 hp.1.symm
  have hfind : ∀ c : Str, (∀ x ∈ c, isWord x = true) → findSub ['%', '}'] c = none := by
    intro c
    induction c with
    | nil => intro _; rfl
    | cons x c ih =>
      intro h
      have hx := hn x (h x (by simp))
      rw [findSub, ih (fun y hy => h y (by simp [hy])), if_neg]
      · rfl
      · simp only [List.isPrefixOf_iff_prefix, List.cons_prefix_cons, not_and]
        exact fun e => absurd e.symm hx.2.1
  have h1 : lines ("{% if ".toList ++ c) = ["{% if ".toList ++ c] := by
    refine lines_last _ (by simp) ?_
    simp only [String.reduceToList, List.mem_append, not_or]
    exact ⟨by decide, fun h => (hn _ (hc _ h)).2.2.2.2 rfl⟩
  have h2 : lowTokens defaultOpts ("{% if ".toList ++ c) = [(1, "{%".toList)] := by
    rw [lowTokens, h1]
    have : lowLine defaultOpts 0 ("{% if ".toList ++ c) = ["{%".toList] := by
      have e : "{% if ".toList ++ c = "{%".toList ++ (' ' :: 'i' :: 'f' :: ' ' :: c) := by simp
      rw [e, lowLine_token defaultOpts demo_usable.2 _ _ (by decide +kernel)]
      have hb : ∀ x l, x = ' ' ∨ x = 'i' ∨ x = 'f' → lowLine defaultOpts 0 (x :: l)
          = lowLine defaultOpts 0 l := by
        intro x l hx
        refine lowLine_other _ x l fun t ht hp => ?_
        simp only [Opts.all, defaultOpts, String.reduceToList, List.mem_cons, List.not_mem_nil,
          or_false] at ht
        rcases ht with rfl | rfl | rfl | rfl | rfl | rfl <;>
          simp only [List.cons_prefix_cons] at hp <;>
          (rcases hx with rfl | rfl | rfl <;> exact absurd hp.1 (by decide))
      rw [hb _ _ (.inl rfl), hb _ _ (.inr (.inl rfl)), hb _ _ (.inr (.inr rfl)), hb _ _ (.inl rfl),
        hlow c hc]
    rw [lowLines, this]
    rfl
  have h3 : highTokens defaultOpts ("{% if ".toList ++ c) = [] := by
    have e : "{% if ".toList ++ c = ['{', '%'] ++ (' ' :: 'i' :: 'f' :: ' ' :: c) := by simp
    have hs : findSub ['{', '%'] (['{', '%'] ++ (' ' :: 'i' :: 'f' :: ' ' :: c))
        = some ([], ['{', '%'] ++ (' ' :: 'i' :: 'f' :: ' ' :: c)) :=
      findSub_at ['{', '%'] [] _ (by simp) (fun j hj => by simp at hj)
    have he : findSub ['%', '}'] (' ' :: 'i' :: 'f' :: ' ' :: c) = none := by
      simp [findSub, hfind c hc]
    rw [highTokens, e, high]
    simp only [defaultOpts, String.reduceToList, hs, List.drop_left, dropCtl, isCtl]
    simp [he]
  unfold lint
  rw [h2, h3]
  decide +kernel

/-- **Disagreement with C108.**  Two `else`, `elif` after `else`, and `break` in a macro that is in a
loop are accepted, although they are not templates; and a dictionary in a dictionary and a named
`endmacro` are refused, although they are. -/
theorem more_disagreements :
    lint defaultOpts "{% if x %}{% else %}{% else %}{% endif %}".toList = none
    ∧ lint defaultOpts "{% if x %}{% else %}{% elif y %}{% endif %}".toList = none
    ∧ lint defaultOpts "{% for x in y %}{% macro m() %}{% break %}{% endmacro %}{% endfor %}".toList
      = none
    ∧ lint defaultOpts "{% set x = {1: {2: 3}} %}".toList
      = some (.closingWrong 1 "}}".toList "{%".toList)
    ∧ lint defaultOpts "{% macro m() %}{% endmacro m %}".toList
      = some (.trailing 1 "endmacro".toList "m".toList) := by decide +kernel

end Verif.Lint
