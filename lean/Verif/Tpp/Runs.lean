import Verif.Tpp.Lemmas

/-! Runs of characters, and what the passes do to a line. -/

namespace Verif.Tpp

open Spec

variable {P : Char → Prop} [DecidablePred P]

theorem runs_cons_not {s : Char} (h : ¬ P s) (b : List Char) : runs P (s :: b) = runs P b := by
  cases b <;> simp [runs, h]

theorem runs_ne {c : Char} (h : P c) (r : List Char) : runs P (c :: r) ≠ [] := by
  induction r generalizing c with
  | nil => simp [runs, h]
  | cons d r ih =>
    simp only [runs, if_pos h]
    split_ifs with hd
    · cases hr : runs P (d :: r) with
      | nil => exact absurd hr (ih hd)
      | cons w ws => simp
    · simp

theorem runs_sep {s : Char} (h : ¬ P s) (a b : List Char) : runs P (a ++ s :: b) = runs P a ++ runs P b := by
  induction a with
  | nil => simp [runs_cons_not h, runs]
  | cons c a ih =>
    cases a with
    | nil =>
      by_cases hc : P c
      · simp [runs, hc, h, runs_cons_not h]
      · simp [runs, hc, runs_cons_not hc, runs_cons_not h]
    | cons d a =>
      by_cases hc : P c
      · by_cases hd : P d
        · simp only [List.cons_append] at ih ⊢
          simp only [runs, if_pos hc, if_pos hd]
          rw [ih]
          cases hr : runs P (d :: a) with
          | nil => exact absurd hr (runs_ne hd a)
          | cons w ws => simp
        · simp only [List.cons_append] at ih ⊢
          simp only [runs, if_pos hc, if_neg hd]
          rw [ih]
          simp
      · simp only [List.cons_append] at ih ⊢
        rw [runs_cons_not hc, runs_cons_not hc, ih]

theorem runs_blank_left {s : List Char} (h : ∀ c ∈ s, ¬ P c) (b : List Char) : runs P (s ++ b) = runs P b := by
  induction s with
  | nil => rfl
  | cons c s ih => rw [List.cons_append, runs_cons_not (h c (by simp)), ih fun x hx => h x (by simp [hx])]

theorem runs_nil_of {s : List Char} (h : ∀ c ∈ s, ¬ P c) : runs P s = [] := by
  have := runs_blank_left h []
  simpa [runs] using this

theorem runs_blank_right {s : List Char} (h : ∀ c ∈ s, ¬ P c) (b : List Char) : runs P (b ++ s) = runs P b := by
  cases s with
  | nil => simp
  | cons c s => rw [runs_sep (h c (by simp)), runs_nil_of (s := s) (fun x hx => h x (by simp [hx])), List.append_nil]

theorem runs_lstrip (hP : ∀ c, P c → ¬ Space c) (l : List Char) : runs P (lstrip l) = runs P l := by
  obtain ⟨s, hs, hl, -⟩ := lstrip_split l
  conv_rhs => rw [hl]
  rw [runs_blank_left]
  exact fun c hc hp => hP c hp (hs c hc)

theorem runs_rstrip (hP : ∀ c, P c → ¬ Space c) (l : List Char) : runs P (rstrip l) = runs P l := by
  obtain ⟨s, hs, hl, -⟩ := rstrip_split l
  conv_rhs => rw [hl]
  rw [runs_blank_right]
  exact fun c hc hp => hP c hp (hs c hc)

theorem runs_strip (hP : ∀ c, P c → ¬ Space c) (l : List Char) : runs P (strip l) = runs P l := by
  rw [strip, runs_rstrip hP, runs_lstrip hP]

theorem text_append (a b : List Line) : text (a ++ b) = text a ++ text b := by simp [text]
theorem text_cons (l : Line) (b : List Line) : text (l :: b) = l ++ '\n' :: text b := by simp [text]

theorem runs_text_cons (hP : ∀ c, P c → ¬ Space c) (l : Line) (b : List Line) :
    runs P (text (l :: b)) = runs P l ++ runs P (text b) := by
  rw [text_cons, runs_sep]
  intro h
  exact hP _ h (by decide)

theorem runs_text_append (hP : ∀ c, P c → ¬ Space c) (a b : List Line) :
    runs P (text (a ++ b)) = runs P (text a) ++ runs P (text b) := by
  induction a with
  | nil => simp [text, runs]
  | cons l a ih => rw [List.cons_append, runs_text_cons hP, runs_text_cons hP, ih, List.append_assoc]

theorem space_space : Space ' ' := by decide

theorem ink_text_cons (l : Line) (b : List Line) : ink (text (l :: b)) = ink l ++ ink (text b) := by
  rw [text_cons, ink_append, ink_cons_space _ (by decide)]

/-! The compressing passes. -/

theorem ink_before (x : Char) (hx : ¬ Space x) (l : List Char) : ink (before x l) = ink l := by
  fun_induction before x l with
  | case1 a b d r h ih =>
    obtain ⟨h1, rfl, rfl⟩ := h
    by_cases ha : Space a
    · rw [ink_cons_space _ ha, ink_cons_space _ ha, ink_cons_space _ space_space, ink_cons _ hx, ink_cons _ hx, ih]
    · rw [ink_cons _ ha, ink_cons _ ha, ink_cons_space _ space_space, ink_cons _ hx, ink_cons _ hx, ih]
  | case2 a b d r h ih =>
    by_cases ha : Space a
    · rw [ink_cons_space _ ha, ink_cons_space _ ha, ih]
    · rw [ink_cons _ ha, ink_cons _ ha, ih]
  | case3 a r h ih =>
    by_cases ha : Space a
    · rw [ink_cons_space _ ha, ink_cons_space _ ha, ih]
    · rw [ink_cons _ ha, ink_cons _ ha, ih]
  | case4 => rfl

theorem ink_behind (x : Char) (l : List Char) : ink (behind x l) = ink l := by
  fun_induction behind x l with
  | case1 a b d r h ih =>
    obtain ⟨rfl, rfl, h3⟩ := h
    have e : ∀ (c : Char) (u v : List Char), ink u = ink v → ink (c :: u) = ink (c :: v) := by
      intro c u v huv
      by_cases hc : Space c
      · rw [ink_cons_space _ hc, ink_cons_space _ hc, huv]
      · rw [ink_cons _ hc, ink_cons _ hc, huv]
    apply e
    rw [ink_cons_space _ space_space]
    exact e _ _ _ ih
  | case2 a b d r h ih =>
    by_cases ha : Space a
    · rw [ink_cons_space _ ha, ink_cons_space _ ha, ih]
    · rw [ink_cons _ ha, ink_cons _ ha, ih]
  | case3 a r h ih =>
    by_cases ha : Space a
    · rw [ink_cons_space _ ha, ink_cons_space _ ha, ih]
    · rw [ink_cons _ ha, ink_cons _ ha, ih]
  | case4 => rfl

/-- The first character that follows is of the class, or there is none. -/
theorem before_head (x : Char) (l : List Char) : (before x l).head? = l.head? := by
  fun_induction before x l <;> simp

theorem behind_head (x : Char) (l : List Char) : (behind x l).head? = l.head? := by
  fun_induction behind x l with
  | case1 a b d r h ih => simp [h.1]
  | _ => simp

theorem runs_cons_congr (c : Char) {u v : List Char} (hh : u.head? = v.head?) (h : runs P u = runs P v) :
    runs P (c :: u) = runs P (c :: v) := by
  by_cases hc : P c
  · cases u with
    | nil =>
      cases v with
      | nil => rfl
      | cons a v => simp at hh
    | cons a u =>
      cases v with
      | nil => simp at hh
      | cons b v =>
        simp only [List.head?_cons, Option.some.injEq] at hh
        subst hh
        simp only [runs, if_pos hc, h]
  · rw [runs_cons_not hc, runs_cons_not hc, h]

theorem runs_before (hs : ¬ P ' ') (x : Char) (hx : ¬ P x) (l : List Char) : runs P (before x l) = runs P l := by
  fun_induction before x l with
  | case1 a b d r h ih =>
    obtain ⟨h1, rfl, rfl⟩ := h
    have e1 : ∀ u : List Char, runs P (a :: d :: u) = runs P [a] ++ runs P u := fun u => runs_sep (a := [a]) hx u
    have e2 : ∀ u : List Char, runs P (a :: ' ' :: u) = runs P [a] ++ runs P u := fun u => runs_sep (a := [a]) hs u
    rw [e1, e2, runs_cons_not hx, ih]
  | case2 a b d r h ih => exact runs_cons_congr a (before_head _ _) ih
  | case3 a r h ih => exact runs_cons_congr a (before_head _ _) ih
  | case4 => rfl

theorem runs_behind (hs : ¬ P ' ') (x : Char) (hx : ¬ P x) (l : List Char) : runs P (behind x l) = runs P l := by
  fun_induction behind x l with
  | case1 a b d r h ih =>
    obtain ⟨rfl, rfl, h3⟩ := h
    rw [runs_cons_not hx, runs_cons_not hx, runs_cons_not hs]
    exact runs_cons_congr d (behind_head _ _) ih
  | case2 a b d r h ih => exact runs_cons_congr a (behind_head _ _) ih
  | case3 a r h ih => exact runs_cons_congr a (behind_head _ _) ih
  | case4 => rfl

theorem before_last (x : Char) (l : List Char) : (before x l).getLast? = l.getLast? := by
  have e : ∀ (c : Char) (u v : List Char), u.getLast? = v.getLast? → (c :: u).getLast? = (c :: v).getLast? := by
    intro c u v h
    rw [List.getLast?_cons, List.getLast?_cons, h]
  fun_induction before x l with
  | case1 a b d r h ih =>
    obtain ⟨-, rfl, rfl⟩ := h
    have : (d :: before d r).getLast? = (' ' :: d :: r).getLast? := by
      rw [List.getLast?_cons_cons]; exact e _ _ _ ih
    exact e _ _ _ this
  | case2 a b d r h ih => exact e _ _ _ ih
  | case3 a r h ih => exact e _ _ _ ih
  | case4 => rfl

theorem behind_last (x : Char) (l : List Char) : (behind x l).getLast? = l.getLast? := by
  have e : ∀ (c : Char) (u v : List Char), u.getLast? = v.getLast? → (c :: u).getLast? = (c :: v).getLast? := by
    intro c u v h
    rw [List.getLast?_cons, List.getLast?_cons, h]
  fun_induction behind x l with
  | case1 a b d r h ih =>
    obtain ⟨rfl, rfl, -⟩ := h
    have : (d :: behind a r).getLast? = (' ' :: d :: r).getLast? := by
      rw [List.getLast?_cons_cons]; exact e _ _ _ ih
    exact e _ _ _ this
  | case2 a b d r h ih => exact e _ _ _ ih
  | case3 a r h ih => exact e _ _ _ ih
  | case4 => rfl

theorem ink_compress (o : Opts) (l : Line) : ink (compress o l) = ink l := by
  unfold compress
  cases o.brackets <;> cases o.braces <;> cases o.commas <;>
    simp [ink_before _ (show ¬ Space ')' by decide), ink_before _ (show ¬ Space '}' by decide),
      ink_before _ (show ¬ Space ',' by decide), ink_behind]

theorem compress_last (o : Opts) (l : Line) : (compress o l).getLast? = l.getLast? := by
  unfold compress
  cases o.brackets <;> cases o.braces <;> cases o.commas <;> simp [before_last, behind_last]

theorem runs_compress (hs : ¬ P ' ') (hb : ∀ x ∈ ['(', ')', '{', '}', ','], ¬ P x) (o : Opts) (l : Line) :
    runs P (compress o l) = runs P l := by
  have h1 := hb '(' (by simp)
  have h2 := hb ')' (by simp)
  have h3 := hb '{' (by simp)
  have h4 := hb '}' (by simp)
  have h5 := hb ',' (by simp)
  unfold compress
  cases o.brackets <;> cases o.braces <;> cases o.commas <;>
    simp [runs_before hs _ h2, runs_before hs _ h4, runs_before hs _ h5, runs_behind hs _ h1, runs_behind hs _ h3]

/-! The chain of passes. -/

/-- The line after stripping. -/
def l1 (o : Opts) (l : Line) : Line := if o.rstrip then rstrip l else l

/-- The state after leading blank lines are dropped. -/
def ini (o : Opts) (st : St) (l : Line) : St := if o.dropLeading ∧ strip l ≠ [] then { st with initial := false } else st

/-- The passes from the accumulation on. -/
def tail (o : Opts) (st : St) (m : Line) : Except Stop (St × Option Line) :=
  match (if o.accumulate then accumulate st m else .ok (st, some m)) with
  | .error e => .error e
  | .ok (st, none) => .ok (st, none)
  | .ok (st, some l) => .ok (if o.duplicates then removeDuplicates st (compress o l) else (st, some (compress o l)))

/-- The locked indentation. -/
def locked (o : Opts) (st : St) (l : Line) : Except Stop Line := if o.lockIndent then lockIndent st l else .ok l

theorem ink_l1 (o : Opts) (l : Line) : ink (l1 o l) = ink l := by
  unfold l1; split_ifs
  · exact ink_rstrip l
  · rfl

theorem strip_l1 (o : Opts) (l : Line) : strip (l1 o l) = [] ↔ strip l = [] := by
  rw [strip_nil, strip_nil, blank_iff_ink, blank_iff_ink, ink_l1]

theorem passes_eq (o : Opts) (st : St) (l : Line) :
    passes o st l = if strip l = [] ∧ ((o.dropLeading = true ∧ st.initial = true) ∨ (o.condense = true ∧ truthy st.condense = true))
      then .ok (st, none)
      else match locked o st (l1 o l) with
        | .error e => .error e
        | .ok m => tail o (ini o st l) m := by
  have hst : ∀ s : St, s.initial = false → { s with initial := false } = s := by
    intro s h; cases s; simp at h; subst h; rfl
  have hi : ∀ s : St, lockIndent { s with initial := false } (l1 o l) = lockIndent s (l1 o l) := fun s => rfl
  unfold passes
  rw [show (if o.rstrip = true then rstrip l else l) = l1 o l from rfl]
  dsimp only
  unfold dropLeading condense locked ini
  have h1 := strip_l1 o l
  by_cases hb : strip l = []
  · have hb1 := h1.2 hb
    cases hd : o.dropLeading <;> cases hc : o.condense <;> cases hin : st.initial <;> cases ht : truthy st.condense <;>
      cases hl : o.lockIndent <;> simp [hb, hb1, ht] <;> rfl
  · have hb1 : ¬ strip (l1 o l) = [] := fun h => hb (h1.1 h)
    cases hd : o.dropLeading <;> cases hc : o.condense <;> cases hin : st.initial <;> cases ht : truthy st.condense <;>
      cases hl : o.lockIndent <;> simp [hb, hb1, hi, hst, hin, ht] <;> rfl

theorem locked_ok {o : Opts} {st : St} {l m : Line} (h : locked o st l = .ok m) :
    m = l ∨ (¬ Blank l ∧ o.lockIndent = true ∧ ∃ n, m = List.replicate n ' ' ++ lstrip l ∧
      ((∃ b : Bool, st.lock = some (.bool b) ∧ n = b.toNat) ∨ ∃ i : Int, st.lock = some (.int i) ∧ n = i.toNat)) := by
  unfold locked lockIndent at h
  split at h
  next hl =>
    split at h
    · cases h; exact Or.inl rfl
    next hb =>
      have hb' : ¬ Blank l := fun hx => hb ((strip_nil l).2 hx)
      split at h
      · cases h; exact Or.inl rfl
      · cases h; exact Or.inl rfl
      next b hs => cases h; exact Or.inr ⟨hb', hl, _, rfl, Or.inl ⟨b, hs, rfl⟩⟩
      next n hs => cases h; exact Or.inr ⟨hb', hl, _, rfl, Or.inr ⟨n, hs, rfl⟩⟩
      · cases h
  · cases h; exact Or.inl rfl

theorem locked_error {o : Opts} {st : St} {l : Line} {e : Stop} (h : locked o st l = .error e) :
    e = .noNumber ∧ o.lockIndent = true ∧ ∃ b, st.lock = some (.other b) := by
  unfold locked lockIndent at h
  split at h
  next hl =>
    split at h
    · cases h
    · split at h
      · cases h
      · cases h
      · cases h
      · cases h
      next b hs => cases h; exact ⟨rfl, hl, b, hs⟩
  · cases h

theorem replicate_blank (n : Nat) : Blank (List.replicate n ' ') := by
  intro c hc
  rw [List.mem_replicate] at hc
  rw [hc.2]; exact space_space

theorem ink_locked {o : Opts} {st : St} {l m : Line} (h : locked o st l = .ok m) : ink m = ink l := by
  rcases locked_ok h with rfl | ⟨-, -, n, rfl, -⟩
  · rfl
  · rw [ink_append, (blank_iff_ink _).1 (replicate_blank n), List.nil_append, ink_lstrip]

theorem runs_locked (hP : ∀ c, P c → ¬ Space c) {o : Opts} {st : St} {l m : Line} (h : locked o st l = .ok m) :
    runs P m = runs P l := by
  rcases locked_ok h with rfl | ⟨-, -, n, rfl, -⟩
  · rfl
  · rw [runs_blank_left, runs_lstrip hP]
    exact fun c hc hp => hP c hp (replicate_blank n c hc)

theorem removeDuplicates_ok (st : St) (l : Line) :
    (∃ b, (removeDuplicates st l).1 = { st with lastempty := b }) ∧
    ((removeDuplicates st l).2 = some l ∨ ((removeDuplicates st l).2 = none ∧ Blank l)) := by
  unfold removeDuplicates
  split_ifs with h1 h2
  · exact ⟨⟨st.lastempty, rfl⟩, Or.inr ⟨rfl, (strip_nil l).1 h1⟩⟩
  · exact ⟨⟨true, rfl⟩, Or.inl rfl⟩
  · exact ⟨⟨false, rfl⟩, Or.inl rfl⟩

/-- The two ways through the last passes: a line is kept back, or it is compressed. -/
theorem tail_ok {o : Opts} {st s : St} {m : Line} {r : Option Line} (h : tail o st m = .ok (s, r)) :
    (o.accumulate = true ∧ truthy st.acc = true ∧ r = none ∧
      ((st.accumulated = none ∧ Blank m ∧ s = st) ∨
        (st.accumulated = none ∧ ¬ Blank m ∧ s = { st with accumulated := some (m ++ [' ']) }) ∨
        ∃ a, st.accumulated = some a ∧ s = { st with accumulated := some (a ++ (strip m ++ [' '])) })) ∨
    ((o.accumulate = true → truthy st.acc = false ∧ st.accumulated = none) ∧
      (s, r) = if o.duplicates then removeDuplicates st (compress o m) else (st, some (compress o m))) := by
  unfold tail at h
  by_cases ha : o.accumulate = true
  · rw [if_pos ha] at h
    unfold accumulate at h
    by_cases ht : truthy st.acc = true
    · rw [if_pos ht] at h
      left
      cases hacc : st.accumulated with
      | none =>
        rw [hacc] at h
        dsimp only at h
        by_cases hb : strip m = []
        · rw [if_pos hb] at h
          simp only [Except.ok.injEq, Prod.mk.injEq] at h
          obtain ⟨rfl, rfl⟩ := h
          exact ⟨ha, ht, rfl, Or.inl ⟨rfl, (strip_nil m).1 hb, rfl⟩⟩
        · rw [if_neg hb] at h
          simp only [Except.ok.injEq, Prod.mk.injEq] at h
          obtain ⟨rfl, rfl⟩ := h
          exact ⟨ha, ht, rfl, Or.inr (Or.inl ⟨rfl, fun hx => hb ((strip_nil m).2 hx), rfl⟩)⟩
      | some a =>
        rw [hacc] at h
        simp only [Except.ok.injEq, Prod.mk.injEq] at h
        obtain ⟨rfl, rfl⟩ := h
        exact ⟨ha, ht, rfl, Or.inr (Or.inr ⟨a, rfl, rfl⟩)⟩
    · rw [if_neg ht] at h
      right
      cases hacc : st.accumulated with
      | none =>
        rw [hacc] at h
        dsimp only at h
        refine ⟨fun _ => ⟨by simpa using ht, rfl⟩, ?_⟩
        simp only [Except.ok.injEq] at h
        exact h.symm
      | some a => rw [hacc] at h; cases h
  · rw [if_neg ha] at h
    right
    dsimp only at h
    simp only [Except.ok.injEq] at h
    exact ⟨fun hx => absurd hx ha, h.symm⟩

theorem tail_error {o : Opts} {st : St} {m : Line} {e : Stop} (h : tail o st m = .error e) :
    e = .assertion ∧ o.accumulate = true ∧ truthy st.acc = false ∧ st.accumulated ≠ none := by
  unfold tail at h
  by_cases ha : o.accumulate = true
  · rw [if_pos ha] at h
    unfold accumulate at h
    by_cases ht : truthy st.acc = true
    · rw [if_pos ht] at h
      cases hacc : st.accumulated with
      | none =>
        rw [hacc] at h
        dsimp only at h
        by_cases hb : strip m = []
        · rw [if_pos hb] at h; cases h
        · rw [if_neg hb] at h; cases h
      | some a => rw [hacc] at h; cases h
    · rw [if_neg ht] at h
      cases hacc : st.accumulated with
      | none => rw [hacc] at h; cases h
      | some a =>
        rw [hacc] at h
        cases h
        exact ⟨rfl, ha, by simpa using ht, by simp⟩
  · rw [if_neg ha] at h; cases h

end Verif.Tpp
