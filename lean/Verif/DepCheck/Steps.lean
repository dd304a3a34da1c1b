import Verif.DepCheck.Spec
import Mathlib.Tactic.SplitIfs
import Mathlib.Tactic.Ring

/-!
# Steps: the version of pylint (C128)
-/

namespace Verif.DepCheck

theorem isDigit_iff (c : Char) : isDigit c = true ↔ Digit c := by
  constructor
  · intro h
    simp only [isDigit, Bool.decide_and, Bool.and_eq_true, decide_eq_true_eq] at h
    have h1 : '0'.toNat ≤ c.toNat := h.1
    have h2 : c.toNat ≤ '9'.toNat := h.2
    have e : c = Char.ofNat c.toNat := (Char.ofNat_toNat c).symm
    have h1' : 48 ≤ c.toNat := h1
    have h2' : c.toNat ≤ 57 := h2
    generalize c.toNat = n at *
    have : n = 48 ∨ n = 49 ∨ n = 50 ∨ n = 51 ∨ n = 52 ∨ n = 53 ∨ n = 54 ∨ n = 55 ∨ n = 56 ∨ n = 57 := by omega
    rcases this with h | h | h | h | h | h | h | h | h | h <;> subst h <;> subst e <;> decide
  · intro h
    simp only [Digit, List.mem_cons, List.not_mem_nil, or_false] at h
    rcases h with h | h | h | h | h | h | h | h | h | h <;> subst h <;> decide

theorem isSpace_iff (c : Char) : isSpace c = true ↔ Space c := by
  simp [isSpace, Space, or_assoc]

theorem space_not_digit {c : Char} (h : Space c) : ¬ Digit c := by
  simp only [Space, List.mem_cons, List.not_mem_nil, or_false] at h
  rcases h with h | h | h | h | h | h <;> subst h <;> decide

theorem digit_not_space {c : Char} (h : Digit c) : ¬ Space c := fun h' => space_not_digit h' h

theorem while_split (p : Char → Bool) (t : Text) :
    t = t.takeWhile p ++ t.dropWhile p ∧ (∀ c ∈ t.takeWhile p, p c = true) ∧ (∀ c, (t.dropWhile p).head? = some c → p c = false) := by
  induction t with
  | nil => simp
  | cons c r ih =>
    by_cases h : p c = true
    · simp only [List.takeWhile_cons, List.dropWhile_cons, h, if_true]
      refine ⟨?_, ?_, ih.2.2⟩
      · rw [List.cons_append, ← ih.1]
      · intro d hd
        rcases List.mem_cons.1 hd with rfl | hd
        · exact h
        · exact ih.2.1 d hd
    · simp [List.takeWhile_cons, List.dropWhile_cons, h]

theorem while_unique (p : Char → Bool) (a d : Text) (ha : ∀ c ∈ a, p c = true) (hd : ∀ c, d.head? = some c → p c = false) :
    (a ++ d).takeWhile p = a ∧ (a ++ d).dropWhile p = d := by
  induction a with
  | nil =>
    cases d with
    | nil => simp
    | cons c r => have := hd c rfl; simp [List.takeWhile_cons, List.dropWhile_cons, this]
  | cons c r ih =>
    have h := ha c (List.mem_cons_self ..)
    have := ih (fun x hx => ha x (List.mem_cons_of_mem _ hx))
    simp only [List.cons_append, List.takeWhile_cons, List.dropWhile_cons, h, if_true]
    exact ⟨by rw [this.1], this.2⟩

theorem not_digit_iff (c : Char) : isDigit c = false ↔ ¬ Digit c := by
  rw [← isDigit_iff]; simp

theorem digitsAt_iff (t : Text) (a b : Text) : digitsAt t = some (a, b) ↔
    ∃ post, t = a ++ ['.'] ++ b ++ post ∧ (a ≠ [] ∧ ∀ c ∈ a, Digit c) ∧ (b ≠ [] ∧ ∀ c ∈ b, Digit c) ∧
      (∀ c, post.head? = some c → ¬ Digit c) := by
  constructor
  · intro h
    have w := while_split isDigit t
    simp only [digitsAt] at h
    split at h
    · rename_i r hr
      split_ifs at h with hn
      · injection h with h; injection h with h1 h2
        have v := while_split isDigit r
        have hn : t.takeWhile isDigit ≠ [] ∧ r.takeWhile isDigit ≠ [] := by
          constructor <;> intro e <;> exact hn (by simp [e])
        refine ⟨r.dropWhile isDigit, ?_, ⟨h1 ▸ hn.1, ?_⟩, ⟨h2 ▸ hn.2, ?_⟩, ?_⟩
        · rw [← h1, ← h2]
          conv => lhs; rw [w.1, hr, v.1]
          simp
        · rw [← h1]; exact fun c hc => (isDigit_iff c).1 (w.2.1 c hc)
        · rw [← h2]; exact fun c hc => (isDigit_iff c).1 (v.2.1 c hc)
        · exact fun c hc => (not_digit_iff c).1 (v.2.2 c hc)
    · exact absurd h (by simp)
  · rintro ⟨post, rfl, ⟨ha, ha'⟩, ⟨hb, hb'⟩, hp⟩
    have w := while_unique isDigit a ('.' :: (b ++ post)) (fun c hc => (isDigit_iff c).2 (ha' c hc))
      (by intro c hc; simp only [List.head?_cons, Option.some.injEq] at hc; subst hc; decide)
    have v := while_unique isDigit b post (fun c hc => (isDigit_iff c).2 (hb' c hc)) (fun c hc => (not_digit_iff c).2 (hp c hc))
    have e : a ++ ['.'] ++ b ++ post = a ++ '.' :: (b ++ post) := by simp
    rw [e]
    simp only [digitsAt, w.1, w.2, v.1]
    rw [if_neg (by simp [ha, hb])]

/-- What follows `pylint`. -/
theorem versionAt_iff (t : Text) (v : Text × Text) : versionAt t = some v ↔
    ∃ spaces post, t = "pylint".toList ++ spaces ++ v.1 ++ ['.'] ++ v.2 ++ post ∧
      (spaces ≠ [] ∧ ∀ c ∈ spaces, Space c) ∧ (v.1 ≠ [] ∧ ∀ c ∈ v.1, Digit c) ∧ (v.2 ≠ [] ∧ ∀ c ∈ v.2, Digit c) ∧
      (∀ c, post.head? = some c → ¬ Digit c) := by
  obtain ⟨a, b⟩ := v
  constructor
  · intro h
    unfold versionAt at h
    split at h
    · rename_i c r
      split_ifs at h with hc
      obtain ⟨post, e, h1, h2, h3⟩ := (digitsAt_iff _ a b).1 h
      have w := while_split isSpace r
      refine ⟨c :: r.takeWhile isSpace, post, ?_, ⟨by simp, ?_⟩, h1, h2, h3⟩
      · conv => lhs; rw [w.1, e]
        simp
      · intro x hx
        rcases List.mem_cons.1 hx with rfl | hx
        · exact (isSpace_iff x).1 hc
        · exact (isSpace_iff x).1 (w.2.1 x hx)
    · exact absurd h (by simp)
  · rintro ⟨spaces, post, rfl, ⟨hs, hs'⟩, h1, h2, h3⟩
    cases spaces with
    | nil => exact absurd rfl hs
    | cons c r =>
      have e : "pylint".toList ++ c :: r ++ (a, b).1 ++ ['.'] ++ (a, b).2 ++ post
          = 'p' :: 'y' :: 'l' :: 'i' :: 'n' :: 't' :: c :: (r ++ (a ++ ['.'] ++ b ++ post)) := by simp
      rw [e]
      have hc : isSpace c = true := (isSpace_iff c).2 (hs' c (List.mem_cons_self ..))
      have w := while_unique isSpace r (a ++ ['.'] ++ b ++ post) (fun x hx => (isSpace_iff x).2 (hs' x (List.mem_cons_of_mem _ hx)))
        (by
          intro x hx
          cases a with
          | nil => exact absurd rfl h1.1
          | cons y a' =>
            simp only [List.cons_append, List.head?_cons, Option.some.injEq] at hx
            subst hx
            have := digit_not_space (h1.2 y (List.mem_cons_self ..))
            rw [← isSpace_iff] at this; simpa using this)
      show (if isSpace c = true then digitsAt ((r ++ (a ++ ['.'] ++ b ++ post)).dropWhile isSpace) else none) = _
      rw [if_pos hc, w.2]
      exact (digitsAt_iff _ a b).2 ⟨post, rfl, h1, h2, h3⟩

/-- A line that tells a version, where the text before may be the end of a line (`start`). -/
def LineFrom (start : Bool) (out : Text) (v : Text × Text) (pre : Text) : Prop :=
  ∃ rest, out = pre ++ rest ∧ (pre = [] ∧ start = true ∨ pre.getLast? = some '\n') ∧ versionAt rest = some v

theorem versionLine_iff (out : Text) (v : Text × Text) (pre : Text) : VersionLine out v pre ↔ LineFrom true out v pre := by
  constructor
  · rintro ⟨sp, post, e, h1, h2, h3, h4, h5⟩
    refine ⟨"pylint".toList ++ sp ++ v.1 ++ ['.'] ++ v.2 ++ post, ?_, ?_, (versionAt_iff _ v).2 ⟨sp, post, rfl, h2, h3, h4, h5⟩⟩
    · rw [e]; simp only [List.append_assoc]
    · rcases h1 with h | h
      · exact .inl ⟨h, rfl⟩
      · exact .inr h
  · rintro ⟨rest, e, h1, hv⟩
    obtain ⟨sp, post, e', h2, h3, h4, h5⟩ := (versionAt_iff _ v).1 hv
    refine ⟨sp, post, ?_, ?_, h2, h3, h4, h5⟩
    · rw [e, e']; simp only [List.append_assoc]
    · rcases h1 with h | h
      · exact .inl h.1
      · exact .inr h

theorem lineFrom_cons (start : Bool) (c : Char) (r : Text) (v : Text × Text) (d : Char) (pre : Text) :
    LineFrom start (c :: r) v (d :: pre) ↔ d = c ∧ LineFrom (c = '\n') r v pre := by
  constructor
  · rintro ⟨rest, e, h1, hv⟩
    simp only [List.cons_append, List.cons.injEq] at e
    obtain ⟨rfl, e⟩ := e
    refine ⟨rfl, rest, e, ?_, hv⟩
    rcases h1 with h | h
    · exact absurd h.1 (by simp)
    · cases pre with
      | nil => simp at h; exact .inl ⟨rfl, by simp [h]⟩
      | cons x y => right; simpa [List.getLast?_cons_cons] using h
  · rintro ⟨rfl, rest, e, h1, hv⟩
    refine ⟨rest, by simp [e], .inr ?_, hv⟩
    rcases h1 with h | h
    · have := h.2; simp only [decide_eq_true_eq] at this; simp [h.1, this]
    · cases pre with
      | nil => simp at h
      | cons x y => simpa [List.getLast?_cons_cons] using h

theorem lineFrom_nil (start : Bool) (t : Text) (v : Text × Text) :
    LineFrom start t v [] ↔ (if start then versionAt t else none) = some v := by
  constructor
  · rintro ⟨rest, e, h1, hv⟩
    simp only [List.nil_append] at e; subst e
    rcases h1 with h | h
    · rw [h.2]; simpa using hv
    · simp at h
  · intro h
    cases start with
    | false => simp at h
    | true => exact ⟨t, by simp, .inl ⟨rfl, rfl⟩, by simpa using h⟩

theorem search_iff (start : Bool) (t : Text) (v : Text × Text) : search start t = some v ↔
    ∃ pre, LineFrom start t v pre ∧ ∀ w pre', LineFrom start t w pre' → pre.length ≤ pre'.length := by
  induction t generalizing start with
  | nil =>
    simp only [search]
    constructor
    · intro h; exact absurd h (by simp)
    · rintro ⟨pre, ⟨rest, e, -, hv⟩, -⟩
      have : rest = [] := by
        have := congrArg List.length e; simp at this; exact List.eq_nil_of_length_eq_zero (by omega)
      subst this; simp [versionAt] at hv
  | cons c r ih =>
    simp only [search]
    cases hm : (if start = true then versionAt (c :: r) else none) with
    | some u =>
      have hu := (lineFrom_nil start (c :: r) u).2 hm
      constructor
      · intro h
        injection h with h; subst h
        exact ⟨[], hu, by simp⟩
      · rintro ⟨pre, hp, hmin⟩
        have := hmin u [] hu
        have : pre = [] := by simpa using this
        subst this
        rw [lineFrom_nil, hm] at hp
        exact hp
    | none =>
      have hno : ∀ w, ¬ LineFrom start (c :: r) w [] := by
        intro w h; rw [lineFrom_nil, hm] at h; exact absurd h (by simp)
      show search (decide (c = '\n')) r = some v ↔ _
      rw [ih]
      constructor
      · rintro ⟨pre, hp, hmin⟩
        refine ⟨c :: pre, (lineFrom_cons ..).2 ⟨rfl, hp⟩, ?_⟩
        intro w pre' h
        cases pre' with
        | nil => exact absurd h (hno w)
        | cons d q => have := hmin w q ((lineFrom_cons ..).1 h).2; simpa using this
      · rintro ⟨pre, hp, hmin⟩
        cases pre with
        | nil => exact absurd hp (hno v)
        | cons d q =>
          refine ⟨q, ((lineFrom_cons ..).1 hp).2, ?_⟩
          intro w pre' h
          have := hmin w (c :: pre') ((lineFrom_cons ..).2 ⟨rfl, h⟩)
          simpa using this

theorem tells_iff (out : Text) (v : Text × Text) : search true out = some v ↔ Tells out v := by
  simp only [Tells, versionLine_iff]
  exact search_iff true out v

theorem tells_digits {out : Text} {v : Text × Text} (h : Tells out v) : (∀ c ∈ v.1, Digit c) ∧ (∀ c ∈ v.2, Digit c) := by
  obtain ⟨pre, ⟨_, _, _, _, _, h1, h2, _⟩, _⟩ := h
  exact ⟨h1.2, h2.2⟩

/-! Numbers -/

theorem digit_value {c : Char} (h : Digit c) :
    ['0', '1', '2', '3', '4', '5', '6', '7', '8', '9'].idxOf c = c.toNat - '0'.toNat ∧ c.toNat - '0'.toNat < 10 := by
  simp only [Digit, List.mem_cons, List.not_mem_nil, or_false] at h
  rcases h with h | h | h | h | h | h | h | h | h | h <;> subst h <;> decide

theorem number_from (t : Text) (n : Nat) (h : ∀ c ∈ t, Digit c) :
    t.foldl (fun n c => 10 * n + (c.toNat - '0'.toNat)) n = n * 10 ^ t.length + value t := by
  induction t generalizing n with
  | nil => simp [value]
  | cons c r ih =>
    simp only [List.foldl_cons]
    rw [ih _ (fun x hx => h x (List.mem_cons_of_mem _ hx))]
    simp only [value, List.length_cons, (digit_value (h c (List.mem_cons_self ..))).1]
    rw [Nat.pow_succ]
    ring

theorem number_eq (t : Text) (h : ∀ c ∈ t, Digit c) : number t = value t := by
  rw [number, number_from t 0 h]; simp

theorem value_append (a b : Text) : value (a ++ b) = value a * 10 ^ b.length + value b := by
  induction a with
  | nil => simp [value]
  | cons c r ih =>
    simp only [List.cons_append, value, ih, List.length_append]
    rw [Nat.pow_add]; ring

theorem value_lt (t : Text) (h : ∀ c ∈ t, Digit c) : value t < 10 ^ t.length := by
  induction t with
  | nil => simp [value]
  | cons c r ih =>
    have h1 := digit_value (h c (List.mem_cons_self ..))
    have h2 := ih (fun x hx => h x (List.mem_cons_of_mem _ hx))
    simp only [value, List.length_cons, Nat.pow_succ]
    rw [h1.1]
    have : (c.toNat - '0'.toNat) * 10 ^ r.length ≤ 9 * 10 ^ r.length := Nat.mul_le_mul_right _ (by omega)
    omega

theorem older_iff (v w : Text × Text) (hv : (∀ c ∈ v.1, Digit c) ∧ (∀ c ∈ v.2, Digit c))
    (hw : (∀ c ∈ w.1, Digit c) ∧ (∀ c ∈ w.2, Digit c)) (hl : v.2.length = w.2.length) :
    older v w = false ↔ AtLeast v w := by
  have d1 : ∀ c ∈ v.1 ++ v.2, Digit c := by
    intro c hc; rcases List.mem_append.1 hc with h | h
    · exact hv.1 c h
    · exact hv.2 c h
  have d2 : ∀ c ∈ w.1 ++ w.2, Digit c := by
    intro c hc; rcases List.mem_append.1 hc with h | h
    · exact hw.1 c h
    · exact hw.2 c h
  simp only [older, decide_eq_false_iff_not, AtLeast, number_eq _ d1, number_eq _ d2, value_append, hl]
  have b1 := value_lt _ hv.2
  have b2 := value_lt _ hw.2
  rw [hl] at b1
  have hp : 0 < 10 ^ w.2.length := Nat.pow_pos (by omega)
  rw [Nat.mul_lt_mul_right hp, Nat.not_lt]
  generalize 10 ^ w.2.length = P at *
  constructor
  · intro h
    rcases Nat.lt_trichotomy (value w.1) (value v.1) with h1 | h1 | h1
    · exact .inl h1
    · right; refine ⟨h1, ?_⟩; rw [h1] at h; omega
    · exfalso
      have : (value v.1 + 1) * P ≤ value w.1 * P := Nat.mul_le_mul_right _ h1
      rw [Nat.add_mul] at this; omega
  · rintro (h | ⟨h, h'⟩)
    · have : (value w.1 + 1) * P ≤ value v.1 * P := Nat.mul_le_mul_right _ h
      rw [Nat.add_mul] at this; omega
    · rw [h]; omega

end Verif.DepCheck
