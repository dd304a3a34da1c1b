import Verif.Goanna.Spec
import Mathlib.Tactic.ByContra

/-!
# What the matcher of regular expressions does
-/

namespace Verif.Goanna

/-- A text fits an expression, with groups. -/
def Fits : List Item → List Char → List (List Char) → Prop
  | [], _, caps => caps = []
  | .chr c :: is, s, caps => ∃ s', s = c :: s' ∧ Fits is s' caps
  | .many min p _ cap :: is, s, caps =>
    ∃ a b caps', s = a ++ b ∧ (∀ c ∈ a, p c = true) ∧ min ≤ a.length ∧ Fits is b caps' ∧
      caps = if cap then a :: caps' else caps'
  | .eol :: is, s, caps => s = [] ∧ Fits is s caps

/-- The same, where a repetition that takes as few characters as possible does so, and one that takes as many as
possible cannot take one more and go on. -/
def Found : List Item → List Char → List (List Char) → Prop
  | [], _, caps => caps = []
  | .chr c :: is, s, caps => ∃ s', s = c :: s' ∧ Found is s' caps
  | .many min p greedy cap :: is, s, caps =>
    ∃ a b caps', s = a ++ b ∧ (∀ c ∈ a, p c = true) ∧ min ≤ a.length ∧ Found is b caps' ∧
      caps = (if cap then a :: caps' else caps') ∧
      (greedy = false → ∀ x y, a = x ++ y → y ≠ [] → min ≤ x.length → ¬ ∃ k, Fits is (y ++ b) k) ∧
      (greedy = true → ∀ x y, b = x ++ y → x ≠ [] → (∀ c ∈ x, p c = true) → ¬ ∃ k, Fits is y k)
  | .eol :: is, s, caps => s = [] ∧ Found is s caps

theorem Found.fits : ∀ {is : List Item} {s : List Char} {caps : List (List Char)}, Found is s caps → Fits is s caps
  | [], _, _, h => h
  | .chr _ :: _, _, _, ⟨s', h, k⟩ => ⟨s', h, k.fits⟩
  | .many _ _ _ _ :: _, _, _, ⟨a, b, caps', h₁, h₂, h₃, h₄, h₅, _⟩ => ⟨a, b, caps', h₁, h₂, h₃, h₄.fits, h₅⟩
  | .eol :: _, _, _, ⟨h, k⟩ => ⟨h, k.fits⟩

theorem take_all {p : Char → Bool} : ∀ {s : List Char} {n : Nat}, n ≤ (s.takeWhile p).length → ∀ c ∈ s.take n, p c = true
  | s, n, h, c, hc => by
    have h1 : s.take n = (s.takeWhile p).take n := by
      have := List.takeWhile_append_dropWhile (p := p) (l := s)
      conv_lhs => rw [← this]
      rw [List.take_append_of_le_length h]
    rw [h1] at hc
    have := List.mem_of_mem_take hc
    exact List.all_eq_true.mp List.all_takeWhile c this

theorem prefix_le {p : Char → Bool} {a b : List Char} (h : ∀ c ∈ a, p c = true) :
    a.length ≤ ((a ++ b).takeWhile p).length := by
  rw [List.takeWhile_append_of_pos h]
  simp

theorem mem_lengths {min max n : Nat} {greedy : Bool} : n ∈ lengths min max greedy ↔ min ≤ n ∧ n ≤ max := by
  unfold lengths
  cases greedy <;> simp [and_comm] <;> omega

/-- The element before which a list was searched in vain. -/
theorem findSome_split {α β : Type} {f : α → Option β} : ∀ {l : List α} {b : β}, l.findSome? f = some b →
    ∃ x a y, l = x ++ a :: y ∧ f a = some b ∧ ∀ z ∈ x, f z = none
  | [], _, h => by simp at h
  | a :: l, b, h => by
    rw [List.findSome?_cons] at h
    cases ha : f a with
    | some b' => rw [ha] at h; simp at h; subst h; exact ⟨[], a, l, rfl, ha, by simp⟩
    | none =>
      rw [ha] at h
      obtain ⟨x, a', y, rfl, h2, h3⟩ := findSome_split h
      exact ⟨a :: x, a', y, rfl, h2, by
        intro z hz
        rcases List.mem_cons.mp hz with rfl | hz
        · exact ha
        · exact h3 z hz⟩

/-- Lengths that are tried before another one. -/
theorem lengths_before {min max : Nat} {greedy : Bool} {x y : List Nat} {n m : Nat}
    (h : lengths min max greedy = x ++ n :: y) (hm : min ≤ m) (hx : m ≤ max)
    (hlt : if greedy then n < m else m < n) : m ∈ x := by
  have hmem : m ∈ lengths min max greedy := mem_lengths.mpr ⟨hm, hx⟩
  have hs : (lengths min max greedy).Pairwise (fun a b => if greedy then b < a else a < b) := by
    unfold lengths
    have h0 : ((List.range (max + 1)).filter (fun n => decide (min ≤ n))).Pairwise (· < ·) :=
      List.Pairwise.filter _ List.pairwise_lt_range
    cases greedy with
    | false => simpa using h0
    | true => simpa [List.pairwise_reverse] using h0
  rw [h] at hmem hs
  rcases List.mem_append.mp hmem with h1 | h1
  · exact h1
  · rcases List.mem_cons.mp h1 with rfl | h2
    · cases greedy <;> simp at hlt
    · have h3 := (List.pairwise_append.mp hs).2.1
      have h4 := (List.pairwise_cons.mp h3).1 m h2
      cases greedy <;> simp at hlt h4 <;> omega

/-- A text that fits is matched. -/
theorem match_complete : ∀ {is : List Item} {s : List Char} {caps : List (List Char)}, Fits is s caps →
    ∃ k, matchSeq is s = some k
  | [], _, _, _ => ⟨[], by simp [matchSeq]⟩
  | .chr c :: is, s, caps, ⟨s', h, k⟩ => by
    obtain ⟨k', hk⟩ := match_complete k
    exact ⟨k', by rw [h]; simp [matchSeq, hk]⟩
  | .eol :: is, s, caps, ⟨h, k⟩ => by
    obtain ⟨k', hk⟩ := match_complete k
    exact ⟨k', by rw [h] at hk ⊢; simp [matchSeq, hk]⟩
  | .many min p greedy cap :: is, s, caps, ⟨a, b, caps', h₁, h₂, h₃, h₄, _⟩ => by
    obtain ⟨k', hk⟩ := match_complete h₄
    by_contra hc
    have hn : matchSeq (.many min p greedy cap :: is) s = none := by
      cases hq : matchSeq (.many min p greedy cap :: is) s with
      | none => rfl
      | some q => exact absurd ⟨q, hq⟩ hc
    rw [matchSeq, List.findSome?_eq_none_iff] at hn
    have := hn a.length (mem_lengths.mpr ⟨h₃, by rw [h₁]; exact prefix_le h₂⟩)
    rw [h₁, List.drop_left, hk] at this
    simp at this

/-- What is matched fits, in the way described. -/
theorem match_found : ∀ {is : List Item} {s : List Char} {caps : List (List Char)}, matchSeq is s = some caps →
    Found is s caps
  | [], s, caps, h => by simp [matchSeq] at h; exact h
  | .chr c :: is, [], caps, h => by simp [matchSeq] at h
  | .chr c :: is, x :: s, caps, h => by
    rw [matchSeq] at h
    by_cases hx : x = c
    · rw [if_pos hx] at h; exact ⟨s, by rw [hx], match_found h⟩
    · rw [if_neg hx] at h; simp at h
  | .eol :: is, s, caps, h => by
    rw [matchSeq] at h
    by_cases hx : s = []
    · rw [if_pos hx] at h; exact ⟨hx, match_found h⟩
    · rw [if_neg hx] at h; simp at h
  | .many min p greedy cap :: is, s, caps, h => by
    rw [matchSeq] at h
    obtain ⟨x, n, y, hl, hf, hb⟩ := findSome_split h
    have hn : n ∈ lengths min (s.takeWhile p).length greedy := by rw [hl]; simp
    obtain ⟨hn1, hn2⟩ := mem_lengths.mp hn
    have hle : n ≤ s.length := Nat.le_trans hn2 (List.takeWhile_prefix p).length_le
    cases hm : matchSeq is (s.drop n) with
    | none => rw [hm] at hf; simp at hf
    | some k =>
      rw [hm] at hf
      simp only [Option.some.injEq] at hf
      have hfail : ∀ m, min ≤ m → m ≤ (s.takeWhile p).length → (if greedy then n < m else m < n) →
          ¬ ∃ k, Fits is (s.drop m) k := by
        intro m h1 h2 h3 ⟨k, hk⟩
        obtain ⟨k', hk'⟩ := match_complete hk
        have := hb m (lengths_before hl h1 h2 h3)
        rw [hk'] at this
        simp at this
      refine ⟨s.take n, s.drop n, k, (List.take_append_drop n s).symm, take_all hn2, ?_, match_found hm, hf.symm,
        ?_, ?_⟩
      · rw [List.length_take]; omega
      · intro hg u v huv hv hmin
        have hlen : (u ++ v).length = n := by rw [← huv, List.length_take]; omega
        have hv' : 0 < v.length := List.length_pos_iff.mpr hv
        rw [List.length_append] at hlen
        have hd : s.drop u.length = v ++ s.drop n := by
          conv_lhs => rw [← List.take_append_drop n s, huv, List.append_assoc, List.drop_left]
        rw [← hd]
        exact hfail u.length hmin (by omega) (by simp [hg]; omega)
      · intro hg u v huv hu hp
        have hu' : 0 < u.length := List.length_pos_iff.mpr hu
        have hs : s = (s.take n ++ u) ++ v := by rw [List.append_assoc, ← huv, List.take_append_drop]
        have hlen : (s.take n ++ u).length = n + u.length := by rw [List.length_append, List.length_take]; omega
        have hd : s.drop (n + u.length) = v := by
          conv_lhs => rw [hs]
          rw [← hlen, List.drop_left]
        have hall : ∀ c ∈ s.take n ++ u, p c = true := by
          intro c hc
          rcases List.mem_append.mp hc with hc | hc
          · exact take_all hn2 c hc
          · exact hp c hc
        rw [← hd]
        refine hfail _ (by omega) ?_ (by simp [hg]; omega)
        have := prefix_le (b := v) hall
        rw [← hs, hlen] at this
        exact this

/-- Literal text. -/
theorem fits_lit (w : List Char) (is : List Item) : ∀ (s : List Char) (caps : List (List Char)),
    Fits (lit w ++ is) s caps ↔ ∃ s', s = w ++ s' ∧ Fits is s' caps := by
  induction w with
  | nil => intro s caps; simp [lit]
  | cons c w ih =>
    intro s caps
    have : lit (c :: w) ++ is = .chr c :: (lit w ++ is) := rfl
    rw [this, Fits]
    constructor
    · rintro ⟨s', h, k⟩
      obtain ⟨s'', h', k'⟩ := (ih s' caps).mp k
      exact ⟨s'', by rw [h, h']; rfl, k'⟩
    · rintro ⟨s', h, k⟩
      exact ⟨w ++ s', h, (ih _ _).mpr ⟨s', rfl, k⟩⟩

theorem found_lit (w : List Char) (is : List Item) : ∀ (s : List Char) (caps : List (List Char)),
    Found (lit w ++ is) s caps ↔ ∃ s', s = w ++ s' ∧ Found is s' caps := by
  induction w with
  | nil => intro s caps; simp [lit]
  | cons c w ih =>
    intro s caps
    have : lit (c :: w) ++ is = .chr c :: (lit w ++ is) := rfl
    rw [this, Found]
    constructor
    · rintro ⟨s', h, k⟩
      obtain ⟨s'', h', k'⟩ := (ih s' caps).mp k
      exact ⟨s'', by rw [h, h']; rfl, k'⟩
    · rintro ⟨s', h, k⟩
      exact ⟨w ++ s', h, (ih _ _).mpr ⟨s', rfl, k⟩⟩

/-- Where a class of characters ends. -/
theorem span_unique {p : Char → Bool} : ∀ {a a' : List Char} {x x' : Char} {b b' : List Char},
    a ++ x :: b = a' ++ x' :: b' → (∀ c ∈ a, p c = true) → (∀ c ∈ a', p c = true) → p x = false → p x' = false →
    a = a' ∧ x = x' ∧ b = b'
  | [], [], _, _, _, _, h, _, _, _, _ => by simp at h; exact ⟨rfl, h.1, h.2⟩
  | [], c :: a', _, _, _, _, h, _, h2, h3, _ => by
    simp at h; have := h2 c (by simp); rw [← h.1] at this; rw [this] at h3; simp at h3
  | c :: a, [], _, _, _, _, h, h1, _, _, h4 => by
    simp at h; have := h1 c (by simp); rw [h.1] at this; rw [this] at h4; simp at h4
  | c :: a, c' :: a', _, _, _, _, h, h1, h2, h3, h4 => by
    simp only [List.cons_append, List.cons.injEq] at h
    obtain ⟨h5, h6, h7⟩ := span_unique h.2 (fun c hc => h1 c (by simp [hc])) (fun c hc => h2 c (by simp [hc])) h3 h4
    exact ⟨by rw [h.1, h5], h6, h7⟩

end Verif.Goanna
