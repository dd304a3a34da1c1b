import Verif.ConnCaps.Steps

/-!
# Lemmas: the names of the objects of connections
-/

namespace Verif.ConnCaps
open Verif.Context

/-- The names that the templates give to objects. -/
def IsName (n : Text) : Prop :=
  n = tEp ∨ n = tBuffer ∨ n = tReply ∨ n = tNotification ∨
  ∃ base i, (base = tEp ∨ base = tNotification ∨ base = tHandoff ∨ base = tLock) ∧ n = numbered base i

theorem ops_isName (rt : Bool) (it : Item) (op : Op) (h : op ∈ ops rt it) (n : Text) (hn : op.obj = some n) : IsName n := by
  obtain ⟨⟨name, kind, srcs, dsts⟩, side, me⟩ := it
  cases side <;> cases kind <;> simp only [ops, srcOps, dstOps, alloc] at h
  · rcases List.mem_append.mp h with h | h
    · split at h
      · rw [List.mem_singleton] at h; subst h; cases hn; exact .inr (.inl rfl)
      · cases h
    · rw [List.mem_singleton] at h; subst h; cases hn; exact .inl rfl
  · obtain ⟨i, _, rfl⟩ := List.mem_map.mp h; cases hn; exact .inr (.inr (.inr (.inr ⟨_, i, .inr (.inl rfl), rfl⟩)))
  · obtain ⟨i, _, rfl⟩ := List.mem_map.mp h; cases hn; exact .inr (.inr (.inr (.inr ⟨_, i, .inl rfl, rfl⟩)))
  · rw [List.mem_singleton] at h; subst h; cases hn; exact .inr (.inr (.inr (.inl rfl)))
  · rw [List.mem_singleton] at h; subst h; cases hn; exact .inr (.inr (.inr (.inl rfl)))
  · rcases List.mem_append.mp h with h | h
    · rw [List.mem_singleton] at h; subst h; cases hn; exact .inl rfl
    · split at h
      · rw [List.mem_singleton] at h; subst h; cases hn; exact .inr (.inr (.inl rfl))
      · split at h
        · rw [List.mem_singleton] at h; subst h; cases hn
        · cases h
  · simp only [List.mem_cons, List.not_mem_nil, or_false] at h
    rcases h with rfl | rfl | rfl <;> cases hn
    · exact .inr (.inr (.inr (.inr ⟨_, _, .inr (.inl rfl), rfl⟩)))
    · exact .inr (.inr (.inr (.inr ⟨_, _, .inr (.inr (.inl rfl)), rfl⟩)))
    · exact .inr (.inr (.inr (.inr ⟨_, _, .inr (.inr (.inr rfl)), rfl⟩)))
  · simp only [List.mem_cons, List.not_mem_nil, or_false] at h
    rcases h with rfl | rfl | rfl <;> cases hn
    · exact .inr (.inr (.inr (.inr ⟨_, _, .inl rfl, rfl⟩)))
    · exact .inr (.inr (.inr (.inr ⟨_, _, .inr (.inr (.inl rfl)), rfl⟩)))
    · exact .inr (.inr (.inr (.inr ⟨_, _, .inr (.inr (.inr rfl)), rfl⟩)))
  · rw [List.mem_singleton] at h; subst h; cases hn; exact .inr (.inr (.inr (.inl rfl)))
  · rw [List.mem_singleton] at h; subst h; cases hn; exact .inr (.inr (.inr (.inl rfl)))

theorem numbered_inj {b : Text} {i j : Nat} (h : numbered b i = numbered b j) : i = j := by
  have h := List.append_cancel_left h
  rw [← value_dec i, ← value_dec j, h]

/-- Names begin with one of these characters. -/
theorem isName_head (n : Text) (h : IsName n) : ∃ c t, n = c :: t ∧ c ∈ ['e', 'u', 'r', 'n', 'h', 'l'] := by
  rcases h with rfl | rfl | rfl | rfl | ⟨b, i, rfl | rfl | rfl | rfl, rfl⟩
  · exact ⟨'e', _, rfl, by decide⟩
  · exact ⟨'u', _, rfl, by decide⟩
  · exact ⟨'r', _, rfl, by decide⟩
  · exact ⟨'n', _, rfl, by decide⟩
  · exact ⟨'e', _, rfl, by decide⟩
  · exact ⟨'n', _, rfl, by decide⟩
  · exact ⟨'h', _, rfl, by decide⟩
  · exact ⟨'l', _, rfl, by decide⟩

theorem digit_not_head (c : Char) (h : IsDigit c) : c ∉ ['e', 'u', 'r', 'n', 'h', 'l'] := by
  obtain ⟨d, hd, rfl⟩ := h
  revert hd
  revert d
  decide

theorem split_at {t u b d : Text} (hb : '_' ∉ b) (hd : '_' ∉ d) (h : t ++ '_' :: u = b ++ '_' :: d) : t = b ∧ u = d := by
  rw [List.append_eq_append_iff] at h
  rcases h with ⟨x, h1, h2⟩ | ⟨x, h1, h2⟩
  · cases x with
    | nil => simp only [List.append_nil] at h1; simp only [List.nil_append, List.cons.injEq, true_and] at h2; exact ⟨h1.symm, h2⟩
    | cons c x =>
      simp only [List.cons_append, List.cons.injEq] at h2
      obtain ⟨rfl, _⟩ := h2
      exact absurd (by rw [h1]; simp) hb
  · cases x with
    | nil => simp only [List.append_nil] at h1; simp only [List.nil_append, List.cons.injEq, true_and] at h2; exact ⟨h1, h2.symm⟩
    | cons c x =>
      simp only [List.cons_append, List.cons.injEq] at h2
      obtain ⟨rfl, h2⟩ := h2
      exact absurd (by rw [h2]; simp) hd

theorem dec_no_underscore (i : Nat) : '_' ∉ dec i := fun h => (digit_ne (dec_digits i _ h)).1 rfl

/-- The only name that ends with another one after an underscore. -/
theorem name_in_name (n t n' : Text) (h : IsName n) (h' : IsName n') (e : n = t ++ '_' :: n') :
    n = tBuffer ∧ t = "userspace_buffer".toList ∧ n' = tEp := by
  obtain ⟨c, r, rfl, hc⟩ := isName_head n' h'
  have hu : n[t.length]? = some '_' := by rw [e]; simp
  have hdrop : c :: r = n.drop (t.length + 1) := by rw [e]; simp
  have htake : t = n.take t.length := by rw [e]; simp
  rcases h with rfl | rfl | rfl | rfl | ⟨b, i, hb, rfl⟩
  · exact absurd (List.mem_of_getElem? hu) (by decide)
  · have hlt : t.length < 19 := (List.getElem?_eq_some_iff.mp hu).1
    have : ∀ k < 19, tBuffer[k]? = some '_' → k = 9 ∨ k = 16 := by decide
    rcases this _ hlt hu with hk | hk
    · rw [hk] at hdrop
      simp only [tBuffer, List.drop_succ_cons, List.drop_zero, List.cons.injEq] at hdrop
      rw [hdrop.1] at hc
      exact absurd hc (by decide)
    · rw [hk] at hdrop htake
      exact ⟨rfl, htake, hdrop⟩
  · have hlt : t.length < 14 := (List.getElem?_eq_some_iff.mp hu).1
    have : ∀ k < 14, tReply[k]? = some '_' → k = 5 ∨ k = 9 := by decide
    rcases this _ hlt hu with hk | hk <;> rw [hk] at hdrop <;>
      simp only [tReply, List.drop_succ_cons, List.drop_zero, List.cons.injEq] at hdrop <;> rw [hdrop.1] at hc <;>
      exact absurd hc (by decide)
  · exact absurd (List.mem_of_getElem? hu) (by decide)
  · have hb' : '_' ∉ b := by rcases hb with rfl | rfl | rfl | rfl <;> decide
    obtain ⟨_, e2⟩ := split_at (t := t) (u := c :: r) hb' (dec_no_underscore i) (by rw [← e]; simp [numbered])
    have : c ∈ dec i := by rw [← e2]; simp
    exact absurd hc (digit_not_head c (dec_digits i c this))

/-- Objects of connections without a clash of names have different names. -/
theorem fullName_inj (l l' n n' : Text) (h : IsName n) (h' : IsName n')
    (c1 : l' ≠ l ++ "_userspace_buffer".toList) (c2 : l ≠ l' ++ "_userspace_buffer".toList)
    (e : fullName l n = fullName l' n') : l = l' ∧ n = n' := by
  have key : ∀ a b x y, IsName x → IsName y → b ≠ a ++ "_userspace_buffer".toList → ∀ t, b = a ++ ('_' :: t) →
      ¬ x = t ++ '_' :: y := by
    intro a b x y hx hy hne t hb hxy
    obtain ⟨_, h2, _⟩ := name_in_name x t y hx hy hxy
    apply hne
    rw [hb, h2]
    rfl
  simp only [fullName, List.append_assoc, List.singleton_append] at e
  rcases List.append_eq_append_iff.mp e with ⟨t, h1, h2⟩ | ⟨t, h1, h2⟩
  · cases t with
    | nil =>
      simp only [List.append_nil] at h1
      simp only [List.nil_append, List.cons.injEq, true_and] at h2
      exact ⟨h1.symm, h2⟩
    | cons c t =>
      simp only [List.cons_append, List.cons.injEq] at h2
      obtain ⟨rfl, h2⟩ := h2
      exact absurd h2 (key l l' n n' h h' c1 t h1)
  · cases t with
    | nil =>
      simp only [List.append_nil] at h1
      simp only [List.nil_append, List.cons.injEq, true_and] at h2
      exact ⟨h1, h2.symm⟩
    | cons c t =>
      simp only [List.cons_append, List.cons.injEq] at h2
      obtain ⟨rfl, h2⟩ := h2
      exact absurd h2 (key l' l n' n h' h c2 t h1)

end Verif.ConnCaps
