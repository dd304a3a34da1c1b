import Verif.Paths.Spec
import Mathlib.Tactic.SplitIfs

/-!
# Lemmas on paths
-/

namespace Verif.Paths

theorem split_ends {p : Text} (h : Ends p) : ∃ t, split p = [] :: t := by
  rcases h with rfl | ⟨r, rfl⟩
  · exact ⟨[], rfl⟩
  · exact ⟨split r, by simp [split]⟩

theorem split_app : ∀ (n p : Text) (t : List Text), '/' ∉ n → split p = [] :: t → split (n ++ p) = n :: t
  | [], p, t, _, h => by simpa using h
  | c :: n, p, t, hn, h => by
    have hc : ¬ c = '/' := by intro h; exact hn (by simp [h])
    have := split_app n p t (fun h => hn (List.mem_cons_of_mem _ h)) h
    simp [split, hc, this]

theorem normLoop_skip (r : Bool) (st t : List Text) : normLoop r st ([] :: t) = normLoop r st t := by
  simp [normLoop]

theorem normLoop_cons (rooted : Bool) (st : List Text) (comp : Text) (comps : List Text) :
    normLoop rooted st (comp :: comps) =
      if comp = [] ∨ comp = ['.'] then normLoop rooted st comps
      else if comp ≠ ['.', '.'] ∨ (rooted = false ∧ st = []) ∨ st.head? = some ['.', '.'] then normLoop rooted (comp :: st) comps
      else normLoop rooted st.tail comps := rfl

theorem dir_names {fs : Fs} (ht : Tree fs) : ∀ (l : Loc), fs.isDir l = true → ∀ n ∈ l, Name n := by
  intro l
  induction h : l.length generalizing l with
  | zero => intro _ n hn; simp [List.length_eq_zero_iff.mp h] at hn
  | succ k ih =>
    intro hd n hn
    obtain ⟨m, a, rfl⟩ : ∃ m a, l = m ++ [a] := by
      rcases List.eq_nil_or_concat l with hl | ⟨m, a, hl⟩
      · simp [hl] at h
      · exact ⟨m, a, by simpa using hl⟩
    have hp := ht.parent m a hd
    rcases List.mem_append.mp hn with hn | hn
    · exact ih m (by simpa using h) hp.1 n hn
    · simp at hn; rw [hn]; exact hp.2

theorem dir_dropLast {fs : Fs} (ht : Tree fs) (d : Loc) (h : fs.isDir d = true) : fs.isDir d.dropLast = true := by
  rcases List.eq_nil_or_concat d with rfl | ⟨m, a, hl⟩
  · simpa using h
  · have : d = m ++ [a] := by simpa using hl
    subst this
    simpa using (ht.parent m a h).1

theorem enter_plain {fs : Fs} (hn : NoLinks fs) (d : Loc) (n : Text) : fs.enter d n = d ++ [n] := by
  unfold Fs.enter
  rw [hn]
  rfl

/-- Following a path in the file system is what the loop of `normpath` does with its components. -/
theorem walk_norm {fs : Fs} (ht : Tree fs) (hn : NoLinks fs) {d : Loc} {p : Text} {l : Loc} (h : Walk fs d p l) :
    (∀ n ∈ d, Name n) → normLoop true d.reverse (split p) = l.reverse ∧ ∀ n ∈ l, Name n := by
  induction h with
  | here d => intro hd; exact ⟨by simp [split, normLoop], hd⟩
  | slash hdir _ ih =>
    intro hd
    have := ih hd
    refine ⟨?_, this.2⟩
    rw [← this.1]
    simp [split, normLoop_skip]
  | @dot d p l hdir he _ ih =>
    intro hd
    have h1 := ih hd
    obtain ⟨t, ht'⟩ := split_ends he
    refine ⟨?_, h1.2⟩
    have := split_app ['.'] p t (by decide) ht'
    rw [show '.' :: p = ['.'] ++ p from rfl, this, ← h1.1, ht', normLoop_skip]
    simp [normLoop]
  | @up d p l hdir he _ ih =>
    intro hd
    have h1 := ih (fun n hn => hd n (List.dropLast_subset d hn))
    obtain ⟨t, ht'⟩ := split_ends he
    refine ⟨?_, h1.2⟩
    have := split_app ['.', '.'] p t (by decide) ht'
    rw [show '.' :: '.' :: p = ['.', '.'] ++ p from rfl, this, ← h1.1, ht', normLoop_skip]
    have hh : ¬ d.reverse.head? = some ['.', '.'] := by
      intro hh
      have hm : ['.', '.'] ∈ d := by
        have : ['.', '.'] ∈ d.reverse := List.mem_of_head? hh
        simpa using this
      exact (hd _ hm).2.2.2 rfl
    have ht2 : d.dropLast.reverse = d.reverse.tail := by
      rw [List.tail_reverse]
    rw [ht2]
    rw [normLoop_cons, if_neg (by decide), if_neg (by simpa using hh)]
  | @name d p l n hdir hname he _ ih =>
    intro hd
    rw [enter_plain hn] at ih
    have h1 := ih (by
      intro m hm
      rcases List.mem_append.mp hm with hm | hm
      · exact hd m hm
      · simp at hm; rw [hm]; exact hname)
    obtain ⟨t, ht'⟩ := split_ends he
    refine ⟨?_, h1.2⟩
    have := split_app n p t hname.2.1 ht'
    rw [this, ← h1.1, ht', normLoop_skip]
    rw [normLoop_cons, if_neg (by simpa using ⟨hname.1, hname.2.2.1⟩), if_pos (Or.inl hname.2.2.2)]
    simp

theorem joinSep_render : ∀ (l : Loc), '/' :: joinSep l = render l
  | [] => rfl
  | [w] => by simp [joinSep, render]
  | w :: v :: ws => by
    have ih := joinSep_render (v :: ws)
    simp only [joinSep]
    rw [ih]
    simp [render]

theorem initial_cases (p : Text) (h : p.head? = some '/') : (TwoSlashes p ∧ initialSlashes p = 2) ∨ (¬ TwoSlashes p ∧ initialSlashes p = 1) := by
  obtain ⟨q, rfl⟩ : ∃ q, p = '/' :: q := by
    cases p with
    | nil => cases h
    | cons a q => simp at h; exact ⟨q, by rw [h]⟩
  cases q with
  | nil => exact Or.inr ⟨(by rintro ⟨r, h, _⟩; simp at h), rfl⟩
  | cons c r =>
    by_cases hc : c = '/'
    · subst hc
      cases r with
      | nil => exact Or.inl ⟨⟨[], rfl, by simp⟩, rfl⟩
      | cons d r =>
        by_cases hd : d = '/'
        · subst hd
          refine Or.inr ⟨?_, rfl⟩
          rintro ⟨r', h, h2⟩
          simp only [List.cons.injEq, true_and] at h
          rw [← h] at h2
          exact h2 rfl
        · refine Or.inl ⟨⟨d :: r, rfl, by simpa using hd⟩, ?_⟩
          unfold initialSlashes
          split
          · rename_i h1; simp only [List.cons.injEq, true_and] at h1; exact absurd h1.1 hd
          · rfl
          · rename_i a b he
            injection he with _ he
            exact absurd he.symm (b _)
          · rename_i a b c
            exact absurd rfl (c _)
    · refine Or.inr ⟨?_, ?_⟩
      · rintro ⟨r', h, _⟩
        simp only [List.cons.injEq, true_and] at h
        exact hc h.1
      · unfold initialSlashes
        split
        · rename_i h1; simp only [List.cons.injEq, true_and] at h1; exact absurd h1.1 hc
        · rename_i h1; simp only [List.cons.injEq, true_and] at h1; exact absurd h1.1 hc
        · rfl
        · rename_i h1; simp at h1

/-- An absolute path that leads to a place becomes the usual way to write that place. -/
theorem normpath_of_walk {fs : Fs} (ht : Tree fs) (hn : NoLinks fs) {p : Text} {l : Loc} (hp : p.head? = some '/')
    (h : Walk fs [] p l) :
    (¬ TwoSlashes p → normpath p = render l) ∧ (TwoSlashes p → normpath p = '/' :: render l) := by
  have hw := (walk_norm ht hn h (by simp)).1
  have hne : p ≠ [] := by rintro rfl; cases hp
  simp only [List.reverse_nil] at hw
  rcases initial_cases p hp with ⟨h2, hk⟩ | ⟨h2, hk⟩
  · refine ⟨fun h => absurd h2 h, fun _ => ?_⟩
    unfold normpath
    rw [if_neg hne]
    simp only [hk]
    rw [show (decide (2 ≠ 0)) = true from rfl, hw, List.reverse_reverse]
    rw [← joinSep_render]
    rfl
  · refine ⟨fun _ => ?_, fun h => absurd h h2⟩
    unfold normpath
    rw [if_neg hne]
    simp only [hk]
    rw [show (decide (1 ≠ 0)) = true from rfl, hw, List.reverse_reverse]
    rw [← joinSep_render]
    rfl

/-! ## Putting paths together -/

theorem ends_append {p : Text} (q : Text) (h : Ends p) : Ends (p ++ '/' :: q) := by
  rcases h with rfl | ⟨r, rfl⟩
  · exact Or.inr ⟨q, rfl⟩
  · exact Or.inr ⟨r ++ '/' :: q, rfl⟩

theorem walk_append {fs : Fs} {s : Loc} {h : Text} {d : Loc} (hw : Walk fs s h d) (hd : fs.isDir d = true) {q : Text} {l : Loc}
    (hq : Walk fs d q l) : Walk fs s (h ++ '/' :: q) l := by
  induction hw with
  | here d => exact .slash hd hq
  | slash h1 _ ih => exact .slash h1 (ih hd hq)
  | dot h1 he _ ih => exact .dot h1 (ends_append q he) (ih hd hq)
  | up h1 he _ ih => exact .up h1 (ends_append q he) (ih hd hq)
  | name n h1 h2 he _ ih =>
    rw [List.append_assoc]
    exact .name n h1 h2 (ends_append q he) (ih hd hq)

theorem ends_split {h q : Text} (he : Ends (h ++ '/' :: q)) : Ends h := by
  cases h with
  | nil => exact Or.inl rfl
  | cons c h =>
    rcases he with he | ⟨r, he⟩
    · cases he
    · simp only [List.cons_append, List.cons.injEq] at he
      exact Or.inr ⟨h, by rw [he.1]⟩

theorem walk_split {fs : Fs} {s : Loc} {p : Text} {l : Loc} (hw : Walk fs s p l) : ∀ h q, p = h ++ '/' :: q →
    ∃ d, Walk fs s h d ∧ fs.isDir d = true ∧ Walk fs d q l := by
  induction hw with
  | here d => intro h q he; simp at he
  | @slash d p l h1 hw ih =>
    intro h q he
    cases h with
    | nil =>
      simp only [List.nil_append, List.cons.injEq, true_and] at he
      exact ⟨d, .here d, h1, he ▸ hw⟩
    | cons c h =>
      simp only [List.cons_append, List.cons.injEq] at he
      obtain ⟨d', a, b, c'⟩ := ih h q he.2
      exact ⟨d', he.1 ▸ .slash h1 a, b, c'⟩
  | @dot d p l h1 hE _ ih =>
    intro h q he
    cases h with
    | nil => simp at he
    | cons c h =>
      simp only [List.cons_append, List.cons.injEq] at he
      obtain ⟨d', a, b, c'⟩ := ih h q he.2
      rw [he.2] at hE
      exact ⟨d', he.1 ▸ .dot h1 (ends_split hE) a, b, c'⟩
  | @up d p l h1 hE _ ih =>
    intro h q he
    match h with
    | [] => simp at he
    | [c] => simp at he
    | c :: c2 :: h =>
      simp only [List.cons_append, List.cons.injEq] at he
      obtain ⟨d', a, b, c'⟩ := ih h q he.2.2
      rw [he.2.2] at hE
      refine ⟨d', ?_, b, c'⟩
      rw [← he.1, ← he.2.1]
      exact .up h1 (ends_split hE) a
  | @name d p l n h1 h2 hE _ ih =>
    intro h q he
    rcases List.append_eq_append_iff.mp he with ⟨a, ha1, ha2⟩ | ⟨b, hb1, hb2⟩
    · obtain ⟨d', x, y, z⟩ := ih a q ha2
      rw [ha2] at hE
      exact ⟨d', ha1 ▸ .name n h1 h2 (ends_split hE) x, y, z⟩
    · cases b with
      | nil =>
        simp only [List.nil_append, List.append_nil] at hb1 hb2
        obtain ⟨d', x, y, z⟩ := ih [] q hb2.symm
        refine ⟨d', ?_, y, z⟩
        have := Walk.name (fs := fs) n h1 h2 (Or.inl rfl) x
        rwa [List.append_nil, hb1] at this
      | cons c b =>
        simp only [List.cons_append, List.cons.injEq] at hb2
        exact absurd (by rw [hb1, hb2.1]; simp) h2.2.1

theorem walk_nil {fs : Fs} {d : Loc} {p : Text} {l : Loc} (h : Walk fs d p l) : p = [] → l = d := by
  induction h with
  | here d => intro _; rfl
  | slash => intro h; cases h
  | dot => intro h; cases h
  | up => intro h; cases h
  | name n _ h2 => intro h; exact absurd (List.append_eq_nil_iff.mp h).1 h2.1

theorem walk_slashes {fs : Fs} {d : Loc} {q : Text} {l : Loc} (hd : fs.isDir d = true) (hw : Walk fs d q l) : ∀ k,
    Walk fs d (List.replicate k '/' ++ q) l
  | 0 => hw
  | k + 1 => .slash hd (walk_slashes hd hw k)

theorem walk_slashes_inv {fs : Fs} : ∀ (k : Nat) {d : Loc} {q : Text} {l : Loc}, Walk fs d (List.replicate k '/' ++ q) l → Walk fs d q l
  | 0, _, _, _, h => h
  | k + 1, d, q, l, h => by
    obtain ⟨d', a, _, c⟩ := walk_split h [] (List.replicate k '/' ++ q) rfl
    rw [walk_nil a rfl] at c
    exact walk_slashes_inv k c

/-- The usual way to write a place leads to it. -/
theorem walk_render {fs : Fs} (ht : Tree fs) (hn : NoLinks fs) : ∀ (k : Nat) (l : Loc), l.length = k → fs.isDir l = true →
    Walk fs [] (render l) l
  | 0, l, hk, hd => by
    rw [List.length_eq_zero_iff.mp hk]
    exact .slash ht.root (.here [])
  | k + 1, l, hk, hd => by
    obtain ⟨m, a, rfl⟩ : ∃ m a, l = m ++ [a] := by
      rcases List.eq_nil_or_concat l with hl | ⟨m, a, hl⟩
      · simp [hl] at hk
      · exact ⟨m, a, by simpa using hl⟩
    have hp := ht.parent m a hd
    have ih := walk_render ht hn k m (by simpa using hk) hp.1
    have hw : Walk fs m a (m ++ [a]) := by
      have := Walk.name (fs := fs) a hp.1 hp.2 (Or.inl rfl) (.here (fs.enter m a))
      rwa [List.append_nil, enter_plain hn] at this
    by_cases hm : m = []
    · subst hm
      have := Walk.slash (fs := fs) hp.1 hw
      simpa [render] using this
    · have := walk_append ih hp.1 hw
      simpa [render, hm] using this

theorem render_two (l : Loc) (hl : ∀ n ∈ l, Name n) (q : Text) : ¬ TwoSlashes (render l ++ '/' :: q) ∨ l = [] := by
  cases l with
  | nil => exact Or.inr rfl
  | cons n l =>
    left
    rintro ⟨r, h, _⟩
    have hn := hl n (by simp)
    cases n with
    | nil => exact hn.1 rfl
    | cons c n =>
      simp only [render, List.flatMap_cons, List.cons_append] at h
      simp at h
      exact hn.2.1 (by simp [h.1])

/-- The path that `abspath` gives for what the operating system finds. -/
theorem abspath_of_finds {fs : Fs} (ht : Tree fs) (hn : NoLinks fs) {cwd : Loc} (hc : fs.isDir cwd = true) {p : Text} {l : Loc}
    (h : Finds fs cwd p l) :
    (¬ TwoSlashes p → abspath (render cwd) p = render l) ∧ (TwoSlashes p → abspath (render cwd) p = '/' :: render l) := by
  obtain ⟨hp, hw⟩ := h
  by_cases hs : p.head? = some '/'
  · rw [if_pos hs] at hw
    unfold abspath
    rw [if_pos hs]
    exact normpath_of_walk ht hn hs hw
  · rw [if_neg hs] at hw
    have h2 : ¬ TwoSlashes p := by
      rintro ⟨r, rfl, _⟩; exact hs rfl
    refine ⟨fun _ => ?_, fun h => absurd h h2⟩
    unfold abspath
    rw [if_neg hs]
    unfold join
    rw [if_neg hs]
    by_cases hcwd : cwd = []
    · subst hcwd
      rw [if_pos (by right; rfl)]
      have hw' : Walk fs [] (render [] ++ p) l := .slash hc hw
      refine (normpath_of_walk ht hn rfl hw').1 ?_
      rintro ⟨r, h, _⟩
      simp only [render, if_true, List.cons_append, List.nil_append, List.cons.injEq, true_and] at h
      rw [h] at hs
      exact hs rfl
    · have hlast : ¬ (render cwd = [] ∨ (render cwd).getLast? = some '/') := by
        obtain ⟨m, a, rfl⟩ : ∃ m a, cwd = m ++ [a] := by
          rcases List.eq_nil_or_concat cwd with hl | ⟨m, a, hl⟩
          · exact absurd hl hcwd
          · exact ⟨m, a, by simpa using hl⟩
        have ha := (ht.parent m a hc).2
        have hr : render (m ++ [a]) = (m.flatMap fun n => '/' :: n) ++ '/' :: a := by simp [render]
        rw [hr]
        rintro (h | h)
        · simp at h
        · cases a with
          | nil => exact ha.1 rfl
          | cons c a =>
            rw [List.getLast?_append, List.getLast?_cons_cons] at h
            have h' : (c :: a).getLast? = some '/' := by
              rw [List.getLast?_cons] at h ⊢
              simpa using h
            exact ha.2.1 (List.mem_of_getLast? h')
      rw [if_neg hlast]
      have hr := walk_append (walk_render ht hn _ cwd rfl hc) hc hw
      have hh : (render cwd ++ '/' :: p).head? = some '/' := by
        cases cwd with
        | nil => exact absurd rfl hcwd
        | cons n l => simp [render]
      refine (normpath_of_walk ht hn hh hr).1 ?_
      rcases render_two cwd (dir_names ht cwd hc) p with h | h
      · exact h
      · exact absurd h hcwd

end Verif.Paths
