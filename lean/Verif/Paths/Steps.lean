import Verif.Paths.Lemmas

/-!
# Lemmas on the directory of a file, on normal forms, and on the files that a parse mentions
-/

namespace Verif.Paths

theorem dropWhile_no (n t : Text) (hn : '/' ∉ n) : (n ++ '/' :: t).dropWhile (· ≠ '/') = '/' :: t := by
  induction n with
  | nil => simp [List.dropWhile]
  | cons c n ih =>
    have hc : c ≠ '/' := by rintro rfl; exact hn (by simp)
    simp only [List.cons_append, List.dropWhile_cons]
    rw [if_pos (by simpa using hc)]
    exact ih (fun h => hn (List.mem_cons_of_mem _ h))

theorem dropWhile_none (n : Text) (hn : '/' ∉ n) : n.dropWhile (· ≠ '/') = [] := by
  induction n with
  | nil => rfl
  | cons c n ih =>
    have hc : c ≠ '/' := by rintro rfl; exact hn (by simp)
    simp only [List.dropWhile_cons]
    rw [if_pos (by simpa using hc)]
    exact ih (fun h => hn (List.mem_cons_of_mem _ h))

theorem dropWhile_rep (t : Text) (ht : t.head? ≠ some '/') : ∀ k, (List.replicate k '/' ++ t).dropWhile (· = '/') = t
  | 0 => by
    cases t with
    | nil => rfl
    | cons c t =>
      have : ¬ c = '/' := by simpa using ht
      simp [this]
  | k + 1 => by
    simp only [List.replicate_succ, List.cons_append, List.dropWhile_cons]
    simpa using dropWhile_rep t ht k

theorem slash_tail (h : Text) : ∃ h0 k, h = h0 ++ List.replicate k '/' ∧ h0.getLast? ≠ some '/' := by
  induction hl : h.length generalizing h with
  | zero => exact ⟨[], 0, by simp [List.length_eq_zero_iff.mp hl], by simp⟩
  | succ m ih =>
    rcases List.eq_nil_or_concat h with hc | ⟨g, a, hc⟩
    · simp [hc] at hl
    · have hc : h = g ++ [a] := by simpa using hc
      subst hc
      by_cases ha : a = '/'
      · obtain ⟨h0, k, e, hh⟩ := ih g (by simpa using hl)
        refine ⟨h0, k + 1, ?_, hh⟩
        rw [e, ha, List.append_assoc, List.replicate_succ', ]
      · exact ⟨g ++ [a], 0, by simp, by simpa using ha⟩

theorem last_slash (f : Text) : '/' ∉ f ∨ ∃ h n, f = h ++ '/' :: n ∧ '/' ∉ n := by
  induction f with
  | nil => left; simp
  | cons c f ih =>
    rcases ih with h | ⟨h, n, rfl, hn⟩
    · by_cases hc : c = '/'
      · exact Or.inr ⟨[], f, by simp [hc], h⟩
      · left
        intro hm
        rcases List.mem_cons.mp hm with hm | hm
        · exact hc hm.symm
        · exact h hm
    · exact Or.inr ⟨c :: h, n, rfl, hn⟩

theorem dirname_plain (f : Text) (h : '/' ∉ f) : dirname f = [] := by
  unfold dirname
  rw [dropWhile_none f.reverse (by simpa using h)]
  rfl

theorem dirname_head (h n : Text) (hn : '/' ∉ n) :
    ((h ++ '/' :: n).reverse.dropWhile (· ≠ '/')).reverse = h ++ ['/'] := by
  have : (h ++ '/' :: n).reverse = n.reverse ++ '/' :: h.reverse := by simp
  rw [this, dropWhile_no _ _ (by simpa using hn)]
  simp

theorem dirname_root (k : Nat) (n : Text) (hn : '/' ∉ n) : dirname (List.replicate k '/' ++ '/' :: n) = List.replicate (k + 1) '/' := by
  unfold dirname
  rw [dirname_head _ n hn]
  rw [if_pos (by simp), List.replicate_succ']

theorem dirname_other (h0 : Text) (k : Nat) (n : Text) (hn : '/' ∉ n) (h1 : h0 ≠ []) (h2 : h0.getLast? ≠ some '/') :
    dirname (h0 ++ List.replicate k '/' ++ '/' :: n) = h0 := by
  unfold dirname
  rw [dirname_head _ n hn]
  have hna : ¬ (h0 ++ List.replicate k '/' ++ ['/']).all (· = '/') = true := by
    intro hall
    obtain ⟨g, a, rfl⟩ : ∃ g a, h0 = g ++ [a] := by
      rcases List.eq_nil_or_concat h0 with hl | ⟨g, a, hl⟩
      · exact absurd hl h1
      · exact ⟨g, a, by simpa using hl⟩
    have ha : a = '/' := by
      have := List.all_eq_true.mp hall a (by simp)
      simpa using this
    exact h2 (by simp [ha])
  rw [if_neg hna]
  have : (h0 ++ List.replicate k '/' ++ ['/']).reverse = List.replicate (k + 1) '/' ++ h0.reverse := by
    simp [List.replicate_succ]
  rw [this, dropWhile_rep _ (by simpa using h2)]
  simp

/-- A last component that leads to something that is no directory is a name. -/
theorem walk_single {fs : Fs} (ht : Tree fs) (hl : NoLinks fs) {d : Loc} {n : Text} {l : Loc} (hd : fs.isDir d = true) (hn : '/' ∉ n)
    (hf : fs.isDir l = false) (h : Walk fs d n l) : Name n ∧ l = d ++ [n] := by
  cases h with
  | here => rw [hd] at hf; cases hf
  | slash => exact absurd (by simp) hn
  | @dot p _ _ _ he hw =>
    rcases he with rfl | ⟨r, rfl⟩
    · rw [walk_nil hw rfl, hd] at hf; cases hf
    · exact absurd (by simp) hn
  | @up p _ _ _ he hw =>
    rcases he with rfl | ⟨r, rfl⟩
    · rw [walk_nil hw rfl, dir_dropLast ht d hd] at hf; cases hf
    · exact absurd (by simp) hn
  | @name p _ _ m _ hm he hw =>
    rcases he with rfl | ⟨r, rfl⟩
    · rw [walk_nil hw rfl, enter_plain hl, List.append_nil]
      exact ⟨hm, rfl⟩
    · exact absurd (by simp) hn

theorem two_same (h0 x y : Text) (h1 : h0 ≠ []) (h2 : h0.getLast? ≠ some '/') (h : TwoSlashes (h0 ++ '/' :: x)) :
    TwoSlashes (h0 ++ '/' :: y) := by
  obtain ⟨r, hr, hh⟩ := h
  match h0, h1, h2 with
  | [a], _, h2 =>
    simp only [List.cons_append, List.cons.injEq] at hr
    exact absurd (by simp [hr.1]) h2
  | [a, b], _, h2 =>
    simp only [List.cons_append, List.cons.injEq] at hr
    exact absurd (by simp [hr.2.1]) h2
  | a :: b :: c :: t, _, _ =>
    simp only [List.cons_append, List.cons.injEq] at hr
    refine ⟨c :: t ++ '/' :: y, by simp [hr.1, hr.2.1], ?_⟩
    rw [← hr.2.2] at hh
    simpa using hh

/-- What is found in the directory of a file is found through the path that the code builds. -/
theorem join_dirname {fs : Fs} (ht : Tree fs) (hl : NoLinks fs) {cwd : Loc} (hc : fs.isDir cwd = true) {f : Text} {lf : Loc}
    (hf : Finds fs cwd f lf) (hfile : fs.isDir lf = false) (h2 : ¬ TwoSlashes f) :
    ∃ d n, lf = d ++ [n] ∧ fs.isDir d = true ∧ ∀ c l, c ≠ [] → c.head? ≠ some '/' → Walk fs d c l →
      Finds fs cwd (join (dirname f) c) l ∧ ¬ TwoSlashes (join (dirname f) c) := by
  obtain ⟨hne, hw⟩ := hf
  rcases last_slash f with hs | ⟨h, n, rfl, hn⟩
  · have hh : f.head? ≠ some '/' := fun h => hs (List.mem_of_head? h)
    rw [if_neg hh] at hw
    obtain ⟨_, he⟩ := walk_single ht hl hc hs hfile hw
    refine ⟨cwd, f, he, hc, ?_⟩
    intro c l hc0 hcs hcw
    rw [dirname_plain f hs]
    have : join [] c = c := by simp [join, hcs]
    rw [this]
    refine ⟨⟨hc0, by rw [if_neg hcs]; exact hcw⟩, ?_⟩
    rintro ⟨r, rfl, _⟩
    exact hcs rfl
  · have hstart : fs.isDir (if (h ++ '/' :: n).head? = some '/' then [] else cwd) = true := by
      split_ifs
      · exact ht.root
      · exact hc
    obtain ⟨d, w1, hd, w2⟩ := walk_split hw h n rfl
    obtain ⟨_, he⟩ := walk_single ht hl hd hn hfile w2
    refine ⟨d, n, he, hd, ?_⟩
    intro c l hc0 hcs hcw
    obtain ⟨h0, k, rfl, h0l⟩ := slash_tail h
    by_cases h00 : h0 = []
    · subst h00
      simp only [List.nil_append] at *
      rw [dirname_root k n hn]
      have hj : join (List.replicate (k + 1) '/') c = List.replicate (k + 1) '/' ++ c := by
        unfold join
        rw [if_neg hcs, if_pos (by right; rw [List.replicate_succ']; simp)]
      rw [hj]
      have hsh : (List.replicate k '/' ++ '/' :: n).head? = some '/' := by cases k <;> simp [List.replicate_succ]
      rw [if_pos (by simpa using hsh)] at w1
      have hd' : d = [] := by
        have : Walk fs [] (List.replicate k '/' ++ []) d := by simpa using w1
        exact walk_nil (walk_slashes_inv k this) rfl
      subst hd'
      refine ⟨⟨by simp [List.replicate_succ], ?_⟩, ?_⟩
      · rw [if_pos (by simp [List.replicate_succ])]
        exact walk_slashes ht.root hcw (k + 1)
      · rintro ⟨r, hr, hrh⟩
        match k with
        | 0 =>
          simp only [List.replicate_succ, List.replicate_zero, List.cons_append, List.nil_append, List.cons.injEq, true_and] at hr
          exact hcs (by simp [hr])
        | 1 =>
          refine h2 ⟨n, by simp [List.replicate_succ], ?_⟩
          intro hh
          exact hn (List.mem_of_head? hh)
        | k + 2 =>
          simp only [List.replicate_succ, List.cons_append, List.cons.injEq, true_and] at hr
          exact hrh (by simp [← hr])
    · rw [dirname_other h0 k n hn h00 h0l]
      have hj : join h0 c = h0 ++ '/' :: c := by
        unfold join
        rw [if_neg hcs, if_neg (by simp [h00, h0l])]
      rw [hj]
      have hhead : ∀ x : Text, (h0 ++ x).head? = h0.head? := by
        intro x
        cases h0 with
        | nil => exact absurd rfl h00
        | cons a t => rfl
      rw [List.append_assoc, hhead] at w1
      have w0 : Walk fs (if h0.head? = some '/' then [] else cwd) h0 d := by
        cases k with
        | zero => simpa using w1
        | succ k =>
          obtain ⟨d0, a, _, b⟩ := walk_split w1 h0 (List.replicate k '/') (by simp [List.replicate_succ])
          have : Walk fs d0 (List.replicate k '/' ++ []) d := by simpa using b
          rw [walk_nil (walk_slashes_inv k this) rfl]
          exact a
      refine ⟨⟨by simp, ?_⟩, ?_⟩
      · rw [hhead]
        exact walk_append w0 hd hcw
      · intro hts
        have := two_same h0 c (List.replicate k '/' ++ n) h00 h0l hts
        apply h2
        have e : h0 ++ List.replicate k '/' ++ '/' :: n = h0 ++ '/' :: (List.replicate k '/' ++ n) := by
          rw [List.append_assoc]
          congr 1
          rw [← List.cons_append, ← List.replicate_succ, List.replicate_succ', List.append_assoc]
          rfl
        rw [e]
        exact this

/-! ## Normal forms -/

theorem split_noslash : ∀ (p : Text), ∀ w ∈ split p, '/' ∉ w
  | [], w, h => by simp [split] at h; simp [h]
  | c :: s, w, h => by
    unfold split at h
    have ih := split_noslash s
    split_ifs at h with hc
    · rcases List.mem_cons.mp h with rfl | h
      · simp
      · exact ih w h
    · split at h
      · simp at h
        rw [h]
        simp only [List.mem_singleton]
        exact fun h => hc h.symm
      · rename_i v ws hv
        rcases List.mem_cons.mp h with rfl | h
        · intro hm
          rcases List.mem_cons.mp hm with hm | hm
          · exact hc hm.symm
          · exact ih v (by rw [hv]; simp) hm
        · exact ih w (by rw [hv]; simp [h])

theorem normLoop_names : ∀ (comps st : List Text), (∀ w ∈ comps, '/' ∉ w) → (∀ n ∈ st, Name n) →
    ∀ n ∈ normLoop true st comps, Name n
  | [], st, _, h => h
  | comp :: comps, st, hc, h => by
    rw [normLoop_cons]
    have hc' : ∀ w ∈ comps, '/' ∉ w := fun w hw => hc w (List.mem_cons_of_mem _ hw)
    split_ifs with h1 h2
    · exact normLoop_names comps st hc' h
    · refine normLoop_names comps (comp :: st) hc' ?_
      intro n hn
      rcases List.mem_cons.mp hn with rfl | hn
      · have h2' : n ≠ ['.', '.'] := by
          rcases h2 with h2 | h2 | h2
          · exact h2
          · cases h2.1
          · exact absurd rfl (h _ (List.mem_of_head? h2)).2.2.2
        exact ⟨fun e => h1 (Or.inl e), hc n (by simp), fun e => h1 (Or.inr e), h2'⟩
      · exact h n hn
    · exact normLoop_names comps st.tail hc' (fun n hn => h n (List.mem_of_mem_tail hn))

theorem abspath_form (cwd p : Text) (hc : cwd.head? = some '/') :
    ∃ ms : Loc, (∀ n ∈ ms, Name n) ∧ (abspath cwd p = render ms ∨ abspath cwd p = '/' :: render ms) := by
  have key : ∀ t : Text, t.head? = some '/' →
      ∃ ms : Loc, (∀ n ∈ ms, Name n) ∧ (normpath t = render ms ∨ normpath t = '/' :: render ms) := by
    intro t ht
    have hne : t ≠ [] := by rintro rfl; cases ht
    refine ⟨(normLoop true [] (split t)).reverse, ?_, ?_⟩
    · intro n hn
      exact normLoop_names (split t) [] (split_noslash t) (by simp) n (by simpa using hn)
    · rcases initial_cases t ht with ⟨_, hk⟩ | ⟨_, hk⟩
      · right
        unfold normpath
        rw [if_neg hne]
        simp only [hk]
        rw [show (decide (2 ≠ 0)) = true from rfl, ← joinSep_render]
        rfl
      · left
        unfold normpath
        rw [if_neg hne]
        simp only [hk]
        rw [show (decide (1 ≠ 0)) = true from rfl, ← joinSep_render]
        rfl
  unfold abspath
  split_ifs with h
  · exact key p h
  · apply key
    unfold join
    rw [if_neg h]
    cases cwd with
    | nil => cases hc
    | cons a t =>
      have ha : a = '/' := by simpa using hc
      by_cases hx : a :: t = [] ∨ (a :: t).getLast? = some '/'
      · rw [if_pos hx]; simp [ha]
      · rw [if_neg hx]; simp [ha]

/-- The place that a normal form leads to is the one that it spells. -/
theorem finds_render {fs : Fs} (ht : Tree fs) (hl : NoLinks fs) {cwd : Loc} (hc : fs.isDir cwd = true) {ms : Loc} (hm : ∀ n ∈ ms, Name n) {l : Loc}
    (h : Finds fs cwd (render ms) l) : l = ms := by
  have hh : (render ms).head? = some '/' := by
    cases ms with
    | nil => rfl
    | cons n t => simp [render]
  obtain ⟨_, hw⟩ := h
  rw [if_pos hh] at hw
  have h1 := (walk_norm ht hl hw (by simp)).1
  have hs : ∀ (ns : Loc) (st : List Text), (∀ n ∈ ns, Name n) → (∀ n ∈ st, Name n) →
      normLoop true st (split (ns.flatMap fun n => '/' :: n)) = ns.reverse ++ st := by
    intro ns
    induction ns with
    | nil => intro st _ _; simp [split, normLoop]
    | cons n ns ih =>
      intro st hn hst
      have hn1 := hn n (by simp)
      have he : Ends (ns.flatMap fun n => '/' :: n) := by
        cases ns with
        | nil => exact Or.inl rfl
        | cons m ns => exact Or.inr ⟨m ++ ns.flatMap (fun n => '/' :: n), by simp⟩
      obtain ⟨t, ht'⟩ := split_ends he
      have hsp := split_app n _ t hn1.2.1 ht'
      have : split ((n :: ns).flatMap fun n => '/' :: n) = [] :: n :: t := by
        simp only [List.flatMap_cons, List.cons_append]
        rw [← hsp]
        simp [split]
      rw [this, normLoop_skip, normLoop_cons, if_neg (by simpa using ⟨hn1.1, hn1.2.2.1⟩), if_pos (Or.inl hn1.2.2.2)]
      have := ih (n :: st) (fun m hm => hn m (List.mem_cons_of_mem _ hm)) (by
        intro m hm
        rcases List.mem_cons.mp hm with rfl | hm
        · exact hn1
        · exact hst m hm)
      rw [ht', normLoop_skip] at this
      rw [this]
      simp
  cases ms with
  | nil =>
    simp [render, split, normLoop] at h1
    exact h1.symm ▸ rfl
  | cons n t =>
    have h2 := hs (n :: t) [] hm (by simp)
    simp only [render, List.reverse_nil] at h1
    rw [if_neg (by simp)] at h1
    rw [h1] at h2
    have := congrArg List.reverse h2
    simpa using this

/-! ## The files that a parse mentions -/

theorem loop_tags {σ : Type} (env : Imports.Env σ) (P : Option Imports.Path → Prop) (h1 : ∀ f c, P (some (env.absFrom f c)))
    (h2 : ∀ d c, P (some (env.absIn d c))) : ∀ (n : Nat) (s : Imports.St σ) (out : List (Option Imports.Path × σ)) (seen : List Imports.Path),
    (∀ x ∈ s.queue, P x.1) → (∀ x ∈ s.final, P x.1) → Imports.loop env n s = some (.ok (out, seen)) → ∀ x ∈ out, P x.1
  | 0, _, _, _, _, _, h => by simp [Imports.loop] at h
  | n + 1, s, out, seen, hq, hf, h => by
    have ih := loop_tags env P h1 h2 n
    unfold Imports.loop at h
    split at h
    · simp only [Option.some.injEq, Except.ok.injEq, Prod.mk.injEq] at h
      rw [← h.1]; exact hf
    · rename_i file item rest hqe
      have hrest : ∀ x ∈ rest, P x.1 := fun x hx => hq x (by rw [hqe]; exact List.mem_cons_of_mem _ hx)
      have hfile : P file := hq (file, item) (by rw [hqe]; simp)
      have hang : ∀ c ds t, Imports.angleTarget env c ds = some t → P (some t) := by
        intro c ds
        induction ds with
        | nil => intro t ht; simp [Imports.angleTarget] at ht
        | cons d ds ihd =>
          intro t ht
          unfold Imports.angleTarget at ht
          simp only at ht
          split_ifs at ht
          · simp only [Option.some.injEq] at ht
            rw [← ht]; exact h2 d c
          · exact ihd t ht
      have himp : ∀ c tgt s', (∀ t, tgt = some t → P (some t)) → Imports.doImport env c tgt rest s = .ok s' →
          (∀ x ∈ s'.queue, P x.1) ∧ (∀ x ∈ s'.final, P x.1) := by
        intro c tgt s' ht hs
        unfold Imports.doImport at hs
        split at hs
        · cases hs
        · rename_i t
          split_ifs at hs
          · simp only [Except.ok.injEq] at hs
            rw [← hs]; exact ⟨hrest, hf⟩
          · split at hs
            · cases hs
            · simp only [Except.ok.injEq] at hs
              rw [← hs]
              refine ⟨?_, hf⟩
              intro x hx
              rcases List.mem_append.mp hx with hx | hx
              · obtain ⟨i, _, rfl⟩ := List.mem_map.mp hx
                exact ht t rfl
              · exact hrest x hx
      split at h
      · simp at h
      · rename_i s' hb
        have : (∀ x ∈ s'.queue, P x.1) ∧ (∀ x ∈ s'.final, P x.1) := by
          unfold Imports.body at hb
          split at hb
          · simp only [Except.ok.injEq] at hb
            rw [← hb]; exact ⟨hrest, hf⟩
          · refine himp _ _ s' ?_ hb
            intro t ht
            unfold Imports.quotedTarget at ht
            simp only at ht
            split_ifs at ht
            simp only [Option.some.injEq] at ht
            rw [← ht]; exact h1 _ _
          · exact himp _ _ s' (hang _ _) hb
          · simp only [Except.ok.injEq] at hb
            rw [← hb]
            refine ⟨hrest, ?_⟩
            intro x hx
            rcases List.mem_append.mp hx with hx | hx
            · exact hf x hx
            · simp at hx; rw [hx]; exact hfile
        exact ih s' out seen this.1 this.2 h

end Verif.Paths
