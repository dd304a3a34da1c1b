import Verif.Imports.Spec

namespace Verif.Imports
open Spec

variable {σ : Type}

theorem loop_mono {env : Env σ} {n : Nat} {s : St σ} {r}
    (h : loop env n s = some r) : ∀ k, loop env (n + k) s = some r := by
  induction n generalizing s with
  | zero => simp [loop] at h
  | succ n ih =>
    intro k
    rw [Nat.add_right_comm]
    unfold loop at h ⊢
    split at h
    · simpa using h
    · split at h
      · exact h
      · exact ih h k

theorem loop_det {env : Env σ} {n m : Nat} {s : St σ} {r r'}
    (h : loop env n s = some r) (h' : loop env m s = some r') : r = r' := by
  have a := loop_mono h m
  have b := loop_mono h' n
  rw [Nat.add_comm] at b
  rw [a] at b
  exact Option.some.inj b

theorem angleTarget_some {env : Env σ} {c : String} {l : List Path} {t : Path} :
    angleTarget env c l = some t ↔
      ∃ before dir after, l = before ++ dir :: after ∧
        (∀ d ∈ before, env.exists_ (env.absIn d c) = false) ∧
        env.exists_ (env.absIn dir c) = true ∧ t = env.absIn dir c := by
  induction l with
  | nil => simp [angleTarget]
  | cons p l ih =>
    unfold angleTarget
    by_cases hp : env.exists_ (env.absIn p c) = true
    · simp only [hp, if_true]
      constructor
      · intro h
        exact ⟨[], p, l, rfl, by simp, hp, (Option.some.inj h).symm⟩
      · rintro ⟨before, dir, after, he, hb, hd, ht⟩
        cases before with
        | nil => simp only [List.nil_append, List.cons.injEq] at he; rw [ht, he.1]
        | cons b bs =>
          simp only [List.cons_append, List.cons.injEq] at he
          have := hb b (by simp)
          rw [← he.1, hp] at this; cases this
    · simp only [hp]
      rw [if_neg (by simp), ih]
      constructor
      · rintro ⟨before, dir, after, he, hb, hd, ht⟩
        refine ⟨p :: before, dir, after, by simp [he], ?_, hd, ht⟩
        intro d hdm
        rcases List.mem_cons.mp hdm with rfl | h
        · simpa using hp
        · exact hb d h
      · rintro ⟨before, dir, after, he, hb, hd, ht⟩
        cases before with
        | nil =>
          simp only [List.nil_append, List.cons.injEq] at he
          rw [he.1] at hp; exact absurd hd hp
        | cons b bs =>
          simp only [List.cons_append, List.cons.injEq] at he
          exact ⟨bs, dir, after, he.2, fun d h => hb d (by simp [h]), hd, ht⟩

/-- The target the code computes for an item (if it is an import). -/
def target (env : Env σ) (file : Option Path) : Item σ → Option Path
  | .quoted lits => quotedTarget env file (String.join (lits.map strip))
  | .angle lit => angleTarget env (strip lit) env.importpath
  | _ => none

theorem names_iff {env : Env σ} {file : Option Path} {i : Item σ} {t : Path} :
    Names env file i t ↔ target env file i = some t := by
  constructor
  · intro h
    cases h with
    | quoted lits c hc he =>
      simp only [content, Option.some.injEq] at hc
      subst hc
      simp only [target, quotedTarget]
      exact if_pos he
    | angle lit c before after dir hc hp hb hd =>
      simp only [content, Option.some.injEq] at hc
      subst hc
      exact angleTarget_some.mpr ⟨before, dir, after, hp, hb, hd, rfl⟩
  · intro h
    cases i with
    | empty => simp [target] at h
    | stmt s => simp [target] at h
    | quoted lits =>
      simp only [target, quotedTarget] at h
      split at h
      · rename_i he
        rw [← Option.some.inj h]
        exact .quoted lits _ rfl he
      · cases h
    | angle lit =>
      obtain ⟨before, dir, after, hp, hb, hd, rfl⟩ := angleTarget_some.mp h
      exact .angle lit _ before after dir rfl hp hb hd

theorem names_content {env : Env σ} {file : Option Path} {i : Item σ} {t : Path}
    (h : Names env file i t) : ∃ c, content i = some c := by
  cases h with
  | quoted _ c hc _ => exact ⟨c, hc⟩
  | angle _ c _ _ _ hc _ _ _ => exact ⟨c, hc⟩

theorem body_import {env : Env σ} {file : Option Path} {i : Item σ} {c : String}
    (hc : content i = some c) (rest s) :
    body env file i rest s = doImport env c (target env file i) rest s := by
  cases i with
  | empty => simp [content] at hc
  | stmt => simp [content] at hc
  | quoted lits =>
    simp only [content, Option.some.injEq] at hc
    subst hc; rfl
  | angle lit =>
    simp only [content, Option.some.injEq] at hc
    subst hc; rfl

theorem loop_cons {env : Env σ} {n : Nat} {file item rest seen final} {s' : St σ} {r}
    (hb : body env file item rest ⟨(file, item) :: rest, seen, final⟩ = .ok s')
    (h : loop env n s' = some r) :
    loop env (n + 1) ⟨(file, item) :: rest, seen, final⟩ = some r := by
  simp only [loop, hb, h]

theorem loop_cons_err {env : Env σ} {file item rest seen final} {e}
    (hb : body env file item rest ⟨(file, item) :: rest, seen, final⟩ = .error e) :
    loop env 1 ⟨(file, item) :: rest, seen, final⟩ = some (.error e) := by
  simp only [loop, hb]

theorem expands_loop {env : Env σ} {file : Option Path} {seen : List Path} {is : List (Item σ)}
    {r : Res σ} (h : Expands env file seen is r) :
    ∀ (rest : List (Option Path × Item σ)) (final : List (Option Path × σ)),
    match r with
    | .ok (out, seen') => ∀ n res, loop env n ⟨rest, seen', final ++ out⟩ = some res →
        ∃ m, loop env m ⟨is.map (fun i => (file, i)) ++ rest, seen, final⟩ = some res
    | .error e => ∃ m, loop env m ⟨is.map (fun i => (file, i)) ++ rest, seen, final⟩ =
        some (.error e) := by
  induction h with
  | nil => intro rest final n res h; exact ⟨n, by simpa using h⟩
  | @empty _ _ _ r _ ih =>
    intro rest final
    cases r with
    | ok p =>
      intro n res h
      obtain ⟨m, hm⟩ := ih rest final n res h
      exact ⟨m + 1, loop_cons rfl hm⟩
    | error e =>
      obtain ⟨m, hm⟩ := ih rest final
      exact ⟨m + 1, loop_cons rfl hm⟩
  | @stmt file _ _ out _ s _ ih =>
    intro rest final n res h
    obtain ⟨m, hm⟩ := ih rest (final ++ [(file, s)]) n res (by simpa using h)
    exact ⟨m + 1, loop_cons rfl hm⟩
  | @stmtErr file _ _ _ s _ ih =>
    intro rest final
    obtain ⟨m, hm⟩ := ih rest (final ++ [(file, s)])
    exact ⟨m + 1, loop_cons rfl hm⟩
  | @missing i c file seen is hc hn =>
    intro rest final
    have ht : target env file i = none := by
      cases htt : target env file i with
      | none => rfl
      | some t => exact absurd (names_iff.mpr htt) (hn t)
    exact ⟨1, loop_cons_err (by rw [body_import hc, ht]; rfl)⟩
  | @again file i t seen is r hn hr _ ih =>
    intro rest final
    obtain ⟨c, hc⟩ := names_content hn
    have hb : ∀ (l : List (Option Path × Item σ)),
        body env file i l ⟨(file, i) :: l, seen, final⟩ = .ok ⟨l, seen, final⟩ := by
      intro l
      rw [body_import hc, names_iff.mp hn]; simp [doImport, hr]
    cases r with
    | ok p =>
      intro n res h
      obtain ⟨m, hm⟩ := ih rest final n res h
      exact ⟨m + 1, loop_cons (hb _) hm⟩
    | error e =>
      obtain ⟨m, hm⟩ := ih rest final
      exact ⟨m + 1, loop_cons (hb _) hm⟩
  | @unreadable file i t seen is hn hr hp =>
    intro rest final
    obtain ⟨c, hc⟩ := names_content hn
    exact ⟨1, loop_cons_err (by rw [body_import hc, names_iff.mp hn]; simp [doImport, hr, hp])⟩
  | @first file i t seen js r out₁ seen₁ is out₂ seen₂ hn hr hp _ _ ih₁ ih₂ =>
    intro rest final n res h
    obtain ⟨c, hc⟩ := names_content hn
    obtain ⟨m, hm⟩ := ih₂ rest (final ++ out₁) n res (by simpa using h)
    obtain ⟨k, hk⟩ := ih₁ _ final m res hm
    exact ⟨k + 1, loop_cons (by rw [body_import hc, names_iff.mp hn]; simp [doImport, hr, hp]) hk⟩
  | @firstErrIn file i t seen js r e is hn hr hp _ ih₁ =>
    intro rest final
    obtain ⟨c, hc⟩ := names_content hn
    obtain ⟨k, hk⟩ := ih₁ (is.map (fun i => (file, i)) ++ rest) final
    exact ⟨k + 1, loop_cons (by rw [body_import hc, names_iff.mp hn]; simp [doImport, hr, hp]) hk⟩
  | @firstErrAfter file i t seen js r out₁ seen₁ is e hn hr hp _ _ ih₁ ih₂ =>
    intro rest final
    obtain ⟨c, hc⟩ := names_content hn
    obtain ⟨m, hm⟩ := ih₂ rest (final ++ out₁)
    obtain ⟨k, hk⟩ := ih₁ _ final m _ hm
    exact ⟨k + 1, loop_cons (by rw [body_import hc, names_iff.mp hn]; simp [doImport, hr, hp]) hk⟩

theorem expands_resolve {env : Env σ} {file : Option Path} {seen : List Path} {is : List (Item σ)}
    {r : Res σ} (h : Expands env file seen is r) : ∃ n, resolve env n file is seen = some r := by
  have := expands_loop h [] []
  cases r with
  | ok p =>
    obtain ⟨m, hm⟩ := this 1 (.ok p) (by simp [loop])
    exact ⟨m, by simpa [resolve] using hm⟩
  | error e =>
    obtain ⟨m, hm⟩ := this
    exact ⟨m, by simpa [resolve] using hm⟩

/-- Reading only adds files. -/
theorem expands_subset {env : Env σ} {file : Option Path} {seen : List Path} {is : List (Item σ)}
    {r : Res σ} (h : Expands env file seen is r) :
    ∀ out seen', r = .ok (out, seen') → ∀ p ∈ seen, p ∈ seen' := by
  induction h with
  | nil => intro out seen' h; cases h; exact fun _ h => h
  | empty _ ih => exact ih
  | stmt _ ih => intro out seen' h; cases h; exact ih _ _ rfl
  | stmtErr => intro out seen' h; cases h
  | missing => intro out seen' h; cases h
  | again _ _ _ ih => exact ih
  | unreadable => intro out seen' h; cases h
  | first _ _ _ _ _ ih₁ ih₂ =>
    intro out seen' h; cases h
    intro p hp
    exact ih₂ _ _ rfl p (ih₁ _ _ rfl p (by simp [hp]))
  | firstErrIn => intro out seen' h; cases h
  | firstErrAfter => intro out seen' h; cases h

/-- Number of entries of `files` not seen yet. -/
def unread (files seen : List Path) : Nat := (files.filter (fun p => !decide (p ∈ seen))).length

theorem unread_le {files seen seen' : List Path} (h : ∀ p ∈ seen, p ∈ seen') :
    unread files seen' ≤ unread files seen := by
  unfold unread
  induction files with
  | nil => simp
  | cons f fs ih =>
    by_cases h1 : f ∈ seen
    · simpa [h1, h f h1] using ih
    · by_cases h2 : f ∈ seen'
      · simp [h1, h2]; omega
      · simp [h1, h2]; omega

theorem unread_lt {files seen seen' : List Path} (h : ∀ p ∈ seen, p ∈ seen') {t : Path}
    (ht : t ∈ files) (hr : t ∉ seen) (hr' : t ∈ seen') :
    unread files seen' < unread files seen := by
  induction files with
  | nil => cases ht
  | cons f fs ih =>
    have hle := unread_le (files := fs) h
    unfold unread at *
    rcases List.mem_cons.mp ht with rfl | hm
    · simp [hr, hr']; omega
    · have := ih hm
      by_cases h1 : f ∈ seen
      · simpa [h1, h f h1] using this
      · by_cases h2 : f ∈ seen'
        · simp [h1, h2]; omega
        · simp [h1, h2]; omega

theorem expands_total {env : Env σ} {files : List Path}
    (hfin : ∀ p, env.exists_ p = true → p ∈ files) :
    ∀ (k : Nat) (seen : List Path), unread files seen ≤ k →
    ∀ (is : List (Item σ)) (file : Option Path), ∃ r, Expands env file seen is r := by
  intro k
  induction k using Nat.strongRecOn with
  | ind k ihk =>
    intro seen hk is
    induction is generalizing seen with
    | nil => intro file; exact ⟨_, .nil⟩
    | cons i is ihs =>
      intro file
      cases hc : content i with
      | none =>
        cases i with
        | empty => obtain ⟨r, hr⟩ := ihs seen hk file; exact ⟨r, .empty hr⟩
        | stmt s =>
          obtain ⟨r, hr⟩ := ihs seen hk file
          cases r with
          | ok p => exact ⟨_, .stmt hr⟩
          | error e => exact ⟨_, .stmtErr hr⟩
        | quoted _ => simp [content] at hc
        | angle _ => simp [content] at hc
      | some c =>
        cases ht : target env file i with
        | none =>
          exact ⟨_, .missing hc (fun t hn => by rw [names_iff.mp hn] at ht; cases ht)⟩
        | some t =>
          have hn := names_iff.mpr ht
          have hex : env.exists_ t = true := by
            cases hn with
            | quoted _ _ _ h => exact h
            | angle _ _ _ _ _ _ _ _ h => exact h
          by_cases hr : t ∈ seen
          · obtain ⟨r, hr'⟩ := ihs seen hk file
            exact ⟨r, .again hn hr hr'⟩
          · cases hp : env.parse1 t with
            | none => exact ⟨_, .unreadable hn hr hp⟩
            | some p =>
              obtain ⟨js, rr⟩ := p
              have hlt : unread files (t :: (rr ++ seen)) < unread files seen :=
                unread_lt (fun p hp => by simp [hp]) (hfin t hex) hr (by simp)
              obtain ⟨r₁, h₁⟩ := ihk _ (Nat.lt_of_lt_of_le hlt hk) _ (Nat.le_refl _) js (some t)
              cases r₁ with
              | error e => exact ⟨_, .firstErrIn hn hr hp h₁⟩
              | ok p₁ =>
                obtain ⟨out₁, seen₁⟩ := p₁
                have hle : unread files seen₁ ≤ k :=
                  Nat.le_trans (unread_le (fun p hp' =>
                    expands_subset h₁ _ _ rfl p (by simp [hp']))) hk
                obtain ⟨r₂, h₂⟩ := ihs seen₁ hle file
                cases r₂ with
                | ok p₂ => exact ⟨_, .first hn hr hp h₁ h₂⟩
                | error e => exact ⟨_, .firstErrAfter hn hr hp h₁ h₂⟩

theorem stmtsFrom_append (f : Option Path) (a b : List (Option Path × σ)) :
    stmtsFrom f (a ++ b) = stmtsFrom f a ++ stmtsFrom f b := by
  simp [stmtsFrom]

/-- Which statements of which file end up in the expansion. -/
theorem expands_from {env : Env σ} {file : Option Path} {seen : List Path} {is : List (Item σ)}
    {r : Res σ} (h : Expands env file seen is r) :
    ∀ out seen', r = .ok (out, seen') → (∀ f, file = some f → f ∈ seen) →
      stmtsFrom file out = ownStmts is ∧
      (file ≠ none → stmtsFrom none out = []) ∧
      (∀ f, some f ≠ file → f ∈ seen → stmtsFrom (some f) out = []) ∧
      (∀ f, f ∉ seen → stmtsFrom (some f) out = [] ∨
        ∃ js rr, env.parse1 f = some (js, rr) ∧ f ∈ seen' ∧ stmtsFrom (some f) out = ownStmts js) := by
  induction h with
  | nil => intro out seen' h _; cases h; simp [stmtsFrom, ownStmts]
  | empty _ ih =>
    intro out seen' h hf
    simpa [ownStmts] using ih out seen' h hf
  | @stmt file seen is out seen' s _ ih =>
    intro out' seen'' h hf
    cases h
    obtain ⟨a, a', b, c⟩ := ih out seen' rfl hf
    refine ⟨?_, ?_, ?_, ?_⟩
    · simpa [stmtsFrom, ownStmts] using a
    · intro hne; simpa [stmtsFrom, hne] using a' hne
    · intro f hne hm
      have hne' : ¬ file = some f := fun h => hne h.symm
      simpa [stmtsFrom, hne'] using b f hne hm
    · intro f hm
      have hne' : ¬ file = some f := fun h => hm (hf f h)
      simpa [stmtsFrom, hne'] using c f hm
  | stmtErr => intro out seen' h; cases h
  | missing => intro out seen' h; cases h
  | @again file i t seen is r hn hr _ ih =>
    intro out seen' h hf
    have := ih out seen' h hf
    cases hn <;> simpa [ownStmts] using this
  | unreadable => intro out seen' h; cases h
  | @first file i t seen js r out₁ seen₁ is out₂ seen₂ hn hr hp h₁ h₂ ih₁ ih₂ =>
    intro out seen' h hf
    cases h
    have hsub₁ := expands_subset h₁ _ _ rfl
    have hsub₂ := expands_subset h₂ _ _ rfl
    obtain ⟨a₁, a₁', b₁, c₁⟩ := ih₁ out₁ seen₁ rfl (by intro f hf; cases hf; simp)
    obtain ⟨a₂, a₂', b₂, c₂⟩ := ih₂ out₂ seen₂ rfl (by
      intro f hff; exact hsub₁ f (by simp [hf f hff]))
    have hown : ownStmts (i :: is) = ownStmts is := by cases hn <;> simp [ownStmts]
    have htne : some t ≠ file := fun h => hr (hf t h.symm)
    refine ⟨?_, ?_, ?_, ?_⟩
    · rw [stmtsFrom_append, a₂, hown]
      cases file with
      | none => simp [a₁' (by simp)]
      | some f =>
        have := hf f rfl
        rw [b₁ f (by intro h; apply htne; exact h.symm) (by simp [this])]; simp
    · intro hne
      rw [stmtsFrom_append, a₁' (by simp), a₂' hne]; rfl
    · intro f hne hm
      have h1 : some f ≠ some t := by intro h; cases h; exact hr hm
      rw [stmtsFrom_append, b₁ f h1 (by simp [hm]), b₂ f hne (hsub₁ f (by simp [hm]))]; rfl
    · intro f hm
      have hne : some f ≠ file := fun h => hm (hf f h.symm)
      rw [stmtsFrom_append]
      by_cases hft : f = t
      · subst hft
        right
        refine ⟨js, r, hp, hsub₂ _ (hsub₁ _ (by simp)), ?_⟩
        rw [a₁, b₂ f hne (hsub₁ _ (by simp))]; simp
      · by_cases hm1 : f ∈ seen₁
        · rw [b₂ f hne hm1]
          by_cases hm0 : f ∈ (t :: (r ++ seen))
          · left; rw [b₁ f (by simpa using hft) hm0]; rfl
          · rcases c₁ f hm0 with h | ⟨js', rr, hp', hmem, he⟩
            · left; simp [h]
            · right; exact ⟨js', rr, hp', hsub₂ _ hmem, by simp [he]⟩
        · have hm0 : f ∉ (t :: (r ++ seen)) := fun h => hm1 (hsub₁ _ h)
          have e1 : stmtsFrom (some f) out₁ = [] := by
            rcases c₁ f hm0 with h | ⟨js', rr, hp', hmem, he⟩
            · exact h
            · exact absurd hmem hm1
          rcases c₂ f hm1 with h | ⟨js', rr, hp', hmem, he⟩
          · left; simp [e1, h]
          · right; exact ⟨js', rr, hp', hmem, by simp [e1, he]⟩
  | firstErrIn => intro out seen' h; cases h
  | firstErrAfter => intro out seen' h; cases h

/-- With a reader that reads nothing but the file itself: every file in the
final read set that was not there initially contributes its statements, and
everything it imports is in the read set. -/
theorem expands_complete {env : Env σ}
    (hplain : ∀ f js rr, env.parse1 f = some (js, rr) → rr = [])
    {file : Option Path} {seen : List Path} {is : List (Item σ)}
    {r : Res σ} (h : Expands env file seen is r) :
    ∀ out seen', r = .ok (out, seen') → (∀ f, file = some f → f ∈ seen) →
      (∀ i ∈ is, ∀ t, Names env file i t → t ∈ seen') ∧
      (∀ f ∈ seen', f ∉ seen → ∃ js, env.parse1 f = some (js, []) ∧
        stmtsFrom (some f) out = ownStmts js ∧
        ∀ i ∈ js, ∀ t, Names env (some f) i t → t ∈ seen') := by
  induction h with
  | nil => intro out seen' h _; cases h; exact ⟨by simp, fun f h h' => absurd h h'⟩
  | @empty seen file is r h ih =>
    intro out seen' he hf
    obtain ⟨a, b⟩ := ih out seen' he hf
    refine ⟨?_, b⟩
    intro i hi t hn
    rcases List.mem_cons.mp hi with rfl | h
    · cases hn
    · exact a i h t hn
  | @stmt file seen is out seen' s _ ih =>
    intro out' seen'' h hf
    cases h
    obtain ⟨a, b⟩ := ih out seen' rfl hf
    refine ⟨?_, ?_⟩
    · intro i hi t hn
      rcases List.mem_cons.mp hi with rfl | h
      · cases hn
      · exact a i h t hn
    · intro f hm hnm
      obtain ⟨js, hp, he, hi⟩ := b f hm hnm
      have hne' : ¬ file = some f := fun h => hnm (hf f h)
      exact ⟨js, hp, by simpa [stmtsFrom, hne'] using he, hi⟩
  | stmtErr => intro out seen' h; cases h
  | missing => intro out seen' h; cases h
  | @again file i t seen is r hn hr h ih =>
    intro out seen' he hf
    obtain ⟨a, b⟩ := ih out seen' he hf
    refine ⟨?_, b⟩
    intro j hj t' hn'
    rcases List.mem_cons.mp hj with rfl | h'
    · have e := names_iff.mp hn; rw [names_iff.mp hn'] at e; cases e
      exact expands_subset h out seen' he _ hr
    · exact a j h' t' hn'
  | unreadable => intro out seen' h; cases h
  | @first file i t seen js r out₁ seen₁ is out₂ seen₂ hn hr hp h₁ h₂ ih₁ ih₂ =>
    intro out seen' h hf
    cases h
    have hrr := hplain _ _ _ hp
    subst hrr
    have hsub₁ := expands_subset h₁ _ _ rfl
    have hsub₂ := expands_subset h₂ _ _ rfl
    have hf₁ : ∀ f, some t = some f → f ∈ t :: ([] ++ seen) := by intro f hf; cases hf; simp
    have hf₂ : ∀ f, file = some f → f ∈ seen₁ := fun f hff => hsub₁ f (by simp [hf f hff])
    obtain ⟨a₁, b₁⟩ := ih₁ out₁ seen₁ rfl hf₁
    obtain ⟨a₂, b₂⟩ := ih₂ out₂ seen₂ rfl hf₂
    have F₁ := expands_from h₁ out₁ seen₁ rfl hf₁
    have F₂ := expands_from h₂ out₂ seen₂ rfl hf₂
    refine ⟨?_, ?_⟩
    · intro j hj t' hn'
      rcases List.mem_cons.mp hj with rfl | h'
      · have e := names_iff.mp hn; rw [names_iff.mp hn'] at e; cases e
        exact hsub₂ _ (hsub₁ _ (by simp))
      · exact a₂ j h' t' hn'
    · intro f hm hnm
      have hne : some f ≠ file := fun h => hnm (hf f h.symm)
      by_cases hft : f = t
      · subst hft
        refine ⟨js, hp, ?_, fun i hi t' hn' => hsub₂ _ (a₁ i hi t' hn')⟩
        rw [stmtsFrom_append, F₁.1, F₂.2.2.1 f hne (hsub₁ _ (by simp))]; simp
      · by_cases hm1 : f ∈ seen₁
        · obtain ⟨js', hp', he, hi⟩ := b₁ f hm1 (by simp [hft, hnm])
          refine ⟨js', hp', ?_, fun i hii t' hn' => hsub₂ _ (hi i hii t' hn')⟩
          rw [stmtsFrom_append, he, F₂.2.2.1 f hne hm1]; simp
        · obtain ⟨js', hp', he, hi⟩ := b₂ f hm hm1
          refine ⟨js', hp', ?_, hi⟩
          have e1 : stmtsFrom (some f) out₁ = [] := by
            rcases F₁.2.2.2 f (by simp [hft, hnm]) with h | ⟨_, _, _, hmem, _⟩
            · exact h
            · exact absurd hmem hm1
          rw [stmtsFrom_append, e1, he]; simp
  | firstErrIn => intro out seen' h; cases h
  | firstErrAfter => intro out seen' h; cases h

end Verif.Imports
