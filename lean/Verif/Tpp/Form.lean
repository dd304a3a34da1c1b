import Verif.Tpp.Content

/-!
# Properties: blank lines, indentation, brackets, the end of the run
-/

namespace Verif.Tpp

open Spec

/-! ## Blank lines -/

/-- No line is a directive for the property. -/
def Unset (name : String) (inp : List Line) : Prop := ∀ l ∈ inp, ∀ v, ¬ Directive l name.toList v

theorem setProp_acc (env : Env) (st : St) (k v : List Char) (h : k ≠ "accumulate".toList) : (setProp env st k v).acc = st.acc := by
  unfold setProp
  cases env.eval v with
  | none => rfl
  | some x => dsimp only; split_ifs <;> rfl

theorem setProp_condense (env : Env) (st : St) (k v : List Char) :
    (setProp env st k v).condense = st.condense ∧ (k ≠ "condense".toList ∨ env.eval v = none) ∨
    (k = "condense".toList ∧ ∃ x, env.eval v = some x ∧ (setProp env st k v).condense = some x) := by
  unfold setProp
  cases env.eval v with
  | none => exact Or.inl ⟨rfl, Or.inr rfl⟩
  | some x =>
    dsimp only
    split_ifs with h1 h2 h3
    · exact Or.inr ⟨h1, x, rfl, rfl⟩
    · exact Or.inl ⟨rfl, Or.inl h1⟩
    · exact Or.inl ⟨rfl, Or.inl h1⟩
    · exact Or.inl ⟨rfl, Or.inl h1⟩

theorem truthy_iff (x : Val) : truthy (some x) = true ↔ x = .bool true ∨ x = .other true ∨ ∃ n, n ≠ 0 ∧ x = .int n := by
  cases x with
  | none => simp [truthy]
  | bool b => simp [truthy]
  | int n => simp [truthy]
  | other b => simp [truthy]

/-- A run that keeps nothing back. -/
structure Open (st : St) : Prop where
  acc : truthy st.acc = false
  none : st.accumulated = .none

theorem open_passes {o : Opts} {st s : St} {l : Line} {r : Option Line} (h : passes o st l = .ok (s, r)) (ho : Open st) : Open s := by
  refine ⟨by rw [(passes_fields h).2.2]; exact ho.acc, ?_⟩
  cases r with
  | some w => rw [(passes_out h).1]; exact ho.none
  | none =>
    rcases passes_drop h with ⟨-, hs⟩ | ⟨-, ht, -⟩
    · rw [hs]; exact ho.none
    · rw [ho.acc] at ht; cases ht

theorem open_dir {env : Env} {o : Opts} {st : St} {k v : List Char} (h : k ≠ "accumulate".toList) (ho : Open st) :
    notify env o (setProp env st k v) = (setProp env st k v, []) ∧ Open (setProp env st k v) := by
  have hs := setProp_fields env st k v
  refine ⟨?_, ⟨by rw [setProp_acc env st k v h]; exact ho.acc, by rw [hs.1]; exact ho.none⟩⟩
  rcases notify_cases env o (setProp env st k v) (fun hn => absurd (hs.1.trans ho.none) hn) with ⟨h, -⟩ | ⟨a, h1, -, -⟩
  · exact h
  · rw [hs.1, ho.none] at h1; cases h1

theorem blanks_run {env : Env} {st s' : St} {buf inp out : List Line} (h : Run env .default st buf inp out s') :
    buf = [] → Open st → Unset "accumulate" inp → ∀ c vis, c = truthy st.condense → Visible env.eval c inp vis →
      out.map ink = squeeze (st.initial || st.lastempty) vis := by
  induction h with
  | done st =>
    intro _ _ _ c vis hcc hv
    cases hv
    rfl
  | bdir => intro hb; cases hb
  | bdrop => intro hb; cases hb
  | bout => intro hb; cases hb
  | @idir st l inp k v out s' hd _ ih =>
    intro _ ho hu c vis hcc hv
    have hk : k ≠ "accumulate".toList := by
      rintro rfl
      exact hu l (by simp) v (directive_to hd)
    obtain ⟨e, ho'⟩ := open_dir (env := env) (o := .default) (v := v) hk ho
    have hs := setProp_fields env st k v
    rw [e] at ih
    rw [← hs.2.1, ← hs.2.2]
    refine ih rfl ho' (fun x hx => hu x (by simp [hx])) _ vis rfl ?_
    dsimp only
    cases hv with
    | line _ _ _ _ hn => exact absurd ⟨k, v, directive_to hd⟩ hn
    | left _ _ _ hn => exact absurd ⟨k, v, directive_to hd⟩ hn
    | set _ c' _ v' x _ _ h1 h2 h3 h4 =>
      have := directive_of h1
      rw [hd] at this
      simp only [Option.some.injEq, Prod.mk.injEq] at this
      obtain ⟨rfl, rfl⟩ := this
      rcases setProp_condense env st "condense".toList v with ⟨h5, h6 | h6⟩ | ⟨-, y, h5, h6⟩
      · exact absurd rfl h6
      · rw [h2] at h6; cases h6
      · rw [h2] at h5
        cases h5
        rw [h6]
        have : truthy (some x) = c' := by
          rw [← truthy_iff] at h3
          cases c' <;> cases hx : truthy (some x) <;> simp [hx] at h3 ⊢
        rw [this]; exact h4
    | bad _ _ k' v' _ _ h1 h2 h4 =>
      have := directive_of h1
      rw [hd] at this
      simp only [Option.some.injEq, Prod.mk.injEq] at this
      obtain ⟨rfl, rfl⟩ := this
      rcases setProp_condense env st k v with ⟨h5, -⟩ | ⟨-, y, h5, -⟩
      · rw [h5, ← hcc]; exact h4
      · rw [h2] at h5; cases h5
    | other _ _ k' v' _ _ h1 h2 h4 =>
      have := directive_of h1
      rw [hd] at this
      simp only [Option.some.injEq, Prod.mk.injEq] at this
      obtain ⟨rfl, rfl⟩ := this
      rcases setProp_condense env st k v with ⟨h5, -⟩ | ⟨h5, -⟩
      · rw [h5, ← hcc]; exact h4
      · exact absurd h5 h2
  | @idrop st l inp s out s' hd hp _ ih =>
    intro _ ho hu c vis hcc hv
    have hb : Blank l := by
      rcases passes_drop hp with ⟨hb, -⟩ | ⟨-, ht, -⟩
      · exact hb
      · rw [ho.acc] at ht; cases ht
    have h1 := (passes_initial rfl hp).1 hb
    have h2 := passes_last rfl hp
    dsimp only at h2
    have h3 := (passes_fields hp).1
    have ih := ih rfl (open_passes hp ho) (fun x hx => hu x (by simp [hx]))
    rw [h1, h2, h3] at ih
    have hnd := (directive_none l).1 hd
    cases hv with
    | line _ _ _ vis' hn hc hv' =>
      rw [ih _ vis' hcc hv', (blank_iff_ink l).1 hb]
      have : (st.initial || st.lastempty) = true := by
        rcases passes_ok hp with ⟨-, -, -, h5 | h5⟩ | ⟨m, hm, ht, -⟩
        · rw [h5.2]; rfl
        · exact absurd ⟨hcc.trans h5.2, hb⟩ hc
        · rcases tail_ok ht with ⟨-, h6, -, -⟩ | ⟨-, hr⟩
          · rw [(ini_fields _ _ _).2.2.1, ho.acc] at h6; cases h6
          · rw [if_pos (show Opts.default.duplicates = true from rfl)] at hr
            unfold removeDuplicates at hr
            have hbc : strip (compress .default m) = [] := by
              rw [strip_nil, blank_iff_ink, ink_compress, ink_locked hm, ink_l1, ← blank_iff_ink]; exact hb
            rw [if_pos hbc, (ini_fields _ _ _).2.2.2.2] at hr
            cases hl : st.lastempty with
            | true => simp
            | false => rw [hl] at hr; simp at hr
      rw [this]
      simp [squeeze]
    | left _ _ _ hn hb' hv' =>
      exact ih _ vis hcc hv'
    | set _ c' _ v' x _ _ h1 => exact absurd ⟨_, _, h1⟩ hnd
    | bad _ _ k' v' _ _ h1 => exact absurd ⟨_, _, h1⟩ hnd
    | other _ _ k' v' _ _ h1 => exact absurd ⟨_, _, h1⟩ hnd
  | @iout st l inp s w out s' hd hp _ ih =>
    intro _ ho hu c vis hcc hv
    have h2 := passes_last rfl hp
    dsimp only at h2
    have h3 := (passes_fields hp).1
    have hi := passes_out_ink hp
    have hbw := blank_of_ink hi
    have ih := ih rfl (open_passes hp ho) (fun x hx => hu x (by simp [hx]))
    rw [h3] at ih
    have hnd := (directive_none l).1 hd
    have hpo := passes_ok hp
    cases hv with
    | line _ _ _ vis' hn hc hv' =>
      rw [List.map_cons, ih _ vis' hcc hv', hi]
      by_cases hb : Blank l
      · have h4 := (passes_initial rfl hp).1 hb
        have h5 : st.initial = false := by
          cases hx : st.initial with
          | false => rfl
          | true => exact absurd (passes_blank_initial rfl hx hb hp).2 (by simp)
        have h6 := h2.1 (hbw.2 hb)
        rw [(blank_iff_ink l).1 hb, h4, h5, h6.1, h6.2]
        simp [squeeze]
      · have h4 := (passes_initial rfl hp).2 hb
        have h5 := h2.2 (fun hx => hb (hbw.1 hx))
        have : ink l ≠ [] := fun hx => hb ((blank_iff_ink l).2 hx)
        rw [h4, h5]
        simp [squeeze, this]
    | left _ _ _ hn hb' hv' =>
      rcases hpo with ⟨-, -, h5, -⟩ | ⟨m, -, -, h5⟩
      · cases h5
      · exact absurd ⟨rfl, hcc.symm⟩ (h5 hb').2
    | set _ c' _ v' x _ _ h1 => exact absurd ⟨_, _, h1⟩ hnd
    | bad _ _ k' v' _ _ h1 => exact absurd ⟨_, _, h1⟩ hnd
    | other _ _ k' v' _ _ h1 => exact absurd ⟨_, _, h1⟩ hnd

/-- **C117.** With the default passes, in a file that accumulates nothing: the lines that are written are, up to
whitespace in a line, exactly the lines that are no directives, without blank lines at the start, with one blank line for
several, and without blank lines where `condense` is on. -/
theorem lines_exact (env : Env) (n : Nat) (inp out : List Line) (st : St) (hu : Unset "accumulate" inp)
    (h : run env .default n inp = .ok (out, st)) (vis : List (List Char)) (hv : Visible env.eval false inp vis) :
    out.map ink = squeeze true vis :=
  blanks_run (loop_run h) rfl ⟨rfl, rfl⟩ hu _ vis rfl hv

/-- The lines meant by `lines_exact` exist for every file. -/
theorem visible_exists (eval : List Char → Option Val) (c : Bool) (inp : List Line) : ∃ vis, Visible eval c inp vis := by
  induction inp generalizing c with
  | nil => exact ⟨[], .nil c⟩
  | cons l inp ih =>
    by_cases hd : ∃ k v, Directive l k v
    · obtain ⟨k, v, hd⟩ := hd
      cases he : eval v with
      | none =>
        obtain ⟨vis, hv⟩ := ih c
        exact ⟨vis, .bad c l k v _ _ hd he hv⟩
      | some x =>
        by_cases hk : k = "condense".toList
        · subst hk
          obtain ⟨vis, hv⟩ := ih (truthy (some x))
          exact ⟨vis, .set c _ l v x _ _ hd he (truthy_iff x) hv⟩
        · obtain ⟨vis, hv⟩ := ih c
          exact ⟨vis, .other c l k v _ _ hd hk hv⟩
    · by_cases hc : c = true ∧ Blank l
      · obtain ⟨rfl, hb⟩ := hc
        obtain ⟨vis, hv⟩ := ih true
        exact ⟨vis, .left l _ _ hd hb hv⟩
      · obtain ⟨vis, hv⟩ := ih c
        exact ⟨_, .line c l _ _ hd hc hv⟩

/-! ## Sections -/

theorem before_space (x : Char) (t : List Char) : before x (' ' :: t) = ' ' :: before x t := by
  cases t with
  | nil => simp [before]
  | cons b t => cases t <;> simp [before]

theorem behind_space {x : Char} (hx : x ≠ ' ') (t : List Char) : behind x (' ' :: t) = ' ' :: behind x t := by
  cases t with
  | nil => simp [behind]
  | cons b t => cases t <;> simp [behind, Ne.symm hx]

theorem before_spaces (x : Char) (n : Nat) (t : List Char) : before x (List.replicate n ' ' ++ t) = List.replicate n ' ' ++ before x t := by
  induction n with
  | zero => rfl
  | succ n ih => rw [List.replicate_succ, List.cons_append, before_space, ih, List.cons_append]

theorem behind_spaces {x : Char} (hx : x ≠ ' ') (n : Nat) (t : List Char) :
    behind x (List.replicate n ' ' ++ t) = List.replicate n ' ' ++ behind x t := by
  induction n with
  | zero => rfl
  | succ n ih => rw [List.replicate_succ, List.cons_append, behind_space hx, ih, List.cons_append]

theorem compress_spaces (o : Opts) (n : Nat) (t : List Char) :
    compress o (List.replicate n ' ' ++ t) = List.replicate n ' ' ++ compress o t := by
  unfold compress
  cases o.brackets <;> cases o.braces <;> cases o.commas <;>
    simp [before_spaces, behind_spaces (show '(' ≠ ' ' by decide), behind_spaces (show '{' ≠ ' ' by decide)]

theorem compress_head (o : Opts) (t : List Char) : (compress o t).head? = t.head? := by
  unfold compress
  cases o.brackets <;> cases o.braces <;> cases o.commas <;> simp [before_head, behind_head]

theorem out_indent {o : Opts} (ho : o.lockIndent = true) {st s : St} {l w : Line} {i : Int} (hl : st.lock = some (.int i))
    (h : passes o st l = .ok (s, some w)) :
    Blank w ∨ ∃ r, w = List.replicate i.toNat ' ' ++ r ∧ ∃ c, r.head? = some c ∧ ¬ Space c := by
  obtain ⟨-, -, m, hm, rfl⟩ := passes_out h
  by_cases hb : Blank (l1 o l)
  · left
    rw [blank_iff_ink, ink_compress, ink_locked hm, ← blank_iff_ink]; exact hb
  · right
    have hm' : m = List.replicate i.toNat ' ' ++ lstrip (l1 o l) := by
      unfold locked lockIndent at hm
      rw [if_pos ho, if_neg (fun hx => hb ((strip_nil _).1 hx)), hl] at hm
      cases hm; rfl
    rw [hm', compress_spaces]
    refine ⟨_, rfl, ?_⟩
    rw [compress_head]
    obtain ⟨s1, hs1, hl1, hh⟩ := lstrip_split (l1 o l)
    cases hx : lstrip (l1 o l) with
    | nil => rw [hx, List.append_nil] at hl1; rw [hl1] at hb; exact absurd hs1 hb
    | cons c t => exact ⟨c, rfl, hh c (by rw [hx]; rfl)⟩

/-- **C117.** After a directive that locks the indentation, and as long as no other such directive follows, each
line that is written is blank or has exactly this indentation. -/
theorem indent_locked (env : Env) (hw : Wraps env.wrap) (o : Opts) (ho : o.lockIndent = true) (n : Nat) (d : Line) (v : List Char)
    (i : Int) (hd : Directive d "lock_indent".toList v) (he : env.eval v = some (.int i)) (inp out : List Line) (st : St)
    (hu : Unset "lock_indent" inp) (hh : NoneHidden inp) (h : run env o n (d :: inp) = .ok (out, st)) :
    ∀ w ∈ out, Blank w ∨ ∃ r, w = List.replicate i.toNat ' ' ++ r ∧ ∃ c, r.head? = some c ∧ ¬ Space c := by
  have key : ∀ {st s' : St} {buf inp out : List Line}, Run env o st buf inp out s' → Inv o st buf inp → Unset "lock_indent" inp →
      st.lock = some (.int i) → ∀ w ∈ out, Blank w ∨ ∃ r, w = List.replicate i.toNat ' ' ++ r ∧ ∃ c, r.head? = some c ∧ ¬ Space c := by
    intro st s' buf inp out h
    induction h with
    | done st => simp
    | bdir hd _ _ => intro hi; rw [hi.buf] at hd; cases hd
    | bdrop hd hp _ ih => intro hi hu hl; exact ih (inv_bdrop hi hp) hu (by rw [(passes_fields hp).2.1]; exact hl)
    | bout hd hp _ ih =>
      intro hi hu hl w hw
      rcases List.mem_cons.1 hw with rfl | hw
      · exact out_indent ho hl hp
      · exact ih (inv_bout hi hp) hu (by rw [(passes_fields hp).2.1]; exact hl) w hw
    | @idir st l inp k v out s' hd _ ih =>
      intro hi hu hl
      refine ih (inv_idir hw hd hi) (fun x hx => hu x (by simp [hx])) ?_
      rw [(notify_props env o _).2.1]
      rcases setProp_lock env st k v with h | ⟨rfl, -⟩
      · rw [h]; exact hl
      · exact absurd (directive_to hd) (hu l (by simp) v)
    | idrop hd hp _ ih =>
      intro hi hu hl
      exact ih (inv_idrop hd hi hp) (fun x hx => hu x (by simp [hx])) (by rw [(passes_fields hp).2.1]; exact hl)
    | iout hd hp _ ih =>
      intro hi hu hl w hw
      rcases List.mem_cons.1 hw with rfl | hw
      · exact out_indent ho hl hp
      · exact ih (inv_iout hd hi hp) (fun x hx => hu x (by simp [hx])) (by rw [(passes_fields hp).2.1]; exact hl) w hw
  have hr := loop_run h
  have hi : Inv o {} [] (d :: inp) := by
    apply inv_start
    unfold NoneHidden
    rw [plain_cons_dir (directive_of hd)]
    exact hh
  cases hr with
  | @idir _ _ _ k v' _ _ hd' hr =>
    have := directive_of hd
    rw [hd'] at this
    simp only [Option.some.injEq, Prod.mk.injEq] at this
    obtain ⟨rfl, rfl⟩ := this
    refine key hr (inv_idir hw hd' hi) hu ?_
    rw [(notify_props env o _).2.1]
    unfold setProp
    rw [he]
    simp
  | idrop hd' => rw [directive_of hd] at hd'; cases hd'
  | iout hd' => rw [directive_of hd] at hd'; cases hd'

theorem out_condensed {o : Opts} (ho : o.condense = true) {st s : St} {l w : Line} (hl : truthy st.condense = true)
    (h : passes o st l = .ok (s, some w)) : ¬ Blank w := by
  rw [blank_of_ink (passes_out_ink h)]
  intro hb
  rcases passes_ok h with ⟨-, -, h5, -⟩ | ⟨m, -, -, h5⟩
  · cases h5
  · exact (h5 hb).2 ⟨ho, hl⟩

/-- **C117.** After a directive that switches `condense` on, and as long as no other such directive follows, no line
that is written is blank. -/
theorem condensed (env : Env) (hw : Wraps env.wrap) (o : Opts) (ho : o.condense = true) (n : Nat) (d : Line) (v : List Char)
    (hd : Directive d "condense".toList v) (he : env.eval v = some (.bool true)) (inp out : List Line) (st : St)
    (hu : Unset "condense" inp) (hh : NoneHidden inp) (h : run env o n (d :: inp) = .ok (out, st)) :
    (∀ w ∈ out, ¬ Blank w) ∧ warns st = true := by
  have key : ∀ {st s' : St} {buf inp out : List Line}, Run env o st buf inp out s' → Inv o st buf inp → Unset "condense" inp →
      truthy st.condense = true → (∀ w ∈ out, ¬ Blank w) ∧ truthy s'.condense = true := by
    intro st s' buf inp out h
    induction h with
    | done st => intro _ _ h; exact ⟨by simp, h⟩
    | bdir hd _ _ => intro hi; rw [hi.buf] at hd; cases hd
    | bdrop hd hp _ ih => intro hi hu hl; exact ih (inv_bdrop hi hp) hu (by rw [(passes_fields hp).1]; exact hl)
    | bout hd hp _ ih =>
      intro hi hu hl
      have ih := ih (inv_bout hi hp) hu (by rw [(passes_fields hp).1]; exact hl)
      refine ⟨fun w hw => ?_, ih.2⟩
      rcases List.mem_cons.1 hw with rfl | hw
      · exact out_condensed ho hl hp
      · exact ih.1 w hw
    | @idir st l inp k v out s' hd _ ih =>
      intro hi hu hl
      refine ih (inv_idir hw hd hi) (fun x hx => hu x (by simp [hx])) ?_
      rw [(notify_props env o _).1]
      rcases setProp_condense env st k v with ⟨h, -⟩ | ⟨rfl, -⟩
      · rw [h]; exact hl
      · exact absurd (directive_to hd) (hu l (by simp) v)
    | idrop hd hp _ ih =>
      intro hi hu hl
      exact ih (inv_idrop hd hi hp) (fun x hx => hu x (by simp [hx])) (by rw [(passes_fields hp).1]; exact hl)
    | iout hd hp _ ih =>
      intro hi hu hl
      have ih := ih (inv_iout hd hi hp) (fun x hx => hu x (by simp [hx])) (by rw [(passes_fields hp).1]; exact hl)
      refine ⟨fun w hw => ?_, ih.2⟩
      rcases List.mem_cons.1 hw with rfl | hw
      · exact out_condensed ho hl hp
      · exact ih.1 w hw
  have hr := loop_run h
  have hi : Inv o {} [] (d :: inp) := by
    apply inv_start
    unfold NoneHidden
    rw [plain_cons_dir (directive_of hd)]
    exact hh
  cases hr with
  | @idir _ _ _ k v' _ _ hd' hr =>
    have := directive_of hd
    rw [hd'] at this
    simp only [Option.some.injEq, Prod.mk.injEq] at this
    obtain ⟨rfl, rfl⟩ := this
    refine key hr (inv_idir hw hd' hi) hu ?_
    rw [(notify_props env o _).1]
    unfold setProp
    rw [he]
    simp [truthy]
  | idrop hd' => rw [directive_of hd] at hd'; cases hd'
  | iout hd' => rw [directive_of hd] at hd'; cases hd'

/-! ## Brackets and commas -/

/-- Three characters in a row. -/
def has3 (p q r : Char) : List Char → Prop
  | a :: t => (a = p ∧ ∃ t', t = q :: r :: t') ∨ has3 p q r t
  | [] => False

theorem has3_iff (p q r : Char) (l : List Char) : has3 p q r l ↔ ∃ a b, l = a ++ [p, q, r] ++ b := by
  induction l with
  | nil => simp [has3]
  | cons x t ih =>
    simp only [has3, ih]
    constructor
    · rintro (⟨rfl, t', rfl⟩ | ⟨a, b, rfl⟩)
      · exact ⟨[], t', rfl⟩
      · exact ⟨x :: a, b, rfl⟩
    · rintro ⟨a, b, h⟩
      cases a with
      | nil => simp at h; exact Or.inl ⟨h.1, b, h.2⟩
      | cons y a => simp at h; exact Or.inr ⟨a, b, by simpa using h.2⟩

theorem before_starts {x : Char} {l : List Char} {q : Char} {t : List Char} (h : before x l = ' ' :: q :: t) : ∃ t', l = ' ' :: q :: t' := by
  have h1 := before_head x l
  rw [h] at h1
  cases l with
  | nil => simp at h1
  | cons a l =>
    simp at h1
    subst h1
    rw [before_space] at h
    simp at h
    have h2 := before_head x l
    rw [h] at h2
    cases l with
    | nil => simp at h2
    | cons b l => simp at h2; subst h2; exact ⟨l, rfl⟩

theorem behind_starts {x : Char} (hx : x ≠ ' ') {l : List Char} {q : Char} {t : List Char} (h : behind x l = ' ' :: q :: t) :
    ∃ t', l = ' ' :: q :: t' := by
  have h1 := behind_head x l
  rw [h] at h1
  cases l with
  | nil => simp at h1
  | cons a l =>
    simp at h1
    subst h1
    rw [behind_space hx] at h
    simp at h
    have h2 := behind_head x l
    rw [h] at h2
    cases l with
    | nil => simp at h2
    | cons b l => simp at h2; subst h2; exact ⟨l, rfl⟩

theorem before_short {x : Char} {r : List Char} (h : ∀ b d r', r = b :: d :: r' → False) : before x r = r := by
  cases r with
  | nil => rfl
  | cons a r =>
    cases r with
    | nil => simp [before]
    | cons b r => exact absurd rfl (fun e => h a b r e)

theorem behind_short {x : Char} {r : List Char} (h : ∀ b d r', r = b :: d :: r' → False) : behind x r = r := by
  cases r with
  | nil => rfl
  | cons a r =>
    cases r with
    | nil => simp [behind]
    | cons b r => exact absurd rfl (fun e => h a b r e)

theorem before_has3 {x p q : Char} (hx : x ≠ ' ') (l : List Char) (h : has3 p ' ' q (before x l)) : has3 p ' ' q l := by
  fun_induction before x l with
  | case1 a b d r hc ih =>
    obtain ⟨h1, rfl, rfl⟩ := hc
    rcases h with ⟨-, t', ht⟩ | ⟨rfl, t', ht⟩ | h
    · simp at ht; exact absurd ht.1 hx
    · obtain ⟨t2, rfl⟩ := before_starts ht
      exact Or.inr (Or.inr (Or.inl ⟨rfl, t2, rfl⟩))
    · exact Or.inr (Or.inr (Or.inr (ih h)))
  | case2 a b d r hc ih =>
    rcases h with ⟨rfl, t', ht⟩ | h
    · obtain ⟨t2, h2⟩ := before_starts ht
      exact Or.inl ⟨rfl, t2, h2⟩
    · exact Or.inr (ih h)
  | case3 a r hc ih =>
    rw [before_short hc] at h
    exact h
  | case4 => exact h

theorem behind_has3 {x p q : Char} (hx : x ≠ ' ') (l : List Char) (h : has3 p ' ' q (behind x l)) : has3 p ' ' q l := by
  fun_induction behind x l with
  | case1 a b d r hc ih =>
    obtain ⟨rfl, rfl, h3⟩ := hc
    rcases h with ⟨-, t', ht⟩ | ⟨rfl, t', ht⟩ | h
    · simp at ht; exact absurd ht.1 h3
    · obtain ⟨t2, rfl⟩ := behind_starts hx ht
      exact Or.inr (Or.inr (Or.inl ⟨rfl, t2, rfl⟩))
    · exact Or.inr (Or.inr (Or.inr (ih h)))
  | case2 a b d r hc ih =>
    rcases h with ⟨rfl, t', ht⟩ | h
    · obtain ⟨t2, h2⟩ := behind_starts hx ht
      exact Or.inl ⟨rfl, t2, h2⟩
    · exact Or.inr (ih h)
  | case3 a r hc ih =>
    rw [behind_short hc] at h
    exact h
  | case4 => exact h

theorem before_tight {x : Char} (hx : x ≠ ' ') (l : List Char) (hl : ¬ has3 x ' ' x l) {p : Char} (hp : p ≠ ' ') :
    ¬ has3 p ' ' x (before x l) := by
  fun_induction before x l with
  | case1 a b d r hc ih =>
    obtain ⟨h1, rfl, rfl⟩ := hc
    rintro (⟨-, t', ht⟩ | ⟨rfl, t', ht⟩ | h)
    · simp at ht; exact hx ht.1
    · obtain ⟨t2, rfl⟩ := before_starts ht
      exact hl (Or.inr (Or.inr (Or.inl ⟨rfl, t2, rfl⟩)))
    · exact ih (fun hx => hl (Or.inr (Or.inr (Or.inr hx)))) h
  | case2 a b d r hc ih =>
    rintro (⟨rfl, t', ht⟩ | h)
    · obtain ⟨t2, h2⟩ := before_starts ht
      simp at h2
      exact hc ⟨hp, h2.1, h2.2.1⟩
    · exact ih (fun hx => hl (Or.inr hx)) h
  | case3 a r hc ih =>
    rw [before_short hc]
    rintro (⟨rfl, t', ht⟩ | h)
    · exact hc _ _ _ ht
    · rw [before_short hc] at ih
      exact ih (fun hx => hl (Or.inr hx)) h
  | case4 => exact fun h => h

theorem behind_tight {x : Char} (hx : x ≠ ' ') (l : List Char) (hl : ¬ has3 x ' ' x l) {q : Char} (hq : q ≠ ' ') :
    ¬ has3 x ' ' q (behind x l) := by
  fun_induction behind x l with
  | case1 a b d r hc ih =>
    obtain ⟨rfl, rfl, h3⟩ := hc
    rintro (⟨-, t', ht⟩ | ⟨rfl, t', ht⟩ | h)
    · simp at ht; exact h3 ht.1
    · exact hl (Or.inl ⟨rfl, r, rfl⟩)
    · exact ih (fun hx => hl (Or.inr (Or.inr (Or.inr hx)))) h
  | case2 a b d r hc ih =>
    rintro (⟨rfl, t', ht⟩ | h)
    · obtain ⟨t2, h2⟩ := behind_starts hx ht
      simp at h2
      exact hc ⟨rfl, h2.1, by rw [h2.2.1]; exact hq⟩
    · exact ih (fun hx => hl (Or.inr hx)) h
  | case3 a r hc ih =>
    rw [behind_short hc]
    rintro (⟨rfl, t', ht⟩ | h)
    · exact hc _ _ _ ht
    · rw [behind_short hc] at ih
      exact ih (fun hx => hl (Or.inr hx)) h
  | case4 => exact fun h => h

theorem compress_tight {o : Opts} (h1 : o.brackets = true) (h2 : o.braces = true) (h3 : o.commas = true) {l : Line} (hl : ¬ Twice l) :
    ¬ Loose (compress o l) := by
  have ht : ∀ x ∈ ['(', '{', ')', '}', ','], ¬ has3 x ' ' x l := by
    intro x hx h
    obtain ⟨a, b, he⟩ := (has3_iff _ _ _ _).1 h
    exact hl ⟨a, b, x, he, hx⟩
  have n1 : '(' ≠ ' ' := by decide
  have n2 : ')' ≠ ' ' := by decide
  have n3 : '{' ≠ ' ' := by decide
  have n4 : '}' ≠ ' ' := by decide
  have n5 : ',' ≠ ' ' := by decide
  rintro ⟨a, b, x, y, he, hx, hy, hc⟩
  have h : has3 x ' ' y (compress o l) := (has3_iff _ _ _ _).2 ⟨a, b, he⟩
  have e : compress o l = before ',' (before '}' (behind '{' (before ')' (behind '(' l)))) := by
    simp [compress, h1, h2, h3]
  rw [e] at h
  have k1 := before_has3 n5 _ h
  have k2 := before_has3 n4 _ k1
  have k3 := behind_has3 n3 _ k2
  have k4 := before_has3 n2 _ k3
  rcases hc with hc | hc
  · simp only [List.mem_cons, List.not_mem_nil, or_false] at hc
    rcases hc with rfl | rfl
    · exact behind_tight n1 l (ht _ (by simp)) hy k4
    · refine behind_tight n3 _ (fun hh => ht '{' (by simp) ?_) hy k2
      exact behind_has3 n1 _ (before_has3 n2 _ hh)
  · simp only [List.mem_cons, List.not_mem_nil, or_false] at hc
    rcases hc with rfl | rfl | rfl
    · refine before_tight n2 _ (fun hh => ht ')' (by simp) ?_) hx k3
      exact behind_has3 n1 _ hh
    · refine before_tight n4 _ (fun hh => ht '}' (by simp) ?_) hx k1
      exact behind_has3 n1 _ (before_has3 n2 _ (behind_has3 n3 _ hh))
    · refine before_tight n5 _ (fun hh => ht ',' (by simp) ?_) hx h
      exact behind_has3 n1 _ (before_has3 n2 _ (behind_has3 n3 _ (before_has3 n4 _ hh)))

theorem twice_suffix {a b : List Char} (h : ¬ Twice (a ++ b)) : ¬ Twice b := by
  rintro ⟨u, v, x, rfl, hx⟩
  exact h ⟨a ++ u, v, x, by simp, hx⟩

theorem twice_prefix {a b : List Char} (h : ¬ Twice (a ++ b)) : ¬ Twice a := by
  rintro ⟨u, v, x, rfl, hx⟩
  exact h ⟨u, v ++ b, x, by simp, hx⟩

theorem twice_spaces {n : Nat} {b : List Char} (h : ¬ Twice b) : ¬ Twice (List.replicate n ' ' ++ b) := by
  induction n with
  | zero => exact h
  | succ n ih =>
    rintro ⟨u, v, x, he, hx⟩
    rw [List.replicate_succ, List.cons_append] at he
    cases u with
    | nil =>
      simp at he
      rw [← he.1] at hx
      exact absurd hx (by decide)
    | cons y u =>
      simp at he
      exact ih ⟨u, v, x, by simpa using he.2, hx⟩

theorem out_tight {o : Opts} (h1 : o.brackets = true) (h2 : o.braces = true) (h3 : o.commas = true) {st s : St} {l w : Line}
    (hl : ¬ Twice l) (h : passes o st l = .ok (s, some w)) : ¬ Loose w := by
  obtain ⟨-, -, m, hm, rfl⟩ := passes_out h
  apply compress_tight h1 h2 h3
  have hl1 : ¬ Twice (l1 o l) := by
    unfold l1
    split_ifs
    · obtain ⟨t, -, he, -⟩ := rstrip_split l
      rw [he] at hl
      exact twice_prefix hl
    · exact hl
  rcases locked_ok hm with rfl | ⟨-, -, n, rfl, -⟩
  · exact hl1
  · obtain ⟨t, -, he, -⟩ := lstrip_split (l1 o l)
    rw [he] at hl1
    exact twice_spaces (twice_suffix hl1)

/-- **C117.** In a file that accumulates nothing, no line that is written has a space after an opening bracket or brace,
or before a closing one or a comma. Missing: two brackets of a kind with a space between them (`bracket_space_left`). -/
theorem tight_partial (env : Env) (o : Opts) (h1 : o.brackets = true) (h2 : o.braces = true) (h3 : o.commas = true) (n : Nat)
    (inp out : List Line) (st : St) (hu : Unset "accumulate" inp) (ht : ∀ l ∈ inp, ¬ Twice l)
    (h : run env o n inp = .ok (out, st)) : ∀ l ∈ out, ¬ Loose l := by
  have key : ∀ {st s' : St} {buf inp out : List Line}, Run env o st buf inp out s' → buf = [] → Open st → Unset "accumulate" inp →
      (∀ l ∈ inp, ¬ Twice l) → ∀ l ∈ out, ¬ Loose l := by
    intro st s' buf inp out h
    induction h with
    | done st => simp
    | bdir => intro hb; cases hb
    | bdrop => intro hb; cases hb
    | bout => intro hb; cases hb
    | @idir st l inp k v out s' hd _ ih =>
      intro _ ho hu ht
      have hk : k ≠ "accumulate".toList := by
        rintro rfl
        exact hu l (by simp) v (directive_to hd)
      obtain ⟨e, ho'⟩ := open_dir (env := env) (o := o) (v := v) hk ho
      rw [e] at ih
      exact ih rfl ho' (fun x hx => hu x (by simp [hx])) (fun x hx => ht x (by simp [hx]))
    | idrop hd hp _ ih =>
      intro _ ho hu ht
      exact ih rfl (open_passes hp ho) (fun x hx => hu x (by simp [hx])) (fun x hx => ht x (by simp [hx]))
    | iout hd hp _ ih =>
      intro _ ho hu ht l hl
      rcases List.mem_cons.1 hl with rfl | hl
      · exact out_tight h1 h2 h3 (ht _ (by simp)) hp
      · exact ih rfl (open_passes hp ho) (fun x hx => hu x (by simp [hx])) (fun x hx => ht x (by simp [hx])) l hl
  exact key (loop_run h) rfl ⟨rfl, rfl⟩ hu ht

/-! ## The end of the run -/

theorem loop_error {env : Env} {o : Opts} {n : Nat} {st : St} {buf inp : List Line} {e : Stop}
    (h : loop env o n st buf inp = .error e) (H : Held o st) : e ≠ .assertion := by
  induction n generalizing st buf inp with
  | zero => cases h; simp
  | succ n ih =>
    have hpass : ∀ {l : Line} {buf inp : List Line}, (match passes o st l with
        | .error e => Except.error e
        | .ok (st, none) => loop env o n st buf inp
        | .ok (st, some w) =>
          match loop env o n st buf inp with
          | .error e => .error e
          | .ok (out, st) => .ok (w :: out, st)) = .error e → e ≠ .assertion := by
      intro l buf inp h
      cases hp : passes o st l with
      | error e' =>
        rw [hp] at h; cases h
        rcases passes_err hp with ⟨rfl, -⟩ | ⟨-, ha, ht, hn⟩
        · simp
        · rw [(H hn).2] at ht; cases ht
      | ok r =>
        obtain ⟨s, r⟩ := r
        rw [hp] at h
        cases r with
        | none => exact ih h (held_passes hp H)
        | some w =>
          dsimp only at h
          cases hr : loop env o n s buf inp with
          | error e' => rw [hr] at h; cases h; exact ih hr (held_passes hp H)
          | ok q => rw [hr] at h; cases h
    unfold loop at h
    cases buf with
    | nil =>
      cases inp with
      | nil => cases h
      | cons l inp =>
        dsimp only at h
        cases hd : directive l with
        | some p => rw [hd] at h; exact ih h (held_dir env o st _ _ H)
        | none => rw [hd] at h; exact hpass h
    | cons l buf =>
      dsimp only at h
      cases hd : directive l with
      | some p => rw [hd] at h; exact ih h (held_dir env o st _ _ H)
      | none => rw [hd] at h; exact hpass h

/-- **C117.** The assertion of the tool never fails. -/
theorem assertion_holds (env : Env) (o : Opts) (n : Nat) (inp : List Line) : run env o n inp ≠ .error .assertion :=
  fun h => loop_error h (fun hn => absurd rfl hn) rfl

/-- The result from some number of steps on. -/
def Ends (env : Env) (o : Opts) (st : St) (buf inp : List Line) (lock : Prop) : Prop :=
  ∃ n r, (∀ m, n ≤ m → loop env o m st buf inp = r) ∧ ((∃ q, r = .ok q) ∨ (r = .error .noNumber ∧ lock))

theorem ends_pass {env : Env} {o : Opts} {st : St} {l : Line} {buf inp : List Line} {lock : Prop} (H : Held o st) (hd : directive l = none)
    (hl : ∀ b, st.lock = some (.other b) → lock)
    (ih : ∀ s r, passes o st l = .ok (s, r) → Ends env o s buf inp lock) :
    Ends env o st (l :: buf) inp lock ∧ (buf = [] → Ends env o st [] (l :: inp) lock) := by
  cases hp : passes o st l with
  | error e =>
    rcases passes_err hp with ⟨rfl, b, hb⟩ | ⟨-, ha, ht, hn⟩
    · have hk := hl b hb
      refine ⟨⟨1, .error .noNumber, fun m hm => ?_, Or.inr ⟨rfl, hk⟩⟩, fun _ => ⟨1, .error .noNumber, fun m hm => ?_, Or.inr ⟨rfl, hk⟩⟩⟩
      all_goals
        obtain ⟨m, rfl⟩ : ∃ k, m = k + 1 := ⟨m - 1, by omega⟩
        simp [loop, hd, hp]
    · rw [(H hn).2] at ht; cases ht
  | ok q =>
    obtain ⟨s, r⟩ := q
    obtain ⟨n, res, hn, hr⟩ := ih s r hp
    cases r with
    | none =>
      refine ⟨⟨n + 1, res, fun m hm => ?_, hr⟩, fun hb => ⟨n + 1, res, fun m hm => ?_, hr⟩⟩
      · obtain ⟨m, rfl⟩ : ∃ k, m = k + 1 := ⟨m - 1, by omega⟩
        simp [loop, hd, hp, hn m (by omega)]
      · obtain ⟨m, rfl⟩ : ∃ k, m = k + 1 := ⟨m - 1, by omega⟩
        subst hb
        simp [loop, hd, hp, hn m (by omega)]
    | some w =>
      have : ∃ res', (match res with
          | .error e => (.error e : Except Stop (List Line × St))
          | .ok (out, st) => .ok (w :: out, st)) = res' ∧ ((∃ q, res' = .ok q) ∨ (res' = .error .noNumber ∧ lock)) := by
        rcases hr with ⟨q, rfl⟩ | ⟨rfl, hk⟩
        · exact ⟨_, rfl, Or.inl ⟨_, rfl⟩⟩
        · exact ⟨_, rfl, Or.inr ⟨rfl, hk⟩⟩
      obtain ⟨res', he, hr'⟩ := this
      refine ⟨⟨n + 1, res', fun m hm => ?_, hr'⟩, fun hb => ⟨n + 1, res', fun m hm => ?_, hr'⟩⟩
      · obtain ⟨m, rfl⟩ : ∃ k, m = k + 1 := ⟨m - 1, by omega⟩
        simp only [loop, hd, hp, hn m (by omega), ← he]
        cases res <;> rfl
      · obtain ⟨m, rfl⟩ : ∃ k, m = k + 1 := ⟨m - 1, by omega⟩
        subst hb
        simp only [loop, hd, hp, hn m (by omega), ← he]
        cases res <;> rfl

theorem ends_all {env : Env} (hw : Wraps env.wrap) {o : Opts} {lock : Prop} (inp : List Line)
    (hlk : ∀ l ∈ inp, ∀ v b, Directive l "lock_indent".toList v → env.eval v = some (.other b) → lock)
    (st : St) (buf : List Line) (hi : Inv o st buf inp) (hl : ∀ b, st.lock = some (.other b) → lock) : Ends env o st buf inp lock := by
  induction inp generalizing st buf with
  | nil =>
    induction buf generalizing st with
    | nil =>
      refine ⟨1, .ok ([], st), fun m hm => ?_, Or.inl ⟨_, rfl⟩⟩
      obtain ⟨m, rfl⟩ : ∃ k, m = k + 1 := ⟨m - 1, by omega⟩
      simp [loop]
    | cons l buf ih =>
      refine (ends_pass hi.held hi.buf hl fun s r hp => ?_).1
      cases r with
      | none => exact ih s (inv_bdrop hi hp) (by rw [(passes_fields hp).2.1]; exact hl)
      | some w => exact ih s (inv_bout hi hp) (by rw [(passes_fields hp).2.1]; exact hl)
  | cons x inp ih =>
    have ih := ih (fun l h => hlk l (by simp [h]))
    induction buf generalizing st with
    | nil =>
      cases hd : directive x with
      | none =>
        refine (ends_pass (buf := []) hi.held hd hl fun s r hp => ?_).2 rfl
        cases r with
        | none => exact ih s [] (inv_idrop hd hi hp) (by rw [(passes_fields hp).2.1]; exact hl)
        | some w => exact ih s [] (inv_iout hd hi hp) (by rw [(passes_fields hp).2.1]; exact hl)
      | some p =>
        obtain ⟨k, v⟩ := p
        obtain ⟨n, r, hn, hr⟩ := ih _ _ (inv_idir hw hd hi) (by
          rw [(notify_props env o _).2.1]
          intro b hb
          rcases setProp_lock env st k v with h | ⟨rfl, y, hy, h⟩
          · exact hl b (h ▸ hb)
          · rw [h] at hb
            cases hb
            exact hlk x (by simp) v b (directive_to hd) hy)
        refine ⟨n + 1, r, fun m hm => ?_, hr⟩
        obtain ⟨m, rfl⟩ : ∃ k, m = k + 1 := ⟨m - 1, by omega⟩
        simp [loop, hd, hn m (by omega)]
    | cons l buf ihb =>
      refine (ends_pass hi.held hi.buf hl fun s r hp => ?_).1
      cases r with
      | none => exact ihb s (inv_bdrop hi hp) (by rw [(passes_fields hp).2.1]; exact hl)
      | some w => exact ihb s (inv_bout hi hp) (by rw [(passes_fields hp).2.1]; exact hl)

/-- **C117.** The tool comes to an end on every file, and it fails only if a directive gives an indentation that is
no number. -/
theorem comes_to_an_end (env : Env) (hw : Wraps env.wrap) (o : Opts) (inp : List Line) (hh : NoneHidden inp) :
    ∃ n r, (∀ m, n ≤ m → run env o m inp = r) ∧ ((∃ out st, r = .ok (out, st)) ∨ (r = .error .noNumber ∧
      ∃ l ∈ inp, ∃ v b, Directive l "lock_indent".toList v ∧ env.eval v = some (.other b))) := by
  obtain ⟨n, r, hn, hr⟩ := ends_all hw (lock := ∃ l ∈ inp, ∃ v b, Directive l "lock_indent".toList v ∧ env.eval v = some (.other b))
    inp (fun l hl v b h1 h2 => ⟨l, hl, v, b, h1, h2⟩) {} [] (inv_start o hh) (by simp)
  refine ⟨n, r, hn, ?_⟩
  rcases hr with ⟨q, h⟩ | h
  · exact Or.inl ⟨q.1, q.2, h⟩
  · exact Or.inr h

end Verif.Tpp
