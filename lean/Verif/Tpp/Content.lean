import Verif.Tpp.Steps

/-!
# Properties: the pre-processor changes only whitespace
-/

namespace Verif.Tpp

open Spec

/-! ## Nothing is lost, and nothing is made up -/

theorem content_run {env : Env} {o : Opts} (hw : Wraps env.wrap) {st s' : St} {buf inp out : List Line}
    (h : Run env o st buf inp out s') (hi : Inv o st buf inp) : todo st buf inp = ink (text out) ++ ink (held s') := by
  induction h with
  | done st => simp [todo, text, ink_nil, plain_nil]
  | bdir hd _ _ => rw [hi.buf] at hd; cases hd
  | bdrop hd hp _ ih => rw [(todo_bdrop hi hp).1, ih (inv_bdrop hi hp)]
  | bout hd hp _ ih => rw [todo_bout hi hp, ih (inv_bout hi hp), ink_text_cons, List.append_assoc]
  | idir hd _ ih => rw [todo_idir hw hd hi.held, ih (inv_idir hw hd hi)]
  | idrop hd hp _ ih => rw [todo_idrop hd hp, ih (inv_idrop hd hi hp)]
  | iout hd hp _ ih => rw [todo_iout hd hi.held hp, ih (inv_iout hd hi hp), ink_text_cons, List.append_assoc]

theorem todo_start (inp : List Line) : todo {} [] inp = ink (text (plain inp)) := by simp [todo, held, text, ink_nil]

/-- **C117.** What is written has exactly the visible characters of the lines that are no directives, in their order,
if no text is kept back at the end of the file. Missing: text that is still kept back (`unfinished_lost`), and
directives hidden in text (`hidden_directive`). -/
theorem content_kept_partial (env : Env) (hw : Wraps env.wrap) (o : Opts) (n : Nat) (inp out : List Line) (st : St)
    (hh : NoneHidden inp) (h : run env o n inp = .ok (out, st)) (he : st.accumulated = none) :
    ink (text out) = ink (text (plain inp)) := by
  have := content_run hw (loop_run h) (inv_start o hh)
  rw [todo_start] at this
  rw [this, held, he]
  simp [ink_nil]

/-! ## Words stay whole and separate -/

/-- The indentation of a line. -/
def lead (l : List Char) : Nat := (l.takeWhile isSpace).length

theorem lead_eq (l : List Char) : l.length - (lstrip l).length = lead l := by
  have := congrArg List.length (List.takeWhile_append_dropWhile (p := isSpace) (l := l))
  rw [List.length_append] at this
  unfold lead lstrip
  omega

theorem lead_le (x s : List Char) : lead x ≤ lead (x ++ s) := by
  unfold lead
  induction x with
  | nil => simp
  | cons a x ih =>
    by_cases h : isSpace a = true
    · simp [h]; exact ih
    · simp [h]

theorem lead_nonblank {x : List Char} (h : ¬ Blank x) (s : List Char) : lead (x ++ s) = lead x := by
  unfold lead
  induction x with
  | nil => exact absurd (by simp [Blank]) h
  | cons a x ih =>
    by_cases ha : isSpace a = true
    · have : ¬ Blank x := by
        intro hb
        apply h
        intro c hc
        rcases List.mem_cons.1 hc with rfl | hc
        · exact (space_iff _).1 ha
        · exact hb c hc
      have := ih this
      simpa [List.takeWhile_cons, ha] using this
    · simp [ha]

theorem lead_rstrip (l : List Char) : lead (rstrip l) ≤ lead l := by
  obtain ⟨s, -, hl, -⟩ := rstrip_split l
  conv_rhs => rw [hl]
  exact lead_le _ _

theorem takeWhile_blank (l : List Char) : Blank (l.takeWhile isSpace) := fun c hc =>
  (space_iff c).1 (List.mem_takeWhile_imp hc)

theorem lead_replicate (n : Nat) (l : List Char) : lead (List.replicate n ' ' ++ lstrip l) = n := by
  obtain ⟨s, hs, hl, hh⟩ := lstrip_split l
  rw [← lead_eq, lstrip_eq (replicate_blank n) hh, List.length_append, List.length_replicate]
  omega

/-- What is kept back is narrow. -/
structure Slim (st : St) (w i : Nat) : Prop where
  text : ∀ a, st.accumulated = some a → ¬ Blank a ∧ (∀ x ∈ runs (fun c => ¬ Space c) a, x.length ≤ w) ∧ lead a ≤ i
  lock : ∀ n, st.lock = some (.int n) → n ≤ i
  last : ∀ a, st.accumulated = some a → ∃ b, a = b ++ [' ']

theorem runs_more {P : Char → Prop} [DecidablePred P] (hP : ∀ c, P c → ¬ Space c) {o : Opts} {st s : St} {l : Line}
    (hl : ∀ a, st.accumulated = some a → ∃ b, a = b ++ [' ']) (h : passes o st l = .ok (s, none)) :
    runs P (held s) = runs P (held st) ++ runs P l ∧ (∀ a, s.accumulated = some a → ∃ b, a = b ++ [' ']) := by
  have hsp : ¬ P ' ' := fun h => hP _ h space_space
  rcases passes_drop h with ⟨hb, he⟩ | ⟨-, -, m, hm, hc⟩
  · rw [held, held, he, runs_nil_of (s := l) (fun c hc hp => hP c hp (hb c hc)), List.append_nil]
    exact ⟨rfl, hl⟩
  · have hr : runs P m = runs P l := by
      rw [runs_locked hP hm]
      unfold l1
      split_ifs
      · exact runs_rstrip hP l
      · rfl
    rcases hc with ⟨h1, hb, h2⟩ | ⟨a, h1, h2⟩
    · rw [held, held, h1, h2]
      simp only [Option.getD_some, Option.getD_none]
      refine ⟨?_, by rintro a ⟨⟩; exact ⟨_, rfl⟩⟩
      rw [runs_sep hsp, hr]
      simp [runs]
    · rw [held, held, h1, h2]
      obtain ⟨b, rfl⟩ := hl a h1
      simp only [Option.getD_some]
      refine ⟨?_, by rintro a ⟨⟩; exact ⟨b ++ [' '] ++ strip m, by simp⟩⟩
      have e : b ++ [' '] ++ (strip m ++ [' ']) = b ++ ' ' :: (strip m ++ ' ' :: []) := by simp
      rw [e, runs_sep hsp, runs_sep hsp, runs_sep hsp, runs_strip hP, hr]
      simp [runs]

theorem narrow_tail {eval : List Char → Option Val} {l : Line} {inp : List Line} {w i : Nat} (h : Narrow eval (l :: inp) w i) :
    Narrow eval inp w i :=
  ⟨h.pos, h.width, fun x hx => h.words x (by simp [hx]), fun x hx => h.indents x (by simp [hx]), fun x hx => h.locks x (by simp [hx])⟩

theorem narrow_lead {eval : List Char → Option Val} {l : Line} {inp : List Line} {w i : Nat} (h : Narrow eval (l :: inp) w i)
    (hb : ¬ Blank l) : lead l ≤ i := by
  have := h.indents l (by simp) _ _ (List.takeWhile_append_dropWhile (p := isSpace) (l := l)).symm (takeWhile_blank l)
  rcases this with h1 | h1
  · exact h1
  · exfalso
    apply hb
    rw [← List.takeWhile_append_dropWhile (p := isSpace) (l := l), blank_append]
    exact ⟨takeWhile_blank l, h1⟩

theorem locked_lead {o : Opts} {st : St} {l m : Line} {i : Nat} (h : locked o st (l1 o l) = .ok m)
    (hl : lead l ≤ i) (hn : ∀ n, st.lock = some (.int n) → n ≤ i) (h1 : 1 ≤ i) : lead m ≤ i := by
  rcases locked_ok h with rfl | ⟨-, -, n, rfl, hc⟩
  · unfold l1
    split_ifs
    · exact le_trans (lead_rstrip l) hl
    · exact hl
  · rw [lead_replicate]
    rcases hc with ⟨b, -, rfl⟩ | ⟨j, hj, rfl⟩
    · cases b <;> (simp; try omega)
    · have := hn j hj; omega

theorem slim_passes {o : Opts} {eval : List Char → Option Val} {st s : St} {l : Line} {inp : List Line} {r : Option Line} {w i : Nat}
    (h : passes o st l = .ok (s, r)) (hn : Narrow eval (l :: inp) w i) (hs : Slim st w i) : Slim s w i := by
  have hNS : ∀ c, (fun c => ¬ Space c) c → ¬ Space c := fun _ h => h
  cases r with
  | some x =>
    have e := (passes_out h).1
    refine ⟨by rw [e]; exact hs.text, by rw [(passes_fields h).2.1]; exact hs.lock, by rw [e]; exact hs.last⟩
  | none =>
    obtain ⟨e1, e2⟩ := runs_more hNS hs.last h
    refine ⟨?_, by rw [(passes_fields h).2.1]; exact hs.lock, e2⟩
    rcases passes_drop h with ⟨-, he⟩ | ⟨-, -, m, hm, hc⟩
    · rw [he]; exact hs.text
    · rcases hc with ⟨h1, hb, h2⟩ | ⟨a, h1, h2⟩
      · rw [held, held, h1, h2] at e1
        simp only [Option.getD_some, Option.getD_none, runs, List.nil_append] at e1
        rw [h2]
        rintro a ⟨⟩
        have hbm : ¬ Blank m := by rw [blank_iff_ink, ink_locked hm, ink_l1, ← blank_iff_ink]; exact hb
        refine ⟨?_, ?_, ?_⟩
        · rw [blank_append]; exact fun hx => hbm hx.1
        · rw [e1]; exact hn.words l (by simp)
        · rw [lead_nonblank hbm]
          exact locked_lead hm (narrow_lead hn hb) hs.lock hn.pos
      · rw [held, held, h1, h2] at e1
        simp only [Option.getD_some] at e1
        rw [h2]
        rintro b ⟨⟩
        obtain ⟨k1, k2, k3⟩ := hs.text a h1
        refine ⟨?_, ?_, ?_⟩
        · rw [blank_append]; exact fun hx => k1 hx.1
        · rw [e1]
          intro x hx
          rcases List.mem_append.1 hx with hx | hx
          · exact k2 x hx
          · exact hn.words l (by simp) x hx
        · rw [lead_nonblank k1]; exact k3

theorem setProp_lock (env : Env) (st : St) (k v : List Char) :
    (setProp env st k v).lock = st.lock ∨ (k = "lock_indent".toList ∧ ∃ x, env.eval v = some x ∧ (setProp env st k v).lock = some x) := by
  unfold setProp
  cases he : env.eval v with
  | none => exact Or.inl rfl
  | some x =>
    dsimp only
    split_ifs with h1 h2 h3
    · exact Or.inl rfl
    · exact Or.inr ⟨h2, x, rfl, rfl⟩
    · exact Or.inl rfl
    · exact Or.inl rfl

theorem notify_props (env : Env) (o : Opts) (st : St) :
    (notify env o st).1.condense = st.condense ∧ (notify env o st).1.lock = st.lock ∧ (notify env o st).1.acc = st.acc ∧
    (notify env o st).1.lastempty = st.lastempty ∧ (notify env o st).1.initial = st.initial := by
  unfold notify
  cases o.accumulate with
  | false => exact ⟨rfl, rfl, rfl, rfl, rfl⟩
  | true =>
    simp only [if_true]
    cases st.accumulated with
    | none => exact ⟨rfl, rfl, rfl, rfl, rfl⟩
    | some a => dsimp only; split_ifs <;> exact ⟨rfl, rfl, rfl, rfl, rfl⟩

theorem words_dir {P : Char → Prop} [DecidablePred P] (hP : ∀ c, P c → ¬ Space c ∧ c ≠ '-') {env : Env} (hw : Fits env.wrap) {o : Opts}
    {st : St} {l : Line} {inp : List Line} {k v : List Char} {w i : Nat}
    (hd : directive l = some (k, v)) (hn : Narrow env.eval (l :: inp) w i) (hs : Slim st w i) (H : Held o st) :
    Slim (notify env o (setProp env st k v)).1 w i ∧
    runs P (held st) = runs P (held (notify env o (setProp env st k v)).1) ++ runs P (text (notify env o (setProp env st k v)).2) := by
  have hf := setProp_fields env st k v
  have hlock : ∀ n, (setProp env st k v).lock = some (.int n) → n ≤ i := by
    intro n hn'
    rcases setProp_lock env st k v with h | ⟨rfl, x, hx, h⟩
    · exact hs.lock n (h ▸ hn')
    · rw [h] at hn'
      cases hn'
      exact hn.locks l (by simp) v n (directive_to hd) hx
  rcases notify_cases env o (setProp env st k v) (fun hx => (H (hf.1 ▸ hx)).1) with ⟨h, -⟩ | ⟨a, h1, -, h⟩
  · rw [h]
    refine ⟨⟨by rw [hf.1]; exact hs.text, hlock, by rw [hf.1]; exact hs.last⟩, ?_⟩
    rw [held, held, hf.1]
    simp [text, runs]
  · rw [h]
    refine ⟨⟨by rintro a ⟨⟩, hlock, by rintro a ⟨⟩⟩, ?_⟩
    rw [hf.1] at h1
    obtain ⟨k1, k2, k3⟩ := hs.text a h1
    have hNS : ∀ c, (fun c => ¬ Space c) c → ¬ Space c := fun _ h => h
    dsimp only
    rw [hw (rstrip a) _ ?_ P hP, runs_rstrip (fun c hc => (hP c hc).1)]
    · simp [held, h1, runs]
    · intro x hx
      rw [runs_rstrip hNS] at hx
      have := k2 x hx
      have hl := lead_rstrip a
      rw [lead_eq]
      have := hn.width
      omega

theorem runs_out {P : Char → Prop} [DecidablePred P] (hP : ∀ c, P c → ¬ Space c) (hb : ∀ x ∈ ['(', ')', '{', '}', ','], ¬ P x)
    {o : Opts} {st s : St} {l w : Line} (h : passes o st l = .ok (s, some w)) : runs P w = runs P l := by
  obtain ⟨-, -, m, hm, rfl⟩ := passes_out h
  rw [runs_compress (fun h => hP _ h space_space) hb, runs_locked hP hm]
  unfold l1
  split_ifs
  · exact runs_rstrip hP l
  · rfl

theorem words_run {P : Char → Prop} [DecidablePred P] (hP : ∀ c, P c → ¬ Space c ∧ c ≠ '-') (hb : ∀ x ∈ ['(', ')', '{', '}', ','], ¬ P x)
    {env : Env} {o : Opts} (hw : Wraps env.wrap) (hf : Fits env.wrap) {w i : Nat} {st s' : St} {buf inp out : List Line}
    (h : Run env o st buf inp out s') (hi : Inv o st buf inp) (hn : Narrow env.eval inp w i) (hs : Slim st w i) :
    runs P (held st) ++ runs P (text buf) ++ runs P (text (plain inp)) = runs P (text out) ++ runs P (held s') := by
  have hP' : ∀ c, P c → ¬ Space c := fun c hc => (hP c hc).1
  induction h with
  | done st => simp [text, runs, plain_nil]
  | bdir hd _ _ => rw [hi.buf] at hd; cases hd
  | @bdrop st l buf inp s out s' hd hp _ ih =>
    have he := hi.empty (by simp)
    have hbl := (todo_bdrop hi hp).2
    have hs' : Slim s w i := by
      have e : s.accumulated = st.accumulated := by
        rcases passes_drop hp with ⟨-, he⟩ | ⟨ha, ht, -⟩
        · exact he
        · exact absurd ⟨ha, ht⟩ (hi.free (by simp))
      exact ⟨by rw [e]; exact hs.text, by rw [(passes_fields hp).2.1]; exact hs.lock, by rw [e]; exact hs.last⟩
    rw [← ih (inv_bdrop hi hp) hn hs', runs_text_cons hP', (runs_more hP' hs.last hp).1,
      runs_nil_of (s := l) (fun c hc hp => hP' c hp (hbl c hc))]
    simp
  | @bout st l buf inp s x out s' hd hp _ ih =>
    have he := hi.empty (by simp)
    have e := (passes_out hp).1
    have hs' : Slim s w i := ⟨by rw [e]; exact hs.text, by rw [(passes_fields hp).2.1]; exact hs.lock, by rw [e]; exact hs.last⟩
    have := ih (inv_bout hi hp) hn hs'
    rw [runs_text_cons hP', runs_text_cons hP', List.append_assoc (runs P x), ← this, runs_out hP' hb hp, held, held, e, he]
    simp [runs]
  | @idir st l inp k v out s' hd _ ih =>
    obtain ⟨h1, h2⟩ := words_dir hP hf hd hn hs hi.held
    rw [← ih (inv_idir hw hd hi) (narrow_tail hn) h1, plain_cons_dir hd, h2]
    simp [text, runs]
  | @idrop st l inp s out s' hd hp _ ih =>
    rw [← ih (inv_idrop hd hi hp) (narrow_tail hn) (slim_passes hp hn hs), plain_cons hd, runs_text_cons hP', (runs_more hP' hs.last hp).1]
    simp [text, runs]
  | @iout st l inp s x out s' hd hp _ ih =>
    have he := out_held hi.held hp
    have e := (passes_out hp).1
    have := ih (inv_iout hd hi hp) (narrow_tail hn) (slim_passes hp hn hs)
    rw [plain_cons hd, runs_text_cons hP', runs_text_cons hP', List.append_assoc (runs P x), ← this, runs_out hP' hb hp, held, held, e, he]
    simp [text, runs]

/-- **C117.** Words stay as they are: for every class of characters without whitespace, brackets, braces, commas and
hyphens, the runs of such characters in what is written are those of the lines that are no directives, if all words
fit on a line. Missing: longer words (`long_word_split`). -/
theorem words_kept_partial (env : Env) (hw : Wraps env.wrap) (hf : Fits env.wrap) (o : Opts) (n : Nat) (inp out : List Line) (st : St)
    (w i : Nat) (hn : Narrow env.eval inp w i) (hh : NoneHidden inp) (h : run env o n inp = .ok (out, st)) (he : st.accumulated = none)
    (P : Char → Prop) [DecidablePred P] (hP : ∀ c, P c → ¬ Space c ∧ c ∉ ['-', '(', ')', '{', '}', ',']) :
    runs P (text out) = runs P (text (plain inp)) := by
  have := words_run (P := P) (fun c hc => ⟨(hP c hc).1, fun hx => (hP c hc).2 (by simp [hx])⟩)
    (fun x hx hp => (hP x hp).2 (by simp only [List.mem_cons] at hx ⊢; tauto)) hw hf (loop_run h) (inv_start o hh) hn
    ⟨by rintro a ⟨⟩, by rintro n ⟨⟩, by rintro a ⟨⟩⟩
  rw [show held st = [] by simp [held, he]] at this
  simpa [held, text, runs] using this.symm

/-! ## The form of what is written -/

theorem last_append (a : List Char) {b : List Char} (h : b ≠ []) : (a ++ b).getLast? = b.getLast? := by
  rw [List.getLast?_append]
  cases hb : b.getLast? with
  | none => exact absurd (List.getLast?_eq_none_iff.1 hb) h
  | some c => rfl

theorem out_last {o : Opts} {st s : St} {l w : Line} (hr : o.rstrip = true) (h : passes o st l = .ok (s, some w)) :
    ∀ c, w.getLast? = some c → ¬ Space c := by
  obtain ⟨-, -, m, hm, rfl⟩ := passes_out h
  rw [compress_last]
  have e : l1 o l = rstrip l := by simp [l1, hr]
  obtain ⟨t, -, -, hl⟩ := rstrip_split l
  rw [e] at hm
  rcases locked_ok hm with rfl | ⟨hb, -, n, rfl, -⟩
  · exact hl
  · intro c hc
    apply hl
    obtain ⟨s1, hs1, hl1, -⟩ := lstrip_split (rstrip l)
    have hne : lstrip (rstrip l) ≠ [] := by
      intro h0
      apply hb
      rw [hl1, h0, List.append_nil]; exact hs1
    rw [hl1, last_append _ hne]
    rwa [last_append _ hne] at hc

/-- **C117.** No line that is written ends with whitespace. -/
theorem no_trailing_space (env : Env) (o : Opts) (ho : o.rstrip = true) (n : Nat) (inp out : List Line) (st : St)
    (h : run env o n inp = .ok (out, st)) : ∀ l ∈ out, ∀ c, l.getLast? = some c → ¬ Space c := by
  have key : ∀ {st s' : St} {buf inp out : List Line}, Run env o st buf inp out s' → ∀ l ∈ out, ∀ c, l.getLast? = some c → ¬ Space c := by
    intro st s' buf inp out h
    induction h with
    | done st => simp
    | bdir _ _ ih => exact ih
    | bdrop _ _ _ ih => exact ih
    | bout _ hp _ ih =>
      intro l hl
      rcases List.mem_cons.1 hl with rfl | hl
      · exact out_last ho hp
      · exact ih l hl
    | idir _ _ ih => exact ih
    | idrop _ _ _ ih => exact ih
    | iout _ hp _ ih =>
      intro l hl
      rcases List.mem_cons.1 hl with rfl | hl
      · exact out_last ho hp
      · exact ih l hl
  exact key (loop_run h)

theorem passes_last {o : Opts} {st s : St} {l : Line} {r : Option Line} (ho : o.duplicates = true) (h : passes o st l = .ok (s, r)) :
    match r with
    | none => s.lastempty = st.lastempty
    | some w => (Blank w → st.lastempty = false ∧ s.lastempty = true) ∧ (¬ Blank w → s.lastempty = false) := by
  have hi := ini_fields o st l
  rcases passes_ok h with ⟨-, rfl, rfl, -⟩ | ⟨m, hm, ht, -⟩
  · rfl
  · rcases tail_ok ht with ⟨-, -, rfl, hc⟩ | ⟨-, hr⟩
    · rcases hc with ⟨-, -, rfl⟩ | ⟨-, -, rfl⟩ | ⟨a, -, rfl⟩ <;> exact hi.2.2.2.2
    · rw [if_pos ho] at hr
      unfold removeDuplicates at hr
      by_cases hb : strip (compress o m) = []
      · rw [if_pos hb] at hr
        by_cases hl : (ini o st l).lastempty = true
        · rw [if_pos hl] at hr
          cases hr
          exact hi.2.2.2.2
        · rw [if_neg hl] at hr
          cases hr
          rw [hi.2.2.2.2] at hl
          exact ⟨fun _ => ⟨by simpa using hl, rfl⟩, fun hx => absurd ((strip_nil _).1 hb) hx⟩
      · rw [if_neg hb] at hr
        cases hr
        exact ⟨fun hx => absurd ((strip_nil _).2 hx) hb, fun _ => rfl⟩

theorem noDouble_cons {w : Line} {out : List Line} (h : NoDouble out) (h2 : Blank w → ∀ x, out.head? = some x → ¬ Blank x) :
    NoDouble (w :: out) := by
  intro a b x y he
  cases a with
  | nil =>
    simp at he
    obtain ⟨rfl, rfl⟩ := he
    rintro ⟨hx, hy⟩
    exact h2 hx y rfl hy
  | cons c a =>
    simp at he
    exact h a b x y he.2

/-- **C117.** No two lines that follow each other are blank. -/
theorem no_double_blank (env : Env) (o : Opts) (ho : o.duplicates = true) (n : Nat) (inp out : List Line) (st : St)
    (h : run env o n inp = .ok (out, st)) : NoDouble out := by
  have key : ∀ {st s' : St} {buf inp out : List Line}, Run env o st buf inp out s' →
      NoDouble out ∧ (st.lastempty = true → ∀ x, out.head? = some x → ¬ Blank x) := by
    intro st s' buf inp out h
    have hout : ∀ {s : St} {l w : Line} {st : St} {out : List Line}, passes o st l = .ok (s, some w) →
        (NoDouble out ∧ (s.lastempty = true → ∀ x, out.head? = some x → ¬ Blank x)) →
        NoDouble (w :: out) ∧ (st.lastempty = true → ∀ x, (w :: out).head? = some x → ¬ Blank x) := by
      intro s l w st out hp ih
      have hl := passes_last ho hp
      dsimp only at hl
      refine ⟨noDouble_cons ih.1 fun hb => ih.2 (hl.1 hb).2, ?_⟩
      rintro hs x hx
      simp at hx
      subst hx
      intro hb
      rw [(hl.1 hb).1] at hs
      cases hs
    have hdir : ∀ (st : St) (k v : List Char), (notify env o (setProp env st k v)).1.lastempty = st.lastempty := fun st k v => by
      rw [(notify_props env o _).2.2.2.1, (setProp_fields env st k v).2.1]
    induction h with
    | done st => exact ⟨by intro a b x y he; simp at he, by simp⟩
    | bdir hd _ ih => rw [hdir] at ih; exact ih
    | bdrop hd hp _ ih => have := passes_last ho hp; dsimp only at this; rw [this] at ih; exact ih
    | bout hd hp _ ih => exact hout hp ih
    | idir hd _ ih => rw [hdir] at ih; exact ih
    | idrop hd hp _ ih => have := passes_last ho hp; dsimp only at this; rw [this] at ih; exact ih
    | iout hd hp _ ih => exact hout hp ih
  exact (key (loop_run h)).1

theorem blank_of_ink {a b : List Char} (h : ink a = ink b) : Blank a ↔ Blank b := by rw [blank_iff_ink, blank_iff_ink, h]

theorem passes_initial {o : Opts} {st s : St} {l : Line} {r : Option Line} (ho : o.dropLeading = true) (h : passes o st l = .ok (s, r)) :
    (Blank l → s.initial = st.initial) ∧ (¬ Blank l → s.initial = false) := by
  have hi : (Blank l → (ini o st l).initial = st.initial) ∧ (¬ Blank l → (ini o st l).initial = false) := by
    unfold ini
    refine ⟨fun hb => ?_, fun hb => ?_⟩
    · rw [if_neg (fun hx => hx.2 ((strip_nil l).2 hb))]
    · rw [if_pos ⟨ho, fun hx => hb ((strip_nil l).1 hx)⟩]
  rcases passes_ok h with ⟨hb, rfl, -, -⟩ | ⟨m, hm, ht, -⟩
  · exact ⟨fun _ => rfl, fun hx => absurd hb hx⟩
  · rcases tail_ok ht with ⟨-, -, -, hc⟩ | ⟨-, hr⟩
    · rcases hc with ⟨-, -, rfl⟩ | ⟨-, -, rfl⟩ | ⟨a, -, rfl⟩ <;> exact hi
    · obtain ⟨⟨b, rfl⟩, -⟩ := out_fields hr
      exact hi

theorem passes_blank_initial {o : Opts} {st s : St} {l : Line} {r : Option Line} (ho : o.dropLeading = true) (hs : st.initial = true)
    (hb : Blank l) (h : passes o st l = .ok (s, r)) : s = st ∧ r = none := by
  rcases passes_ok h with ⟨-, rfl, rfl, -⟩ | ⟨m, hm, ht, hn⟩
  · exact ⟨rfl, rfl⟩
  · exact absurd ⟨ho, hs⟩ (hn hb).1

theorem text_ink_head {ls : List Line} (h : ∀ l ∈ ls, ¬ Blank l) (hn : ink (text ls) ≠ []) : ∃ x xs, ls = x :: xs ∧ ¬ Blank x := by
  cases ls with
  | nil => exact absurd (by simp [text, ink_nil]) hn
  | cons x xs => exact ⟨x, xs, rfl, h x (by simp)⟩

/-- The places where the first line can still come from. -/
def Fresh (st : St) (buf : List Line) : Prop :=
  (st.initial = true ∧ st.accumulated = none ∧ buf = []) ∨ (buf = [] ∧ ∃ a, st.accumulated = some a ∧ ¬ Blank a) ∨
  ∃ x xs, buf = x :: xs ∧ ¬ Blank x

/-- **C117.** The first line that is written is not blank. -/
theorem no_leading_blank (env : Env) (hw : Wraps env.wrap) (o : Opts) (ho : o.dropLeading = true) (n : Nat) (inp out : List Line)
    (st : St) (hh : NoneHidden inp) (h : run env o n inp = .ok (out, st)) : ∀ l, out.head? = some l → ¬ Blank l := by
  have key : ∀ {st s' : St} {buf inp out : List Line}, Run env o st buf inp out s' → Inv o st buf inp → Fresh st buf →
      ∀ l, out.head? = some l → ¬ Blank l := by
    intro st s' buf inp out h
    induction h with
    | done st => simp
    | bdir hd _ _ => intro hi; rw [hi.buf] at hd; cases hd
    | bdrop hd hp _ ih =>
      intro hi hf
      rcases hf with ⟨-, -, h0⟩ | ⟨h0, -⟩ | ⟨x, xs, h0, hx⟩
      · cases h0
      · cases h0
      · cases h0
        exact absurd (todo_bdrop hi hp).2 hx
    | bout hd hp _ ih =>
      intro hi hf
      rcases hf with ⟨-, -, h0⟩ | ⟨h0, -⟩ | ⟨x, xs, h0, hx⟩
      · cases h0
      · cases h0
      · cases h0
        rintro l hl
        simp at hl
        subst hl
        rw [blank_of_ink (passes_out_ink hp)]
        exact hx
    | @idir st l inp k v out s' hd _ ih =>
      intro hi hf
      apply ih (inv_idir hw hd hi)
      have hs := setProp_fields env st k v
      have hp := notify_props env o (setProp env st k v)
      rcases notify_cases env o (setProp env st k v) (fun hn => (hi.held (hs.1 ▸ hn)).1) with ⟨h, hh⟩ | ⟨a, h1, -, h⟩
      · rw [h]
        rcases hf with ⟨h1, h2, -⟩ | ⟨-, h0⟩ | ⟨x, xs, h0, -⟩
        · exact Or.inl ⟨by dsimp only; rw [hs.2.2]; exact h1, by dsimp only; rw [hs.1]; exact h2, rfl⟩
        · exact Or.inr (Or.inl ⟨rfl, by dsimp only; rw [hs.1]; exact h0⟩)
        · cases h0
      · rw [h]
        have ha : ¬ Blank a := by
          rw [hs.1] at h1
          rcases hf with ⟨-, h2, -⟩ | ⟨-, b, hb, hn⟩ | ⟨x, xs, h0, -⟩
          · rw [h1] at h2; cases h2
          · rw [h1] at hb; cases hb; exact hn
          · cases h0
        refine Or.inr (Or.inr (text_ink_head (hw.inked _ _) ?_))
        dsimp only
        rw [hw.ink, ink_rstrip]
        exact fun hx => ha ((blank_iff_ink a).2 hx)
    | @idrop st l inp s out s' hd hp _ ih =>
      intro hi hf
      apply ih (inv_idrop hd hi hp)
      rcases hf with ⟨h1, h2, -⟩ | ⟨-, a, h0, hb⟩ | ⟨x, xs, h0, -⟩
      · by_cases hb : Blank l
        · rw [(passes_blank_initial ho h1 hb hp).1]
          exact Or.inl ⟨h1, h2, rfl⟩
        · rcases passes_drop hp with ⟨hb', -⟩ | ⟨-, -, m, hm, hc⟩
          · exact absurd hb' hb
          · rcases hc with ⟨-, -, h3⟩ | ⟨a, h3, -⟩
            · refine Or.inr (Or.inl ⟨rfl, _, h3, ?_⟩)
              rw [blank_append, blank_of_ink (show ink m = ink l by rw [ink_locked hm, ink_l1])]
              exact fun hx => hb hx.1
            · rw [h2] at h3; cases h3
      · rcases passes_drop hp with ⟨-, h3⟩ | ⟨-, -, m, hm, hc⟩
        · exact Or.inr (Or.inl ⟨rfl, a, h3.trans h0, hb⟩)
        · rcases hc with ⟨h3, -⟩ | ⟨a', h3, h4⟩
          · rw [h0] at h3; cases h3
          · rw [h0] at h3
            cases h3
            refine Or.inr (Or.inl ⟨rfl, _, h4, ?_⟩)
            rw [blank_append]
            exact fun hx => hb hx.1
      · cases h0
    | @iout st l inp s w out s' hd hp _ ih =>
      intro hi hf
      rcases hf with ⟨h1, h2, -⟩ | ⟨-, a, h0, hb⟩ | ⟨x, xs, h0, -⟩
      · rintro x hx
        simp at hx
        subst hx
        rw [blank_of_ink (passes_out_ink hp)]
        intro hb
        have := (passes_blank_initial ho h1 hb hp).2
        cases this
      · rw [out_held hi.held hp] at h0; cases h0
      · cases h0
  exact key (loop_run h) (inv_start o hh) (Or.inl ⟨rfl, rfl, rfl⟩)

end Verif.Tpp
