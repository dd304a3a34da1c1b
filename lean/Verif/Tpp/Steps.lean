import Verif.Tpp.Runs

/-! The loop as a relation, and its invariants. -/

namespace Verif.Tpp

open Spec

/-- The runs of the loop. -/
inductive Run (env : Env) (o : Opts) : St → List Line → List Line → List Line → St → Prop
  | done (st) : Run env o st [] [] [] st
  | bdir {st l buf inp k v out s'} : directive l = some (k, v) →
      Run env o (notify env o (setProp env st k v)).1 (buf ++ (notify env o (setProp env st k v)).2) inp out s' →
      Run env o st (l :: buf) inp out s'
  | bdrop {st l buf inp s out s'} : directive l = none → passes o st l = .ok (s, none) →
      Run env o s buf inp out s' → Run env o st (l :: buf) inp out s'
  | bout {st l buf inp s w out s'} : directive l = none → passes o st l = .ok (s, some w) →
      Run env o s buf inp out s' → Run env o st (l :: buf) inp (w :: out) s'
  | idir {st l inp k v out s'} : directive l = some (k, v) →
      Run env o (notify env o (setProp env st k v)).1 (notify env o (setProp env st k v)).2 inp out s' →
      Run env o st [] (l :: inp) out s'
  | idrop {st l inp s out s'} : directive l = none → passes o st l = .ok (s, none) →
      Run env o s [] inp out s' → Run env o st [] (l :: inp) out s'
  | iout {st l inp s w out s'} : directive l = none → passes o st l = .ok (s, some w) →
      Run env o s [] inp out s' → Run env o st [] (l :: inp) (w :: out) s'

theorem loop_run {env : Env} {o : Opts} {n : Nat} {st : St} {buf inp out : List Line} {s' : St}
    (h : loop env o n st buf inp = .ok (out, s')) : Run env o st buf inp out s' := by
  induction n generalizing st buf inp out s' with
  | zero => cases h
  | succ n ih =>
    unfold loop at h
    cases buf with
    | nil =>
      cases inp with
      | nil => cases h; exact .done _
      | cons l inp =>
        dsimp only at h
        cases hd : directive l with
        | some p =>
          obtain ⟨k, v⟩ := p
          rw [hd] at h
          exact .idir hd (ih h)
        | none =>
          rw [hd] at h
          dsimp only at h
          cases hp : passes o st l with
          | error e => rw [hp] at h; cases h
          | ok r =>
            obtain ⟨s, r⟩ := r
            rw [hp] at h
            cases r with
            | none => exact .idrop hd hp (ih h)
            | some w =>
              dsimp only at h
              cases hr : loop env o n s [] inp with
              | error e => rw [hr] at h; cases h
              | ok q =>
                obtain ⟨out', s2⟩ := q
                rw [hr] at h
                cases h
                exact .iout hd hp (ih hr)
    | cons l buf =>
      dsimp only at h
      cases hd : directive l with
      | some p =>
        obtain ⟨k, v⟩ := p
        rw [hd] at h
        exact .bdir hd (ih h)
      | none =>
        rw [hd] at h
        dsimp only at h
        cases hp : passes o st l with
        | error e => rw [hp] at h; cases h
        | ok r =>
          obtain ⟨s, r⟩ := r
          rw [hp] at h
          cases r with
          | none => exact .bdrop hd hp (ih h)
          | some w =>
            dsimp only at h
            cases hr : loop env o n s buf inp with
            | error e => rw [hr] at h; cases h
            | ok q =>
              obtain ⟨out', s2⟩ := q
              rw [hr] at h
              cases h
              exact .bout hd hp (ih hr)

/-- What the chain of passes does, in one piece. -/
theorem passes_ok {o : Opts} {st s : St} {l : Line} {r : Option Line} (h : passes o st l = .ok (s, r)) :
    (Blank l ∧ s = st ∧ r = none ∧ ((o.dropLeading = true ∧ st.initial = true) ∨ (o.condense = true ∧ truthy st.condense = true))) ∨
    ∃ m, locked o st (l1 o l) = .ok m ∧ tail o (ini o st l) m = .ok (s, r) ∧
      (Blank l → ¬ (o.dropLeading = true ∧ st.initial = true) ∧ ¬ (o.condense = true ∧ truthy st.condense = true)) := by
  rw [passes_eq] at h
  split at h
  next hc =>
    cases h
    exact Or.inl ⟨(strip_nil l).1 hc.1, rfl, rfl, hc.2⟩
  next hc =>
    right
    cases hl : locked o st (l1 o l) with
    | error e => rw [hl] at h; cases h
    | ok m =>
      rw [hl] at h
      refine ⟨m, rfl, h, fun hb => ?_⟩
      have := (strip_nil l).2 hb
      tauto

theorem passes_err {o : Opts} {st : St} {l : Line} {e : Stop} (h : passes o st l = .error e) :
    (e = .noNumber ∧ ∃ b, st.lock = some (.other b)) ∨
    (e = .assertion ∧ o.accumulate = true ∧ truthy st.acc = false ∧ st.accumulated ≠ none) := by
  have hi : (ini o st l).acc = st.acc ∧ (ini o st l).accumulated = st.accumulated := by
    unfold ini; split_ifs <;> exact ⟨rfl, rfl⟩
  rw [passes_eq] at h
  split at h
  · cases h
  · cases hl : locked o st (l1 o l) with
    | error e' =>
      rw [hl] at h; cases h
      exact Or.inl ⟨(locked_error hl).1, (locked_error hl).2.2⟩
    | ok m =>
      rw [hl] at h
      have := tail_error h
      rw [hi.1, hi.2] at this
      exact Or.inr this

/-- The passes leave the properties alone. -/
theorem ini_fields (o : Opts) (st : St) (l : Line) :
    (ini o st l).condense = st.condense ∧ (ini o st l).lock = st.lock ∧ (ini o st l).acc = st.acc ∧
    (ini o st l).accumulated = st.accumulated ∧ (ini o st l).lastempty = st.lastempty := by
  unfold ini; split_ifs <;> exact ⟨rfl, rfl, rfl, rfl, rfl⟩

theorem out_fields {o : Opts} {st s : St} {x : Line} {r : Option Line}
    (h : (s, r) = if o.duplicates then removeDuplicates st x else (st, some x)) :
    (∃ b, s = { st with lastempty := b }) ∧ (r = some x ∨ (r = none ∧ Blank x)) := by
  split_ifs at h with hd
  · have := removeDuplicates_ok st x
    rw [← h] at this
    exact this
  · cases h
    exact ⟨⟨st.lastempty, rfl⟩, Or.inl rfl⟩

theorem passes_fields {o : Opts} {st s : St} {l : Line} {r : Option Line} (h : passes o st l = .ok (s, r)) :
    s.condense = st.condense ∧ s.lock = st.lock ∧ s.acc = st.acc := by
  have hi := ini_fields o st l
  rcases passes_ok h with ⟨-, rfl, -, -⟩ | ⟨m, -, ht, -⟩
  · exact ⟨rfl, rfl, rfl⟩
  · rcases tail_ok ht with ⟨-, -, -, hc⟩ | ⟨-, hr⟩
    · rcases hc with ⟨-, -, rfl⟩ | ⟨-, -, rfl⟩ | ⟨a, -, rfl⟩ <;> exact ⟨hi.1, hi.2.1, hi.2.2.1⟩
    · obtain ⟨⟨b, rfl⟩, -⟩ := out_fields hr
      exact ⟨hi.1, hi.2.1, hi.2.2.1⟩

/-- What is kept back. -/
def held (st : St) : List Char := st.accumulated.getD []

/-- A line that is written has the visible characters of the line read, and nothing is kept back. -/
theorem passes_out {o : Opts} {st s : St} {l w : Line} (h : passes o st l = .ok (s, some w)) :
    s.accumulated = st.accumulated ∧ (o.accumulate = true → truthy st.acc = false ∧ st.accumulated = none) ∧
    ∃ m, locked o st (l1 o l) = .ok m ∧ w = compress o m := by
  have hi := ini_fields o st l
  rcases passes_ok h with ⟨-, -, hr, -⟩ | ⟨m, hm, ht, -⟩
  · cases hr
  · rcases tail_ok ht with ⟨-, -, hr, -⟩ | ⟨ha, hr⟩
    · cases hr
    · obtain ⟨⟨b, rfl⟩, hw⟩ := out_fields hr
      rw [hi.2.2.1, hi.2.2.2.1] at ha
      refine ⟨hi.2.2.2.1, ha, m, hm, ?_⟩
      rcases hw with hw | ⟨hw, -⟩
      · cases hw; rfl
      · cases hw

theorem passes_out_ink {o : Opts} {st s : St} {l w : Line} (h : passes o st l = .ok (s, some w)) : ink w = ink l := by
  obtain ⟨-, -, m, hm, rfl⟩ := passes_out h
  rw [ink_compress, ink_locked hm, ink_l1]

/-- A line that is not written is blank, or it is kept back. -/
theorem passes_drop {o : Opts} {st s : St} {l : Line} (h : passes o st l = .ok (s, none)) :
    (Blank l ∧ s.accumulated = st.accumulated) ∨
    (o.accumulate = true ∧ truthy st.acc = true ∧ ∃ m, locked o st (l1 o l) = .ok m ∧
      ((st.accumulated = none ∧ ¬ Blank l ∧ s.accumulated = some (m ++ [' '])) ∨
        ∃ a, st.accumulated = some a ∧ s.accumulated = some (a ++ (strip m ++ [' '])))) := by
  have hi := ini_fields o st l
  rcases passes_ok h with ⟨hb, rfl, -, -⟩ | ⟨m, hm, ht, -⟩
  · exact Or.inl ⟨hb, rfl⟩
  · have hbm : Blank m ↔ Blank l := by rw [blank_iff_ink, blank_iff_ink, ink_locked hm, ink_l1]
    rcases tail_ok ht with ⟨ha, hacc, -, hc⟩ | ⟨ha, hr⟩
    · rw [hi.2.2.1] at hacc
      rw [hi.2.2.2.1] at hc
      rcases hc with ⟨h1, h2, rfl⟩ | ⟨h1, h2, rfl⟩ | ⟨a, h1, rfl⟩
      · exact Or.inl ⟨hbm.1 h2, hi.2.2.2.1⟩
      · exact Or.inr ⟨ha, hacc, m, hm, Or.inl ⟨h1, fun hx => h2 (hbm.2 hx), rfl⟩⟩
      · exact Or.inr ⟨ha, hacc, m, hm, Or.inr ⟨a, h1, rfl⟩⟩
    · obtain ⟨⟨b, rfl⟩, hw⟩ := out_fields hr
      rcases hw with hw | ⟨-, hw⟩
      · cases hw
      · refine Or.inl ⟨?_, hi.2.2.2.1⟩
        rw [← hbm, blank_iff_ink, ← ink_compress o, ← blank_iff_ink]
        exact hw

theorem passes_drop_ink {o : Opts} {st s : St} {l : Line} (h : passes o st l = .ok (s, none)) :
    ink (held s) = ink (held st) ++ ink l := by
  rcases passes_drop h with ⟨hb, hs⟩ | ⟨-, -, m, hm, hc⟩
  · rw [held, hs, (blank_iff_ink l).1 hb, List.append_nil]; rfl
  · have him : ink m = ink l := by rw [ink_locked hm, ink_l1]
    rcases hc with ⟨h1, -, h2⟩ | ⟨a, h1, h2⟩
    · simp [held, h1, h2, ink_append, him, ink_cons_space _ space_space, ink_nil]
    · simp [held, h1, h2, ink_append, ink_strip, him, ink_cons_space _ space_space, ink_nil]

/-- Text is kept back only while the property is on. -/
def Held (o : Opts) (st : St) : Prop := st.accumulated ≠ none → o.accumulate = true ∧ truthy st.acc = true

theorem held_passes {o : Opts} {st s : St} {l : Line} {r : Option Line} (h : passes o st l = .ok (s, r)) (H : Held o st) : Held o s := by
  intro hn
  have hf := (passes_fields h).2.2
  cases r with
  | none =>
    rcases passes_drop h with ⟨-, hs⟩ | ⟨ha, ht, -⟩
    · rw [hf]; exact H (hs ▸ hn)
    · rw [hf]; exact ⟨ha, ht⟩
  | some w =>
    rw [hf]
    exact H ((passes_out h).1 ▸ hn)

theorem setProp_fields (env : Env) (st : St) (k v : List Char) :
    (setProp env st k v).accumulated = st.accumulated ∧ (setProp env st k v).lastempty = st.lastempty ∧
    (setProp env st k v).initial = st.initial := by
  unfold setProp
  split
  · exact ⟨rfl, rfl, rfl⟩
  · split_ifs <;> exact ⟨rfl, rfl, rfl⟩

theorem notify_cases (env : Env) (o : Opts) (st : St) (H : st.accumulated ≠ none → o.accumulate = true) :
    (notify env o st = (st, []) ∧ Held o st) ∨
    ∃ a, st.accumulated = some a ∧ truthy st.acc = false ∧
      notify env o st = ({ st with accumulated := none }, env.wrap (rstrip a) ((rstrip a).length - (lstrip (rstrip a)).length + 2)) := by
  unfold notify
  cases ha : o.accumulate with
  | false =>
    left
    refine ⟨by simp, fun hn => ?_⟩
    rw [H hn] at ha; cases ha
  | true =>
    cases hacc : st.accumulated with
    | none => left; exact ⟨by simp, fun hn => absurd hacc hn⟩
    | some a =>
      cases ht : truthy st.acc with
      | true => left; exact ⟨by simp, fun _ => ⟨ha, ht⟩⟩
      | false => right; exact ⟨a, rfl, rfl, by simp⟩

theorem held_dir (env : Env) (o : Opts) (st : St) (k v : List Char) (H : Held o st) : Held o (notify env o (setProp env st k v)).1 := by
  have hs := setProp_fields env st k v
  rcases notify_cases env o (setProp env st k v) (fun hn => (H (hs.1 ▸ hn)).1) with ⟨h, hh⟩ | ⟨a, -, -, h⟩
  · rw [h]; exact hh
  · rw [h]; intro hn; exact absurd rfl hn

/-! Plain lines. -/

theorem plain_nil : plain [] = [] := by simp [plain]

theorem plain_cons_dir {l : Line} {k v : List Char} (h : directive l = some (k, v)) (ls : List Line) : plain (l :: ls) = plain ls := by
  have : ∃ k v, Directive l k v := ⟨k, v, directive_to h⟩
  simp [plain, this]

theorem plain_cons {l : Line} (h : directive l = none) (ls : List Line) : plain (l :: ls) = l :: plain ls := by
  have : ¬ ∃ k v, Directive l k v := (directive_none l).1 h
  simp only [plain, List.filter_cons]
  rw [if_pos (by simpa using this)]

theorem directive_ink {l : Line} {k v : List Char} (h : directive l = some (k, v)) : ∃ b, ink l = "(**TPP:".toList ++ b := by
  obtain ⟨s0, s1, s2, s3, s4, s5, h0, h1, h2, h3, h4, h5, -, -, -, -, rfl⟩ := directive_to h
  have e1 : ink "(**".toList = ['(', '*', '*'] := by decide
  have e2 : ink "TPP:".toList = ['T', 'P', 'P', ':'] := by decide
  simp only [List.append_assoc, ink_append, (blank_iff_ink _).1 h0, (blank_iff_ink _).1 h1, e1, e2]
  exact ⟨_, rfl⟩

/-- What is still to be written, visible characters only. -/
noncomputable def todo (st : St) (buf inp : List Line) : List Char := ink (held st) ++ ink (text buf) ++ ink (text (plain inp))

/-- The invariant of the loop. -/
structure Inv (o : Opts) (st : St) (buf inp : List Line) : Prop where
  held : Held o st
  free : buf ≠ [] → ¬ (o.accumulate = true ∧ truthy st.acc = true)
  hidden : ¬ ∃ a b, todo st buf inp = a ++ "(**TPP:".toList ++ b

theorem Inv.empty {o : Opts} {st : St} {buf inp : List Line} (h : Inv o st buf inp) (hb : buf ≠ []) : st.accumulated = none := by
  by_contra hn
  exact h.free hb (h.held hn)

theorem Inv.buf {o : Opts} {st : St} {l : Line} {buf inp : List Line} (h : Inv o st (l :: buf) inp) : directive l = none := by
  cases hd : directive l with
  | none => rfl
  | some p =>
    obtain ⟨k, v⟩ := p
    obtain ⟨b, hb⟩ := directive_ink hd
    refine absurd ?_ h.hidden
    unfold todo
    rw [ink_text_cons, hb]
    exact ⟨ink (Verif.Tpp.held st), b ++ ink (text buf) ++ ink (text (plain inp)), by simp [List.append_assoc]⟩

theorem hidden_mono {a b c : List Char} {p : List Char} (h : ¬ ∃ x y, a ++ b ++ c = x ++ p ++ y) : ¬ ∃ x y, b = x ++ p ++ y := by
  rintro ⟨x, y, rfl⟩
  exact h ⟨a ++ x, y ++ c, by simp [List.append_assoc]⟩

theorem todo_bdrop {o : Opts} {st s : St} {l : Line} {buf inp : List Line} (hi : Inv o st (l :: buf) inp)
    (h : passes o st l = .ok (s, none)) : todo st (l :: buf) inp = todo s buf inp ∧ Blank l := by
  have he := hi.empty (by simp)
  have hb : Blank l := by
    rcases passes_drop h with ⟨hb, -⟩ | ⟨ha, ht, -⟩
    · exact hb
    · exact absurd ⟨ha, ht⟩ (hi.free (by simp))
  refine ⟨?_, hb⟩
  unfold todo
  rw [passes_drop_ink h, ink_text_cons, (blank_iff_ink l).1 hb]
  simp

theorem inv_bdrop {o : Opts} {st s : St} {l : Line} {buf inp : List Line} (hi : Inv o st (l :: buf) inp)
    (h : passes o st l = .ok (s, none)) : Inv o s buf inp := by
  refine ⟨held_passes h hi.held, fun _ => ?_, ?_⟩
  · rw [(passes_fields h).2.2]; exact hi.free (by simp)
  · rw [← (todo_bdrop hi h).1]; exact hi.hidden

theorem todo_bout {o : Opts} {st s : St} {l w : Line} {buf inp : List Line} (hi : Inv o st (l :: buf) inp)
    (h : passes o st l = .ok (s, some w)) : todo st (l :: buf) inp = ink w ++ todo s buf inp := by
  have he := hi.empty (by simp)
  have hs := (passes_out h).1
  unfold todo
  rw [passes_out_ink h, ink_text_cons, held, held, hs, he]
  simp [ink_nil]

theorem inv_bout {o : Opts} {st s : St} {l w : Line} {buf inp : List Line} (hi : Inv o st (l :: buf) inp)
    (h : passes o st l = .ok (s, some w)) : Inv o s buf inp := by
  refine ⟨held_passes h hi.held, fun _ => ?_, ?_⟩
  · rw [(passes_fields h).2.2]; exact hi.free (by simp)
  · have hh := hi.hidden
    rw [todo_bout hi h] at hh
    rintro ⟨a, b, he⟩
    exact hh ⟨ink w ++ a, b, by rw [he]; simp [List.append_assoc]⟩

theorem todo_idrop {o : Opts} {st s : St} {l : Line} {inp : List Line} (hd : directive l = none)
    (h : passes o st l = .ok (s, none)) : todo st [] (l :: inp) = todo s [] inp := by
  unfold todo
  rw [passes_drop_ink h, plain_cons hd, ink_text_cons]
  simp [text, ink_nil]

theorem inv_idrop {o : Opts} {st s : St} {l : Line} {inp : List Line} (hd : directive l = none) (hi : Inv o st [] (l :: inp))
    (h : passes o st l = .ok (s, none)) : Inv o s [] inp :=
  ⟨held_passes h hi.held, fun hx => absurd rfl hx, by rw [← todo_idrop hd h]; exact hi.hidden⟩

theorem out_held {o : Opts} {st s : St} {l w : Line} (H : Held o st) (h : passes o st l = .ok (s, some w)) : st.accumulated = none := by
  by_contra hn
  have h1 := H hn
  exact hn ((passes_out h).2.1 h1.1).2

theorem todo_iout {o : Opts} {st s : St} {l w : Line} {inp : List Line} (hd : directive l = none) (H : Held o st)
    (h : passes o st l = .ok (s, some w)) : todo st [] (l :: inp) = ink w ++ todo s [] inp := by
  have he := out_held H h
  have hs := (passes_out h).1
  unfold todo
  rw [passes_out_ink h, plain_cons hd, ink_text_cons, held, held, hs, he]
  simp [text, ink_nil]

theorem inv_iout {o : Opts} {st s : St} {l w : Line} {inp : List Line} (hd : directive l = none) (hi : Inv o st [] (l :: inp))
    (h : passes o st l = .ok (s, some w)) : Inv o s [] inp := by
  refine ⟨held_passes h hi.held, fun hx => absurd rfl hx, ?_⟩
  have hh := hi.hidden
  rw [todo_iout hd hi.held h] at hh
  rintro ⟨a, b, he⟩
  exact hh ⟨ink w ++ a, b, by rw [he]; simp [List.append_assoc]⟩

theorem todo_idir {env : Env} {o : Opts} {st : St} {l : Line} {inp : List Line} {k v : List Char} (hw : Wraps env.wrap)
    (hd : directive l = some (k, v)) (H : Held o st) :
    todo st [] (l :: inp) = todo (notify env o (setProp env st k v)).1 (notify env o (setProp env st k v)).2 inp := by
  have hs := setProp_fields env st k v
  have e : todo st [] (l :: inp) = ink (held st) ++ ink (text (plain inp)) := by
    unfold todo; rw [plain_cons_dir hd]; simp [text, ink_nil]
  rw [e]
  rcases notify_cases env o (setProp env st k v) (fun hn => (H (hs.1 ▸ hn)).1) with ⟨h, hh⟩ | ⟨a, h1, -, h⟩
  · rw [h]; unfold todo held; rw [hs.1]; simp [text, ink_nil]
  · rw [h]; unfold todo held; rw [← hs.1, h1]; dsimp only; rw [hw.ink, ink_rstrip]; simp [ink_nil]

theorem inv_idir {env : Env} {o : Opts} {st : St} {l : Line} {inp : List Line} {k v : List Char} (hw : Wraps env.wrap)
    (hd : directive l = some (k, v)) (hi : Inv o st [] (l :: inp)) :
    Inv o (notify env o (setProp env st k v)).1 (notify env o (setProp env st k v)).2 inp := by
  refine ⟨held_dir env o st k v hi.held, ?_, by rw [← todo_idir hw hd hi.held]; exact hi.hidden⟩
  have hs := setProp_fields env st k v
  rcases notify_cases env o (setProp env st k v) (fun hn => (hi.held (hs.1 ▸ hn)).1) with ⟨h, hh⟩ | ⟨a, h1, h2, h⟩
  · rw [h]; intro hx; exact absurd rfl hx
  · rw [h]
    rintro - ⟨-, ht⟩
    dsimp only at ht
    rw [h2] at ht; cases ht

theorem inv_start (o : Opts) {inp : List Line} (h : NoneHidden inp) : Inv o {} [] inp := by
  refine ⟨fun hn => absurd rfl hn, fun hx => absurd rfl hx, ?_⟩
  have : todo {} [] inp = ink (text (plain inp)) := by simp [todo, held, text, ink_nil]
  rw [this]; exact h

end Verif.Tpp
