import Verif.Deps.Spec
import Verif.Makefile.Props
import Mathlib.Data.String.Basic

/-!
# Property C113: a change that matters is noticed
-/

namespace Verif.Deps

open Imports (Path Item)
open Spec

/-! ### Files -/

theorem sameNames_isSome {fs fs' : FS} (h : SameNames fs fs') (p : Path) : (fs' p).isSome = (fs p).isSome := by
  have := (h p).1
  cases h1 : fs p <;> cases h2 : fs' p <;> simp_all

theorem sameNames_noFile {fs fs' : FS} (h : SameNames fs fs') (p : Path) (hp : ∀ b, fs p ≠ some (.file b)) :
    ∀ b, fs' p ≠ some (.file b) := by
  intro b hb
  obtain ⟨h1, h2⟩ := h p
  cases h3 : fs p with
  | none => have := h1.mp h3; rw [hb] at this; exact absurd this (by simp)
  | some v =>
    cases v with
    | file c => exact hp c h3
    | dir => have := h2.mp h3; rw [hb] at this; exact absurd this (by simp)

/-! ### Stages 0 to 2 -/

theorem readFile_stable (w : World σ β α) (hc : ∀ run, w.cpp = some run → Honest w.ws run) {fs fs' : FS} (hn : SameNames fs fs')
    {p : Path} {t : String} {deps : List Path} (h : readFile w fs p = some (t, deps)) (hp : fs' p = fs p)
    (hd : Untouched fs fs' deps) : readFile w fs' p = some (t, deps) := by
  unfold readFile at h ⊢
  cases hcpp : w.cpp with
  | none =>
    rw [hcpp] at h
    simp only at h ⊢
    rw [hp]; exact h
  | some run =>
    rw [hcpp] at h
    simp only at h ⊢
    cases hr : run fs p with
    | none => rw [hr] at h; simp at h
    | some o =>
      obtain ⟨out, rule⟩ := o
      rw [hr] at h
      simp only at h
      cases ht : w.decode out with
      | none => rw [ht] at h; simp at h
      | some t' =>
        rw [ht] at h
        simp only at h
        cases hm : Makefile.parseRule w.ws false rule with
        | error e => rw [hm] at h; simp at h
        | ok names =>
          rw [hm] at h
          simp only [Option.some.injEq, Prod.mk.injEq] at h
          obtain ⟨rfl, rfl⟩ := h
          rw [hc run hcpp fs fs' p out rule names hr hm hn hp hd]
          simp only [ht, hm]

theorem parse1_stable (w : World σ β α) (hc : ∀ run, w.cpp = some run → Honest w.ws run) {fs fs' : FS} (hn : SameNames fs fs')
    {p : Path} {items : List (Item σ)} {deps : List Path} (h : parse1 w fs p = some (items, deps)) (hp : fs' p = fs p)
    (hd : Untouched fs fs' deps) : parse1 w fs' p = some (items, deps) := by
  unfold parse1 at h ⊢
  cases hr : readFile w fs p with
  | none => rw [hr] at h; simp at h
  | some o =>
    obtain ⟨t, ds⟩ := o
    rw [hr] at h
    simp only at h
    cases hg : w.grammar t with
    | none => rw [hg] at h; simp at h
    | some is =>
      rw [hg] at h
      simp only [Option.map_some, Option.some.injEq, Prod.mk.injEq] at h
      obtain ⟨rfl, rfl⟩ := h
      rw [readFile_stable w hc hn hr hp hd]
      simp [hg]

theorem angleTarget_stable (w : World σ β α) {fs fs' : FS} (hn : SameNames fs fs') (c : String) (dirs : List Path) :
    Imports.angleTarget (env w fs') c dirs = Imports.angleTarget (env w fs) c dirs := by
  induction dirs with
  | nil => rfl
  | cons d ds ih =>
    unfold Imports.angleTarget
    rw [ih]
    have : (env w fs').exists_ ((env w fs').absIn d c) = (env w fs).exists_ ((env w fs).absIn d c) := sameNames_isSome hn _
    by_cases h : (env w fs).exists_ ((env w fs).absIn d c) = true
    · rw [if_pos h, if_pos (this.trans h)]; rfl
    · rw [if_neg h, if_neg (fun e => h (this.symm.trans e))]

theorem quotedTarget_stable (w : World σ β α) {fs fs' : FS} (hn : SameNames fs fs') (f : Option Path) (c : String) :
    Imports.quotedTarget (env w fs') f c = Imports.quotedTarget (env w fs) f c := by
  unfold Imports.quotedTarget
  have : (env w fs').exists_ ((env w fs').absFrom f c) = (env w fs).exists_ ((env w fs).absFrom f c) := sameNames_isSome hn _
  by_cases h : (env w fs).exists_ ((env w fs).absFrom f c) = true
  · rw [if_pos h, if_pos (this.trans h)]; rfl
  · rw [if_neg h, if_neg (fun e => h (this.symm.trans e))]

theorem doImport_stable (w : World σ β α) (hc : ∀ run, w.cpp = some run → Honest w.ws run) {fs fs' : FS} (hn : SameNames fs fs')
    {c : String} {tgt : Option Path} {rest : List (Option Path × Item σ)} {s s' : Imports.St σ}
    (h : Imports.doImport (env w fs) c tgt rest s = .ok s') :
    s.seen ⊆ s'.seen ∧ (Untouched fs fs' s'.seen → Imports.doImport (env w fs') c tgt rest s = .ok s') := by
  unfold Imports.doImport at h ⊢
  cases tgt with
  | none => simp at h
  | some t =>
    simp only at h ⊢
    by_cases ht : t ∈ s.seen
    · rw [if_pos ht] at h ⊢
      simp only [Except.ok.injEq] at h
      subst h
      exact ⟨fun _ h => h, fun _ => rfl⟩
    · rw [if_neg ht] at h ⊢
      cases hp : (env w fs).parse1 t with
      | none => rw [hp] at h; simp at h
      | some o =>
        obtain ⟨items, r⟩ := o
        rw [hp] at h
        simp only [Except.ok.injEq] at h
        subst h
        refine ⟨fun x hx => ?_, fun hu => ?_⟩
        · simp [hx]
        · have : (env w fs').parse1 t = some (items, r) :=
            parse1_stable w hc hn hp (hu t (by simp)) (fun p hp => hu p (by simp [hp]))
          rw [this]

theorem body_stable (w : World σ β α) (hc : ∀ run, w.cpp = some run → Honest w.ws run) {fs fs' : FS} (hn : SameNames fs fs')
    {f : Option Path} {i : Item σ} {rest : List (Option Path × Item σ)} {s s' : Imports.St σ}
    (h : Imports.body (env w fs) f i rest s = .ok s') :
    s.seen ⊆ s'.seen ∧ (Untouched fs fs' s'.seen → Imports.body (env w fs') f i rest s = .ok s') := by
  unfold Imports.body at h ⊢
  cases i with
  | empty => simp only [Except.ok.injEq] at h ⊢; subst h; exact ⟨fun _ h => h, fun _ => rfl⟩
  | stmt x => simp only [Except.ok.injEq] at h ⊢; subst h; exact ⟨fun _ h => h, fun _ => rfl⟩
  | quoted lits =>
    simp only at h ⊢
    rw [quotedTarget_stable w hn]
    exact doImport_stable w hc hn h
  | angle lit =>
    simp only at h ⊢
    rw [show (env w fs').importpath = (env w fs).importpath from rfl, angleTarget_stable w hn]
    exact doImport_stable w hc hn h

theorem loop_stable (w : World σ β α) (hc : ∀ run, w.cpp = some run → Honest w.ws run) {fs fs' : FS} (hn : SameNames fs fs')
    (n : Nat) : ∀ {s : Imports.St σ} {out : List (Option Path × σ)} {seen : List Path},
    Imports.loop (env w fs) n s = some (.ok (out, seen)) →
    s.seen ⊆ seen ∧ (Untouched fs fs' seen → Imports.loop (env w fs') n s = some (.ok (out, seen))) := by
  induction n with
  | zero => intro s out seen h; simp [Imports.loop] at h
  | succ n ih =>
    intro s out seen h
    unfold Imports.loop at h ⊢
    cases hq : s.queue with
    | nil =>
      rw [hq] at h
      simp only [Option.some.injEq, Except.ok.injEq, Prod.mk.injEq] at h
      obtain ⟨rfl, rfl⟩ := h
      exact ⟨fun _ h => h, fun _ => rfl⟩
    | cons q rest =>
      obtain ⟨f, i⟩ := q
      rw [hq] at h
      simp only at h ⊢
      cases hb : Imports.body (env w fs) f i rest s with
      | error e => rw [hb] at h; simp at h
      | ok s' =>
        rw [hb] at h
        simp only at h
        obtain ⟨h1, h2⟩ := body_stable w hc hn hb
        obtain ⟨h3, h4⟩ := ih h
        refine ⟨fun x hx => h3 (h1 hx), fun hu => ?_⟩
        rw [h2 (fun p hp => hu p (h3 hp))]
        exact h4 hu

theorem parseFile_stable (w : World σ β α) (hc : ∀ run, w.cpp = some run → Honest w.ws run) {fs fs' : FS} (hn : SameNames fs fs')
    {n : Nat} {file : Path} {out : List (Option Path × σ)} {seen : List Path}
    (h : Imports.parseFile (env w fs) n file = some (.ok (out, seen))) (hu : Untouched fs fs' seen) :
    Imports.parseFile (env w fs') n file = some (.ok (out, seen)) := by
  unfold Imports.parseFile at h ⊢
  cases hp : (env w fs).parse1 file with
  | none => rw [hp] at h; simp at h
  | some o =>
    obtain ⟨items, r⟩ := o
    rw [hp] at h
    simp only at h
    unfold Imports.resolve at h
    obtain ⟨h1, h2⟩ := loop_stable w hc hn n h
    simp only at h1
    have : (env w fs').parse1 file = some (items, r) :=
      parse1_stable w hc hn hp (hu file (h1 (by simp))) (fun p hp => hu p (h1 (by simp [hp])))
    rw [this]
    exact h2 hu

/-! ### Queries -/

theorem loadQueries_lookup {fs : FS} (name : String) : ∀ {qs : List QueryClass} {es : List (String × Queries.Engine)},
    loadQueries fs qs = some es → es.lookup name = (qs.find? (fun c => name == c.name)).bind (loadQuery fs) := by
  intro qs
  induction qs with
  | nil => intro es h; simp only [loadQueries, Option.some.injEq] at h; subst h; rfl
  | cons c cs ih =>
    intro es h
    unfold loadQueries at h
    cases hc : loadQuery fs c with
    | none => rw [hc] at h; simp at h
    | some e =>
      rw [hc] at h
      simp only at h
      cases hr : loadQueries fs cs with
      | none => rw [hr] at h; simp at h
      | some es' =>
        rw [hr] at h
        simp only [Option.map_some, Option.some.injEq] at h
        subst h
        rw [List.lookup_cons, List.find?_cons]
        cases hb : name == c.name with
        | true => simp [hc]
        | false => simpa using ih hr

theorem loadQuery_stable {fs fs' : FS} {c : QueryClass} {e : Queries.Engine} (h : loadQuery fs c = some e)
    (hu : Untouched fs fs' e.deps) : loadQuery fs' c = some e := by
  unfold loadQuery at h ⊢
  cases hf : c.file with
  | none => rw [hf] at h; exact h
  | some p =>
    rw [hf] at h
    simp only at h ⊢
    cases hp : fs p with
    | none => rw [hp] at h; simp at h
    | some v =>
      rw [hp] at h
      cases v with
      | dir => simp at h
      | file b =>
        simp only at h
        cases hl : c.load b with
        | none => rw [hl] at h; simp at h
        | some r =>
          rw [hl] at h
          simp only [Option.map_some, Option.some.injEq] at h
          subst h
          rw [hu p (by simp), hp]
          simp [hl]

theorem loadQueries_loadable {fs : FS} : ∀ {qs : List QueryClass}, Loadable fs qs → ∃ es, loadQueries fs qs = some es := by
  intro qs
  induction qs with
  | nil => intro _; exact ⟨[], rfl⟩
  | cons c cs ih =>
    intro h
    obtain ⟨es, hes⟩ := ih (fun d hd => h d (by simp [hd]))
    have : ∃ e, loadQuery fs c = some e := by
      unfold loadQuery
      cases hf : c.file with
      | none => exact ⟨_, rfl⟩
      | some p =>
        obtain ⟨b, r, h1, h2⟩ := h c (by simp) p hf
        simp [h1, h2]
    obtain ⟨e, he⟩ := this
    exact ⟨(c.name, e) :: es, by simp [loadQueries, he, hes]⟩

theorem queries_used {isWord : Char → Bool} {qs : List (String × Queries.Engine)} :
    ∀ {ss ss' : List Queries.Setting} {used : List String}, Queries.loop isWord qs ss = .ok (ss', used) →
    ∀ t ∈ used, ∃ e, qs.lookup t = some e := by
  intro ss
  induction ss with
  | nil => intro ss' used h; simp only [Queries.loop, Except.ok.injEq, Prod.mk.injEq] at h; obtain ⟨-, rfl⟩ := h; simp
  | cons s rest ih =>
    intro ss' used h
    unfold Queries.loop at h
    split at h
    · rename_i q _
      cases hl : qs.lookup q.type with
      | none => rw [hl] at h; simp at h
      | some e =>
        rw [hl] at h
        simp only at h
        cases ha : Queries.answer isWord e q with
        | error x => rw [ha] at h; simp at h
        | ok v =>
          rw [ha] at h
          simp only at h
          cases hr : Queries.loop isWord qs rest with
          | error x => rw [hr] at h; simp at h
          | ok o =>
            rw [hr] at h
            simp only [Except.ok.injEq, Prod.mk.injEq] at h
            obtain ⟨-, rfl⟩ := h
            intro t ht
            rcases List.mem_cons.mp ht with rfl | ht
            · exact ⟨e, hl⟩
            · exact ih hr t ht
    · cases hr : Queries.loop isWord qs rest with
      | error x => rw [hr] at h; simp at h
      | ok o =>
        rw [hr] at h
        simp only [Except.ok.injEq, Prod.mk.injEq] at h
        obtain ⟨-, rfl⟩ := h
        exact ih hr

theorem queries_stable {isWord : Char → Bool} {qs qs' : List (String × Queries.Engine)} :
    ∀ {ss ss' : List Queries.Setting} {used : List String}, Queries.loop isWord qs ss = .ok (ss', used) →
    (∀ t ∈ used, qs'.lookup t = qs.lookup t) → Queries.loop isWord qs' ss = .ok (ss', used) := by
  intro ss
  induction ss with
  | nil => intro ss' used h _; exact h
  | cons s rest ih =>
    intro ss' used h hu
    cases hv : s.value with
    | query q =>
      unfold Queries.loop at h ⊢
      rw [hv] at h ⊢
      simp only at h ⊢
      cases hl : qs.lookup q.type with
      | none => rw [hl] at h; simp at h
      | some e =>
        rw [hl] at h
        simp only at h
        cases ha : Queries.answer isWord e q with
        | error x => rw [ha] at h; simp at h
        | ok v =>
          rw [ha] at h
          simp only at h
          cases hr : Queries.loop isWord qs rest with
          | error x => rw [hr] at h; simp at h
          | ok o =>
            obtain ⟨o1, o2⟩ := o
            rw [hr] at h
            simp only [Except.ok.injEq, Prod.mk.injEq] at h
            obtain ⟨rfl, rfl⟩ := h
            rw [hu q.type (by simp), hl]
            simp only [ha, ih hr (fun t ht => hu t (by simp [ht]))]
    | val v =>
      unfold Queries.loop at h ⊢
      rw [hv] at h ⊢
      simp only at h ⊢
      cases hr : Queries.loop isWord qs rest with
      | error x => rw [hr] at h; simp at h
      | ok o =>
        obtain ⟨o1, o2⟩ := o
        rw [hr] at h
        simp only [Except.ok.injEq, Prod.mk.injEq] at h
        obtain ⟨rfl, rfl⟩ := h
        simp only [ih hr hu]
    | ref v =>
      unfold Queries.loop at h ⊢
      rw [hv] at h ⊢
      simp only at h ⊢
      cases hr : Queries.loop isWord qs rest with
      | error x => rw [hr] at h; simp at h
      | ok o =>
        obtain ⟨o1, o2⟩ := o
        rw [hr] at h
        simp only [Except.ok.injEq, Prod.mk.injEq] at h
        obtain ⟨rfl, rfl⟩ := h
        simp only [ih hr hu]

theorem resolve_stable {isWord : Char → Bool} {fs fs' : FS} {classes : List QueryClass} {qs qs' : List (String × Queries.Engine)}
    (hq : loadQueries fs classes = some qs) (hq' : loadQueries fs' classes = some qs') {seen read_ : List Path}
    {ss ss' : List Queries.Setting} (h : Queries.resolve isWord qs seen ss = .ok (ss', read_)) :
    seen ⊆ read_ ∧ (Untouched fs fs' read_ → Queries.resolve isWord qs' seen ss = .ok (ss', read_)) := by
  unfold Queries.resolve at h ⊢
  cases hl : Queries.loop isWord qs ss with
  | error x => rw [hl] at h; simp at h
  | ok o =>
    obtain ⟨ss1, used⟩ := o
    rw [hl] at h
    simp only [Except.ok.injEq, Prod.mk.injEq] at h
    obtain ⟨rfl, rfl⟩ := h
    refine ⟨fun x hx => by simp [hx], fun hu => ?_⟩
    have key : ∀ t ∈ used, qs'.lookup t = qs.lookup t := by
      intro t ht
      obtain ⟨e, he⟩ := queries_used hl t ht
      have hd : Untouched fs fs' e.deps := fun p hp => hu p (by
        simp only [List.mem_append, List.mem_flatMap]
        exact .inr ⟨t, ht, by simp [he, hp]⟩)
      rw [he, loadQueries_lookup t hq']
      rw [loadQueries_lookup t hq] at he
      cases hf : classes.find? (fun c => t == c.name) with
      | none => rw [hf] at he; simp at he
      | some c =>
        rw [hf] at he
        exact loadQuery_stable he hd
    rw [queries_stable hl key]
    simp only [Except.ok.injEq, Prod.mk.injEq, true_and, List.append_cancel_left_eq]
    rw [List.flatMap_congr]
    intro t ht
    rw [key t ht]

/-! ### The parser -/

/-- **C113.** While the reported files are as they were and no file appears or disappears, a second run of the parser gives the same AST
and reports the same files. Other files may have changed, among them the files of queries that are not used, as long as they can be read. -/
theorem parse_stable (w : World σ β α) (hc : ∀ run, w.cpp = some run → Honest w.ws run) {fs fs' : FS} (hn : SameNames fs fs')
    (hl : Loadable fs' w.queries) {n : Nat} {file : Path} {a : α} {read_ : List Path}
    (h : parserMain w fs n file = some (a, read_)) (hu : Untouched fs fs' read_) :
    parserMain w fs' n file = some (a, read_) := by
  unfold parserMain at h ⊢
  cases hq : loadQueries fs w.queries with
  | none => rw [hq] at h; simp at h
  | some qs =>
    rw [hq] at h
    obtain ⟨qs', hq'⟩ := loadQueries_loadable hl
    rw [hq']
    simp only at h ⊢
    split at h
    case h_2 => simp at h
    case h_1 stmts seen hp =>
      cases hf : w.front stmts with
      | none => rw [hf] at h; simp at h
      | some o =>
        obtain ⟨mid, ss⟩ := o
        rw [hf] at h
        simp only at h
        cases hr : Queries.resolve w.isWord qs seen ss with
        | error x => rw [hr] at h; simp at h
        | ok o =>
          obtain ⟨ss', r⟩ := o
          rw [hr] at h
          simp only at h
          cases hb : w.back mid ss' with
          | none => rw [hb] at h; simp at h
          | some a' =>
            rw [hb] at h
            simp only [Option.map_some, Option.some.injEq, Prod.mk.injEq] at h
            obtain ⟨rfl, rfl⟩ := h
            obtain ⟨h1, h2⟩ := resolve_stable hq hq' hr
            rw [parseFile_stable w hc hn hp (fun p hp => hu p (h1 hp))]
            simp only [hf, h2 hu, hb, Option.map_some]

/-- The statements come from files: with `--nocpp` each file that stage 2 reports can be read. -/
theorem loop_files (w : World σ β α) (hc : w.cpp = none) {fs : FS} (n : Nat) :
    ∀ {s : Imports.St σ} {out : List (Option Path × σ)} {seen : List Path},
    Imports.loop (env w fs) n s = some (.ok (out, seen)) → (∀ p ∈ s.seen, ∃ b, fs p = some (.file b)) →
    ∀ p ∈ seen, ∃ b, fs p = some (.file b) := by
  have hread : ∀ {p items r}, (env w fs).parse1 p = some (items, r) → r = [] ∧ ∃ b, fs p = some (.file b) := by
    intro p items r h
    simp only [env, parse1, readFile, hc] at h
    split at h
    · simp at h
    · rename_i t deps hr
      split at hr
      · rename_i b hb
        cases hd : w.decode b with
        | none => rw [hd] at hr; simp at hr
        | some t' =>
          rw [hd] at hr
          simp only [Option.map_some, Option.some.injEq, Prod.mk.injEq] at hr
          obtain ⟨-, rfl⟩ := hr
          cases hg : w.grammar t with
          | none => rw [hg] at h; simp at h
          | some is =>
            rw [hg] at h
            simp only [Option.map_some, Option.some.injEq, Prod.mk.injEq] at h
            exact ⟨h.2.symm, b, hb⟩
      · simp at hr
  have himp : ∀ {c tgt rest} {s s' : Imports.St σ}, Imports.doImport (env w fs) c tgt rest s = .ok s' →
      (∀ p ∈ s.seen, ∃ b, fs p = some (.file b)) → ∀ p ∈ s'.seen, ∃ b, fs p = some (.file b) := by
    intro c tgt rest s s' h hs
    unfold Imports.doImport at h
    split at h
    · simp at h
    · split at h
      · simp only [Except.ok.injEq] at h; subst h; exact hs
      · split at h
        · simp at h
        · rename_i items r hp
          simp only [Except.ok.injEq] at h
          subst h
          obtain ⟨rfl, hb⟩ := hread hp
          intro p hp
          simp only [List.nil_append, List.mem_cons] at hp
          rcases hp with rfl | hp
          · exact hb
          · exact hs p hp
  induction n with
  | zero => intro s out seen h; simp [Imports.loop] at h
  | succ n ih =>
    intro s out seen h hs
    unfold Imports.loop at h
    split at h
    · simp only [Option.some.injEq, Except.ok.injEq, Prod.mk.injEq] at h
      obtain ⟨-, rfl⟩ := h
      exact hs
    · split at h
      · simp at h
      · rename_i s' hb
        refine ih h ?_
        unfold Imports.body at hb
        split at hb
        · simp only [Except.ok.injEq] at hb; subst hb; exact hs
        · exact himp hb hs
        · exact himp hb hs
        · simp only [Except.ok.injEq] at hb; subst hb; exact hs

/-- **C113.** Without the preprocessor each reported file is a file that exists. -/
theorem reported_exist (w : World σ β α) (hc : w.cpp = none) {fs : FS} {n : Nat} {file : Path} {a : α} {read_ : List Path}
    (h : parserMain w fs n file = some (a, read_)) : file ∈ read_ ∧ ∀ p ∈ read_, ∃ b, fs p = some (.file b) := by
  unfold parserMain at h
  cases hq : loadQueries fs w.queries with
  | none => rw [hq] at h; simp at h
  | some qs =>
    rw [hq] at h
    simp only at h
    split at h
    case h_2 => simp at h
    case h_1 stmts seen hp =>
      cases hf : w.front stmts with
      | none => rw [hf] at h; simp at h
      | some o =>
        obtain ⟨mid, ss⟩ := o
        rw [hf] at h
        simp only at h
        cases hr : Queries.resolve w.isWord qs seen ss with
        | error x => rw [hr] at h; simp at h
        | ok o =>
          obtain ⟨ss', r⟩ := o
          rw [hr] at h
          simp only at h
          cases hb : w.back mid ss' with
          | none => rw [hb] at h; simp at h
          | some a' =>
            rw [hb] at h
            simp only [Option.map_some, Option.some.injEq, Prod.mk.injEq] at h
            obtain ⟨rfl, rfl⟩ := h
            unfold Imports.parseFile at hp
            cases hp1 : (env w fs).parse1 file with
            | none => rw [hp1] at hp; simp at hp
            | some o =>
              obtain ⟨items, deps⟩ := o
              rw [hp1] at hp
              simp only [Imports.resolve] at hp
              have hmono := (loop_stable w (fun run h => by rw [hc] at h; cases h) (fs' := fs)
                (fun p => ⟨Iff.rfl, Iff.rfl⟩) n hp).1
              have h0 : deps = [] ∧ ∃ b, fs file = some (.file b) := by
                simp only [env, parse1, readFile, hc] at hp1
                split at hp1
                · simp at hp1
                · rename_i t ds hr'
                  split at hr'
                  · rename_i b hb'
                    cases hd : w.decode b with
                    | none => rw [hd] at hr'; simp at hr'
                    | some t' =>
                      rw [hd] at hr'
                      simp only [Option.map_some, Option.some.injEq, Prod.mk.injEq] at hr'
                      obtain ⟨-, rfl⟩ := hr'
                      cases hg : w.grammar t with
                      | none => rw [hg] at hp1; simp at hp1
                      | some is =>
                        rw [hg] at hp1
                        simp only [Option.map_some, Option.some.injEq, Prod.mk.injEq] at hp1
                        exact ⟨hp1.2.symm, b, hb'⟩
                  · simp at hr'
              obtain ⟨rfl, hfile⟩ := h0
              have hseen := loop_files w hc n hp (by simpa using hfile)
              unfold Queries.resolve at hr
              cases hl : Queries.loop w.isWord qs ss with
              | error x => rw [hl] at hr; simp at hr
              | ok o =>
                obtain ⟨ss1, used⟩ := o
                rw [hl] at hr
                simp only [Except.ok.injEq, Prod.mk.injEq] at hr
                obtain ⟨-, rfl⟩ := hr
                refine ⟨List.mem_append_left _ (hmono (by simp)), fun p hp => ?_⟩
                rcases List.mem_append.mp hp with hp | hp
                · exact hseen p hp
                · obtain ⟨t, ht, hp⟩ := List.mem_flatMap.mp hp
                  obtain ⟨e, he⟩ := queries_used hl t ht
                  rw [he] at hp
                  simp only [Option.map_some, Option.getD_some] at hp
                  rw [loadQueries_lookup t hq] at he
                  cases hfi : w.queries.find? (fun c => t == c.name) with
                  | none => rw [hfi] at he; simp at he
                  | some c =>
                    rw [hfi] at he
                    simp only [Option.bind_some] at he
                    unfold loadQuery at he
                    split at he
                    · simp only [Option.some.injEq] at he; subst he; simp at hp
                    · rename_i q _
                      split at he
                      · rename_i b hb'
                        cases hld : c.load b with
                        | none => rw [hld] at he; simp at he
                        | some r =>
                          rw [hld] at he
                          simp only [Option.map_some, Option.some.injEq] at he
                          subst he
                          simp only [List.mem_singleton] at hp
                          subst hp
                          exact ⟨b, hb'⟩
                      · simp at he

/-! ### The rule -/

theorem mem_insert (p q : Path) (l : List Path) : p ∈ insert q l ↔ p = q ∨ p ∈ l := by
  induction l with
  | nil => simp [insert]
  | cons x xs ih =>
    unfold insert
    split
    · rename_i h; subst h; simp
    · split
      · simp
      · simp only [List.mem_cons, ih]
        constructor
        · rintro (h | h | h) <;> simp [h]
        · rintro (h | h | h) <;> simp [h]

theorem insert_sorted (q : Path) (l : List Path) (h : l.Pairwise (· < ·)) : (insert q l).Pairwise (· < ·) := by
  induction l with
  | nil => simp [insert]
  | cons x xs ih =>
    obtain ⟨h1, h2⟩ := List.pairwise_cons.mp h
    unfold insert
    split
    · exact h
    · rename_i hne
      split
      · rename_i hlt
        refine List.pairwise_cons.mpr ⟨fun y hy => ?_, h⟩
        rcases List.mem_cons.mp hy with rfl | hy
        · exact hlt
        · exact lt_trans hlt (h1 y hy)
      · rename_i hlt
        refine List.pairwise_cons.mpr ⟨fun y hy => ?_, ih h2⟩
        rcases (mem_insert y q xs).mp hy with rfl | hy
        · exact lt_of_le_of_ne (not_lt.mp hlt) (fun e => hne e.symm)
        · exact h1 y hy

theorem mem_sortedSet (p : Path) (l : List Path) : p ∈ sortedSet l ↔ p ∈ l := by
  induction l with
  | nil => simp [sortedSet]
  | cons x xs ih =>
    have : sortedSet (x :: xs) = insert x (sortedSet xs) := rfl
    rw [this, mem_insert, ih, List.mem_cons]

theorem sortedSet_sorted (l : List Path) : (sortedSet l).Pairwise (· < ·) := by
  induction l with
  | nil => simp [sortedSet]
  | cons x xs ih => exact insert_sorted x _ ih

theorem linesOf_line (l rest : List Char) (h : '\n' ∉ l) : linesOf (l ++ '\n' :: rest) = (l ++ ['\n']) :: linesOf rest := by
  induction l with
  | nil => simp [linesOf]
  | cons c cs ih =>
    have hc : c ≠ '\n' := fun e => h (by simp [e])
    rw [List.cons_append, linesOf, if_neg hc, ih (fun e => h (by simp [e]))]
    rfl

theorem linesOf_flatten (ls : List (List Char)) (h : ∀ l ∈ ls, ∃ m, l = m ++ ['\n'] ∧ '\n' ∉ m) : linesOf ls.flatten = ls := by
  induction ls with
  | nil => rfl
  | cons l ls ih =>
    obtain ⟨m, rfl, hm⟩ := h l (by simp)
    rw [List.flatten_cons, List.append_assoc, List.singleton_append, linesOf_line m _ hm, ih (fun l hl => h l (by simp [hl]))]

theorem writeRule_lines (target : List Char) (files : List (List Char)) (ht : '\n' ∉ target) (hf : ∀ f ∈ files, '\n' ∉ f) :
    linesOf (Makefile.writeRule target files).flatten = Makefile.writeRule target files := by
  apply linesOf_flatten
  have key : ∀ (fs : List (List Char)) (f : List Char), '\n' ∉ f → (∀ g ∈ fs, '\n' ∉ g) →
      ∀ l ∈ Makefile.writeRule.lines f fs, ∃ m, l = m ++ ['\n'] ∧ '\n' ∉ m := by
    intro fs
    induction fs with
    | nil =>
      intro f h _ l hl
      simp only [Makefile.writeRule.lines, List.mem_singleton] at hl
      subst hl
      exact ⟨' ' :: ' ' :: f, by simp, by simp [h]⟩
    | cons g gs ih =>
      intro f h hg l hl
      rw [Makefile.writeRule.lines] at hl
      rcases List.mem_cons.mp hl with rfl | hl
      · exact ⟨' ' :: ' ' :: f ++ [' ', '\\'], by simp, by simp [h]⟩
      · exact ih g (hg g (by simp)) (fun x hx => hg x (by simp [hx])) l hl
  intro l hl
  cases files with
  | nil =>
    simp only [Makefile.writeRule, List.mem_cons, List.not_mem_nil, or_false] at hl
    rcases hl with rfl | rfl
    · exact ⟨target ++ [':', ' ', '\\'], by simp, by simp [ht]⟩
    · exact ⟨[' ', ' '], rfl, by simp⟩
  | cons f fs =>
    rw [Makefile.writeRule] at hl
    rcases List.mem_cons.mp hl with rfl | hl
    · exact ⟨target ++ [':', ' ', '\\'], by simp, by simp [ht]⟩
    · exact key fs f (hf f (by simp)) (fun g hg => hf g (by simp [hg])) l hl

/-- **C113.** The rule that is written lists exactly the files that were reported, each once, provided that their names are plain. -/
theorem rule_lists (ws : Char → Bool) (hws : Makefile.WsOk ws) (target : List Char) (ht : ':' ∉ target) (hn : '\n' ∉ target)
    (read_ : List Path) (h : ∀ p ∈ read_, Plain ws p) : Lists ws (ruleText target read_) read_ := by
  have hp : ∀ f ∈ (sortedSet read_).map String.toList, f ≠ [] ∧ ∀ c ∈ f, ws c = false ∧ c ≠ '\\' := by
    intro f hf
    obtain ⟨p, hp, rfl⟩ := List.mem_map.mp hf
    exact h p ((mem_sortedSet p read_).mp hp)
  refine ⟨sortedSet read_, ?_, sortedSet_sorted read_, fun p => mem_sortedSet p read_⟩
  unfold ruleText
  rw [writeRule_lines target _ hn (fun f hf hm => by
    have := ((hp f hf).2 _ hm).1
    rw [hws.newline] at this
    exact absurd this (by simp))]
  exact Makefile.write_then_parse ws hws target ht _ hp

/-- **C113.** What the build makes of a rule whose target lies in the build directory: the same rule with the name of the target relative
to that directory. -/
theorem truncated_rule (binDir rel : List Char) (read_ : List Path) :
    truncated binDir (ruleText (binDir ++ '/' :: rel) read_) = ruleText rel read_ := by
  have : ∀ files, (Makefile.writeRule (binDir ++ '/' :: rel) files).flatten =
      (binDir ++ ['/']) ++ (Makefile.writeRule rel files).flatten := by
    intro files
    simp [Makefile.writeRule]
  unfold truncated ruleText
  rw [this, List.drop_left' (by simp)]

theorem noticed_of_lists {ws : Char → Bool} {text : List Char} {read_ : List Path} (hl : Lists ws text read_) {fs fs' : FS}
    (h : ¬ Untouched fs fs' read_) : Noticed ws text fs fs' := by
  obtain ⟨names, h1, -, h3⟩ := hl
  unfold Untouched at h
  simp only [not_forall] at h
  obtain ⟨p, hp, hne⟩ := h
  exact ⟨_, p, h1, List.mem_map.mpr ⟨p, (h3 p).mpr hp, rfl⟩, hne⟩

/-- **C113.** If a second run of the parser would give something else (another AST, other files, or a failure), a tool that looks only at
the rule written by the first run sees a difference, provided that no file appears or disappears and that names are plain. -/
theorem parse_noticed_partial (w : World σ β α) (hws : Makefile.WsOk w.ws) (hc : ∀ run, w.cpp = some run → Honest w.ws run)
    {fs fs' : FS} (hn : SameNames fs fs') (hl : Loadable fs' w.queries) {n : Nat} {file : Path} {a : α} {read_ : List Path}
    (target : List Char) (ht : ':' ∉ target ∧ '\n' ∉ target) (h : parserMain w fs n file = some (a, read_))
    (hp : ∀ p ∈ read_, Plain w.ws p) (hd : parserMain w fs' n file ≠ some (a, read_)) :
    Noticed w.ws (ruleText target read_) fs fs' :=
  noticed_of_lists (rule_lists w.ws hws target ht.1 ht.2 read_ hp) (fun hu => hd (parse_stable w hc hn hl h hu))

/-! ### The runner -/

theorem inDir_stable (t : Tool ι ρ) {fs fs' : FS} (hn : SameNames fs fs') (d : Path) (name : String) :
    (inDir t fs d name = .missing → inDir t fs' d name = .missing) ∧
    (∀ p s, inDir t fs d name = .found p s → fs' p = fs p → inDir t fs' d name = .found p s) := by
  unfold inDir
  cases hj : t.join d name with
  | none => simp
  | some q =>
    simp only
    cases hq : fs q with
    | none =>
      rw [(hn q).1.mp hq]
      simp
    | some v =>
      cases v with
      | dir => rw [(hn q).2.mp hq]; simp
      | file b =>
        simp only
        cases hd : t.decode b with
        | none => simp
        | some s =>
          simp only [Found.found.injEq, reduceCtorEq, false_implies, true_and]
          rintro p s' ⟨rfl, rfl⟩ h
          rw [h, hq]
          simp [hd]

theorem find_stable (t : Tool ι ρ) {fs fs' : FS} (hn : SameNames fs fs') (name : String) (dirs : List Path) :
    (find t fs name dirs = .missing → find t fs' name dirs = .missing) ∧
    (∀ p s, find t fs name dirs = .found p s → fs' p = fs p → find t fs' name dirs = .found p s) := by
  induction dirs with
  | nil => simp [find]
  | cons d ds ih =>
    obtain ⟨h1, h2⟩ := inDir_stable t hn d name
    unfold find
    cases hi : inDir t fs d name with
    | missing => rw [h1 hi]; exact ih
    | broken => simp
    | found p s =>
      simp only [Found.found.injEq, reduceCtorEq, false_implies, true_and]
      rintro p' s' ⟨rfl, rfl⟩ h
      rw [h2 p s hi h]

theorem getTemplate_stable (t : Tool ι ρ) {fs fs' : FS} (hn : SameNames fs fs') {name : String} {l l' : Log} {s : Option String}
    (h : getTemplate t fs name l = some (s, l')) :
    l.files ⊆ l'.files ∧ (Untouched fs fs' l'.files → getTemplate t fs' name l = some (s, l')) := by
  unfold getTemplate at h ⊢
  cases hc : l.cache.lookup name with
  | some x =>
    rw [hc] at h
    simp only [Option.some.injEq, Prod.mk.injEq] at h
    obtain ⟨rfl, rfl⟩ := h
    exact ⟨fun _ h => h, fun _ => rfl⟩
  | none =>
    rw [hc] at h
    simp only at h ⊢
    obtain ⟨h1, h2⟩ := find_stable t hn name t.dirs
    cases hf : find t fs name t.dirs with
    | missing =>
      rw [hf] at h
      simp only [Option.some.injEq, Prod.mk.injEq] at h
      obtain ⟨rfl, rfl⟩ := h
      rw [h1 hf]
      exact ⟨fun _ h => h, fun _ => rfl⟩
    | broken => rw [hf] at h; simp at h
    | found p x =>
      rw [hf] at h
      simp only [Option.some.injEq, Prod.mk.injEq] at h
      obtain ⟨rfl, rfl⟩ := h
      refine ⟨fun y hy => by simp [hy], fun hu => ?_⟩
      rw [h2 p x hf (hu p (by simp))]

theorem eval_stable (t : Tool ι ρ) {fs fs' : FS} (hn : SameNames fs fs') (g : Prog γ) : ∀ {l l' : Log} {x : γ},
    eval t fs g l = some (x, l') →
    l.files ⊆ l'.files ∧ (Untouched fs fs' l'.files → eval t fs' g l = some (x, l')) := by
  induction g with
  | done g =>
    intro l l' x h
    simp only [eval, Option.some.injEq, Prod.mk.injEq] at h ⊢
    obtain ⟨rfl, rfl⟩ := h
    exact ⟨fun _ h => h, fun _ => ⟨rfl, rfl⟩⟩
  | fail => intro l l' x h; simp [eval] at h
  | load name k ih =>
    intro l l' x h
    unfold eval at h ⊢
    cases hg : getTemplate t fs name l with
    | none => rw [hg] at h; simp at h
    | some o =>
      obtain ⟨s, l1⟩ := o
      rw [hg] at h
      simp only at h
      obtain ⟨h1, h2⟩ := getTemplate_stable t hn hg
      obtain ⟨h3, h4⟩ := ih s h
      refine ⟨fun y hy => h3 (h1 hy), fun hu => ?_⟩
      rw [h2 (fun p hp => hu p (h3 hp))]
      exact h4 hu

theorem renderAll_stable (t : Tool ι ρ) {fs fs' : FS} (hn : SameNames fs fs') (jobs : List (ι × String)) :
    ∀ {s s' : ρ} {l l' : Log} {outs : List String}, renderAll t fs jobs s l = some (outs, s', l') →
    l.files ⊆ l'.files ∧ (Untouched fs fs' l'.files → renderAll t fs' jobs s l = some (outs, s', l')) := by
  induction jobs with
  | nil =>
    intro s s' l l' outs h
    simp only [renderAll, Option.some.injEq, Prod.mk.injEq] at h ⊢
    obtain ⟨rfl, rfl, rfl⟩ := h
    exact ⟨fun _ h => h, fun _ => ⟨rfl, rfl, rfl⟩⟩
  | cons j js ih =>
    obtain ⟨i, name⟩ := j
    intro s s' l l' outs h
    unfold renderAll at h ⊢
    cases hg : getTemplate t fs name l with
    | none => rw [hg] at h; simp at h
    | some o =>
      obtain ⟨src, l1⟩ := o
      rw [hg] at h
      cases src with
      | none => simp at h
      | some src =>
        simp only at h
        obtain ⟨h1, h2⟩ := getTemplate_stable t hn hg
        cases he : eval t fs (t.render i src s) l1 with
        | none => rw [he] at h; simp at h
        | some o =>
          obtain ⟨⟨out, s1⟩, l2⟩ := o
          rw [he] at h
          simp only at h
          obtain ⟨h3, h4⟩ := eval_stable t hn _ he
          cases hr : renderAll t fs js s1 l2 with
          | none => rw [hr] at h; simp at h
          | some o =>
            obtain ⟨outs', s2, l3⟩ := o
            rw [hr] at h
            simp only [Option.some.injEq, Prod.mk.injEq] at h
            obtain ⟨rfl, rfl, rfl⟩ := h
            obtain ⟨h5, h6⟩ := ih hr
            refine ⟨fun y hy => h5 (h3 (h1 hy)), fun hu => ?_⟩
            rw [h2 (fun p hp => hu p (h5 (h3 hp)))]
            simp only [h4 (fun p hp => hu p (h5 hp)), h6 hu]

/-- **C113.** While the templates that were used are as they were and no file appears or disappears, rendering the same items again gives
the same texts, the same saved state, and uses the same files. -/
theorem render_stable (t : Tool ι ρ) {fs fs' : FS} (hn : SameNames fs fs') {jobs : List (ι × String)} {s s' : ρ} {outs : List String}
    {files : List Path} (h : runnerMain t fs jobs s = some (outs, s', files)) (hu : Untouched fs fs' files) :
    runnerMain t fs' jobs s = some (outs, s', files) := by
  unfold runnerMain at h ⊢
  cases hr : renderAll t fs jobs s ⟨[], []⟩ with
  | none => rw [hr] at h; simp at h
  | some o =>
    obtain ⟨o1, o2, l⟩ := o
    rw [hr] at h
    simp only [Option.some.injEq, Prod.mk.injEq] at h
    obtain ⟨rfl, rfl, rfl⟩ := h
    rw [(renderAll_stable t hn jobs hr).2 hu]

/-- **C113.** If rendering the same items again would give something else, a tool that looks only at the rule of the first run, as the
build has shortened it, sees a difference, provided that no file appears or disappears and that names are plain. -/
theorem render_noticed_partial (t : Tool ι ρ) (ws : Char → Bool) (hws : Makefile.WsOk ws) {fs fs' : FS} (hn : SameNames fs fs')
    {jobs : List (ι × String)} {s s' : ρ} {outs : List String} {files : List Path} (binDir rel : List Char)
    (ht : ':' ∉ rel ∧ '\n' ∉ rel) (h : runnerMain t fs jobs s = some (outs, s', files)) (hp : ∀ p ∈ files, Plain ws p)
    (hd : runnerMain t fs' jobs s ≠ some (outs, s', files)) :
    Noticed ws (truncated binDir (ruleText (binDir ++ '/' :: rel) files)) fs fs' := by
  rw [truncated_rule]
  exact noticed_of_lists (rule_lists ws hws rel ht.1 ht.2 files hp) (fun hu => hd (render_stable t hn h hu))

theorem find_holds (t : Tool ι ρ) {fs : FS} {name : String} {p : Path} {s : String} (dirs : List Path)
    (h : find t fs name dirs = .found p s) : Holds t.join dirs fs name p := by
  induction dirs with
  | nil => simp [find] at h
  | cons d ds ih =>
    unfold find at h
    cases hi : inDir t fs d name with
    | missing =>
      rw [hi] at h
      obtain ⟨before, e, after, rfl, h2, h3, h4⟩ := ih h
      refine ⟨d :: before, e, after, rfl, h2, h3, fun x hx q hq b hb => ?_⟩
      rcases List.mem_cons.mp hx with rfl | hx
      · unfold inDir at hi
        rw [hq] at hi
        simp only [hb] at hi
        cases hdec : t.decode b <;> rw [hdec] at hi <;> simp at hi
      · exact h4 x hx q hq b hb
    | broken => rw [hi] at h; simp at h
    | found q s' =>
      rw [hi] at h
      simp only [Found.found.injEq] at h
      obtain ⟨rfl, rfl⟩ := h
      refine ⟨[], d, ds, rfl, ?_⟩
      unfold inDir at hi
      cases hj : t.join d name with
      | none => rw [hj] at hi; simp at hi
      | some q' =>
        rw [hj] at hi
        simp only at hi
        split at hi
        · rename_i b hb
          cases hdec : t.decode b with
          | none => rw [hdec] at hi; simp at hi
          | some x =>
            rw [hdec] at hi
            simp only [Found.found.injEq] at hi
            obtain ⟨rfl, rfl⟩ := hi
            exact ⟨rfl, ⟨b, hb⟩, by simp⟩
        · simp at hi

theorem getTemplate_holds (t : Tool ι ρ) {fs : FS} {name : String} {l l' : Log} {s : Option String}
    (h : getTemplate t fs name l = some (s, l')) (hl : ∀ p ∈ l.files, ∃ name, Holds t.join t.dirs fs name p) :
    ∀ p ∈ l'.files, ∃ name, Holds t.join t.dirs fs name p := by
  unfold getTemplate at h
  split at h
  · simp only [Option.some.injEq, Prod.mk.injEq] at h; obtain ⟨-, rfl⟩ := h; exact hl
  · split at h
    · simp only [Option.some.injEq, Prod.mk.injEq] at h; obtain ⟨-, rfl⟩ := h; exact hl
    · simp at h
    · rename_i p x hf
      simp only [Option.some.injEq, Prod.mk.injEq] at h
      obtain ⟨-, rfl⟩ := h
      intro q hq
      rcases List.mem_cons.mp hq with rfl | hq
      · exact ⟨name, find_holds t _ hf⟩
      · exact hl q hq

theorem eval_holds (t : Tool ι ρ) {fs : FS} (g : Prog γ) : ∀ {l l' : Log} {x : γ}, eval t fs g l = some (x, l') →
    (∀ p ∈ l.files, ∃ name, Holds t.join t.dirs fs name p) → ∀ p ∈ l'.files, ∃ name, Holds t.join t.dirs fs name p := by
  induction g with
  | done g =>
    intro l l' x h hl
    simp only [eval, Option.some.injEq, Prod.mk.injEq] at h
    obtain ⟨-, rfl⟩ := h
    exact hl
  | fail => intro l l' x h; simp [eval] at h
  | load name k ih =>
    intro l l' x h hl
    unfold eval at h
    cases hg : getTemplate t fs name l with
    | none => rw [hg] at h; simp at h
    | some o =>
      obtain ⟨s, l1⟩ := o
      rw [hg] at h
      exact ih s h (getTemplate_holds t hg hl)

/-- **C113.** Each file that the runner reports holds a template: it lies in the first of the directories that has that template. -/
theorem used_hold (t : Tool ι ρ) {fs : FS} {jobs : List (ι × String)} {s s' : ρ} {outs : List String} {files : List Path}
    (h : runnerMain t fs jobs s = some (outs, s', files)) : ∀ p ∈ files, ∃ name, Holds t.join t.dirs fs name p := by
  have key : ∀ (jobs : List (ι × String)) {s s' : ρ} {l l' : Log} {outs : List String}, renderAll t fs jobs s l = some (outs, s', l') →
      (∀ p ∈ l.files, ∃ name, Holds t.join t.dirs fs name p) → ∀ p ∈ l'.files, ∃ name, Holds t.join t.dirs fs name p := by
    intro jobs
    induction jobs with
    | nil =>
      intro s s' l l' outs h hl
      simp only [renderAll, Option.some.injEq, Prod.mk.injEq] at h
      obtain ⟨-, -, rfl⟩ := h
      exact hl
    | cons j js ih =>
      obtain ⟨i, name⟩ := j
      intro s s' l l' outs h hl
      unfold renderAll at h
      split at h
      · simp at h
      · simp at h
      · rename_i src l1 hg
        split at h
        · simp at h
        · rename_i out s1 l2 he
          split at h
          · simp at h
          · rename_i outs' s2 l3 hr
            simp only [Option.some.injEq, Prod.mk.injEq] at h
            obtain ⟨-, -, rfl⟩ := h
            exact ih hr (eval_holds t _ he (getTemplate_holds t hg hl))
  unfold runnerMain at h
  split at h
  · simp at h
  · rename_i o1 o2 l hr
    simp only [Option.some.injEq, Prod.mk.injEq] at h
    obtain ⟨-, -, rfl⟩ := h
    exact key jobs hr (by simp)

/-- What is in the cache has been logged. -/
def Cached (t : Tool ι ρ) (fs : FS) (l : Log) : Prop :=
  ∀ name s, l.cache.lookup name = some s → ∃ p ∈ l.files, Holds t.join t.dirs fs name p ∧ ∃ b, fs p = some (.file b) ∧ t.decode b = some s

theorem find_source (t : Tool ι ρ) {fs : FS} {name : String} {p : Path} {s : String} (dirs : List Path)
    (h : find t fs name dirs = .found p s) : ∃ b, fs p = some (.file b) ∧ t.decode b = some s := by
  induction dirs with
  | nil => simp [find] at h
  | cons d ds ih =>
    unfold find at h
    cases hi : inDir t fs d name with
    | missing => rw [hi] at h; exact ih h
    | broken => rw [hi] at h; simp at h
    | found q s' =>
      rw [hi] at h
      simp only [Found.found.injEq] at h
      obtain ⟨rfl, rfl⟩ := h
      unfold inDir at hi
      cases hj : t.join d name with
      | none => rw [hj] at hi; simp at hi
      | some q' =>
        rw [hj] at hi
        simp only at hi
        split at hi
        · rename_i b hb
          cases hdec : t.decode b with
          | none => rw [hdec] at hi; simp at hi
          | some x =>
            rw [hdec] at hi
            simp only [Found.found.injEq] at hi
            obtain ⟨rfl, rfl⟩ := hi
            exact ⟨b, hb, hdec⟩
        · simp at hi

theorem getTemplate_cached (t : Tool ι ρ) {fs : FS} {name : String} {l l' : Log} {s : Option String}
    (h : getTemplate t fs name l = some (s, l')) (hl : Cached t fs l) :
    Cached t fs l' ∧ ∀ x, s = some x →
      ∃ p ∈ l'.files, Holds t.join t.dirs fs name p ∧ ∃ b, fs p = some (.file b) ∧ t.decode b = some x := by
  unfold getTemplate at h
  split at h
  · rename_i x hx
    simp only [Option.some.injEq, Prod.mk.injEq] at h
    obtain ⟨rfl, rfl⟩ := h
    exact ⟨hl, fun y hy => by cases hy; exact hl name x hx⟩
  · split at h
    · simp only [Option.some.injEq, Prod.mk.injEq] at h
      obtain ⟨rfl, rfl⟩ := h
      exact ⟨hl, fun y hy => by cases hy⟩
    · simp at h
    · rename_i p x hf
      simp only [Option.some.injEq, Prod.mk.injEq] at h
      obtain ⟨rfl, rfl⟩ := h
      have hp := find_holds t _ hf
      have hs := find_source t _ hf
      refine ⟨fun n y hn => ?_, fun y hy => by cases hy; exact ⟨p, by simp, hp, hs⟩⟩
      rw [List.lookup_cons] at hn
      cases hb : n == name with
      | true =>
        rw [hb] at hn
        cases hn
        rw [eq_of_beq hb]
        exact ⟨p, by simp, hp, hs⟩
      | false =>
        rw [hb] at hn
        obtain ⟨q, hq, h1⟩ := hl n y hn
        exact ⟨q, by simp [hq], h1⟩

theorem eval_cached (t : Tool ι ρ) {fs : FS} (g : Prog γ) : ∀ {l l' : Log} {x : γ}, eval t fs g l = some (x, l') →
    Cached t fs l → Cached t fs l' := by
  induction g with
  | done g =>
    intro l l' x h hl
    simp only [eval, Option.some.injEq, Prod.mk.injEq] at h
    obtain ⟨-, rfl⟩ := h
    exact hl
  | fail => intro l l' x h; simp [eval] at h
  | load name k ih =>
    intro l l' x h hl
    unfold eval at h
    cases hg : getTemplate t fs name l with
    | none => rw [hg] at h; simp at h
    | some o =>
      obtain ⟨s, l1⟩ := o
      rw [hg] at h
      exact ih s h (getTemplate_cached t hg hl).1

/-- **C113.** A run that succeeds found the template of each item, and reports the file that holds it; an item whose template no directory
has makes the run fail. -/
theorem jobs_found (t : Tool ι ρ) {fs : FS} {jobs : List (ι × String)} {s s' : ρ} {outs : List String} {files : List Path}
    (h : runnerMain t fs jobs s = some (outs, s', files)) :
    outs.length = jobs.length ∧ ∀ j ∈ jobs, ∃ p ∈ files, Holds t.join t.dirs fs j.2 p := by
  have hn : SameNames fs fs := fun p => ⟨Iff.rfl, Iff.rfl⟩
  have key : ∀ (jobs : List (ι × String)) {s s' : ρ} {l l' : Log} {outs : List String}, renderAll t fs jobs s l = some (outs, s', l') →
      Cached t fs l → outs.length = jobs.length ∧ ∀ j ∈ jobs, ∃ p ∈ l'.files, Holds t.join t.dirs fs j.2 p := by
    intro jobs
    induction jobs with
    | nil =>
      intro s s' l l' outs h _
      simp only [renderAll, Option.some.injEq, Prod.mk.injEq] at h
      obtain ⟨rfl, -, -⟩ := h
      simp
    | cons j js ih =>
      obtain ⟨i, name⟩ := j
      intro s s' l l' outs h hl
      unfold renderAll at h
      split at h
      · simp at h
      · simp at h
      · rename_i src l1 hg
        split at h
        · simp at h
        · rename_i out s1 l2 he
          split at h
          · simp at h
          · rename_i outs' s2 l3 hr
            simp only [Option.some.injEq, Prod.mk.injEq] at h
            obtain ⟨rfl, -, rfl⟩ := h
            obtain ⟨c1, c2⟩ := getTemplate_cached t hg hl
            obtain ⟨h1, h2⟩ := ih hr (eval_cached t _ he c1)
            refine ⟨by simp [h1], fun j hj => ?_⟩
            rcases List.mem_cons.mp hj with rfl | hj
            · obtain ⟨p, hp, hh, -⟩ := c2 src rfl
              exact ⟨p, (renderAll_stable t hn js hr).1 ((eval_stable t hn _ he).1 hp), hh⟩
            · exact h2 j hj
  unfold runnerMain at h
  split at h
  · simp at h
  · rename_i o1 o2 l hr
    simp only [Option.some.injEq, Prod.mk.injEq] at h
    obtain ⟨rfl, -, rfl⟩ := h
    exact key jobs hr (by intro n x hx; simp at hx)

/-- **C113.** An evaluation that asks for a template is given the contents of the file that holds it, or is told that no directory has it;
it makes no difference whether the template was used before. -/
theorem load_exact (t : Tool ι ρ) {fs : FS} {name : String} {l l' : Log} {s : Option String} (hl : Cached t fs l)
    (h : getTemplate t fs name l = some (s, l')) :
    match s with
    | some x => ∃ p, Holds t.join t.dirs fs name p ∧ ∃ b, fs p = some (.file b) ∧ t.decode b = some x
    | none => ∀ p, ¬ Holds t.join t.dirs fs name p := by
  cases s with
  | some x =>
    obtain ⟨p, -, h1⟩ := (getTemplate_cached t h hl).2 x rfl
    exact ⟨p, h1⟩
  | none =>
    unfold getTemplate at h
    split at h
    · simp at h
    · split at h
      · rename_i hf
        have key : ∀ dirs, find t fs name dirs = .missing → ∀ p, ¬ Holds t.join dirs fs name p := by
          intro dirs
          induction dirs with
          | nil => rintro - p ⟨before, d, after, h, -⟩; simp at h
          | cons d ds ih =>
            intro hf p hh
            unfold find at hf
            cases hi : inDir t fs d name with
            | broken => rw [hi] at hf; simp at hf
            | found q x => rw [hi] at hf; simp at hf
            | missing =>
              rw [hi] at hf
              obtain ⟨before, e, after, h1, h2, ⟨b, hb⟩, h4⟩ := hh
              cases before with
              | nil =>
                simp only [List.nil_append, List.cons.injEq] at h1
                obtain ⟨rfl, -⟩ := h1
                unfold inDir at hi
                rw [h2] at hi
                simp only [hb] at hi
                cases hdec : t.decode b <;> rw [hdec] at hi <;> simp at hi
              | cons x xs =>
                simp only [List.cons_append, List.cons.injEq] at h1
                exact ih hf p ⟨xs, e, after, h1.2, h2, ⟨b, hb⟩, fun y hy => h4 y (by simp [hy])⟩
        exact key t.dirs hf
      · simp at h
      · simp at h

/-! ### Cases -/

/-- Statements are numbers: a file with byte 0 imports `<x>`, other files hold their byte as a statement. -/
def demoWorld (queries : List QueryClass) : World Nat (List Nat) (List Nat × List (String × String)) where
  ws c := c == ' ' || c == '\n'
  isWord c := c.isAlphanum
  decode b := match b with | [0] => some "import" | [1] => some "one" | [2] => some "two" | [3] => some "query" | _ => none
  absFrom _ c := c
  absIn d c := d ++ "/" ++ c
  importpath := ["/a", "/b"]
  cpp := none
  grammar t :=
    if t = "import" then some [.angle "<x>", .stmt 0] else if t = "one" then some [.stmt 1] else if t = "two" then some [.stmt 2]
    else if t = "query" then some [.stmt 3] else none
  front l := some (l.map Prod.snd, if 3 ∈ l.map Prod.snd then [⟨"i", "a", .query ⟨"dtb", [[]], none⟩⟩] else [])
  back m ss := some (m, ss.map fun s => (s.inst, match s.value with | .val (.dict d) => String.ofList (d.map fun x => x.1).flatten | _ => ""))
  queries := queries

/-- A class of queries whose file `/d` must hold one byte; the answer depends on it. -/
def demoQuery : QueryClass where
  name := "dtb"
  file := some "/d"
  load b :=
    match b with
    | [5] => some fun _ => .ok [("five".toList, .int 5), ("query".toList, .list [])]
    | [6] => some fun _ => .ok [("six".toList, .int 6), ("query".toList, .list [])]
    | _ => none

/-- A file system given by a list. -/
def ofList (l : List (Path × Node)) : FS := fun p => l.lookup p

/-- The main file imports `<x>`, which the second directory has; nothing else is read. -/
theorem demo_parse : parserMain (demoWorld []) (ofList [("/m", .file [0]), ("/b/x", .file [1]), ("/z", .file [1])]) 9 "/m"
    = some (([1, 0], []), ["/b/x", "/m"]) := by decide +kernel

/-- A later state in which only `/z` differs meets the hypotheses of `parse_stable`, and the run is the same. -/
theorem demo_stable :
    SameNames (ofList [("/m", .file [0]), ("/b/x", .file [1]), ("/z", .file [1])])
      (ofList [("/m", .file [0]), ("/b/x", .file [1]), ("/z", .file [2])]) ∧
    Untouched (ofList [("/m", .file [0]), ("/b/x", .file [1]), ("/z", .file [1])])
      (ofList [("/m", .file [0]), ("/b/x", .file [1]), ("/z", .file [2])]) ["/b/x", "/m"] ∧
    parserMain (demoWorld []) (ofList [("/m", .file [0]), ("/b/x", .file [1]), ("/z", .file [2])]) 9 "/m"
      = some (([1, 0], []), ["/b/x", "/m"]) := by
  have hn : SameNames (ofList [("/m", .file [0]), ("/b/x", .file [1]), ("/z", .file [1])])
      (ofList [("/m", .file [0]), ("/b/x", .file [1]), ("/z", .file [2])]) := by
    intro p
    by_cases h1 : p = "/m"
    · subst h1; decide +kernel
    · by_cases h2 : p = "/b/x"
      · subst h2; decide +kernel
      · by_cases h3 : p = "/z"
        · subst h3; decide +kernel
        · have e1 : (p == "/m") = false := by simpa using h1
          have e2 : (p == "/b/x") = false := by simpa using h2
          have e3 : (p == "/z") = false := by simpa using h3
          simp [ofList, List.lookup, e1, e2, e3]
  have hu : Untouched (ofList [("/m", .file [0]), ("/b/x", .file [1]), ("/z", .file [1])])
      (ofList [("/m", .file [0]), ("/b/x", .file [1]), ("/z", .file [2])]) ["/b/x", "/m"] := by
    unfold Untouched
    decide +kernel
  exact ⟨hn, hu, parse_stable (demoWorld []) (by intro run h; cases h) hn (by intro c hc; cases hc) demo_parse hu⟩

/-- A preprocessor that appends the contents of `/h` and says so. -/
def demoCpp (fs : FS) (p : Path) : Option (Bytes × List (List Char)) :=
  match fs p, fs "/h" with
  | some (.file b), some (.file c) => some (b ++ c, ["x: /h\n".toList])
  | _, _ => none

/-- It is honest, and the header is reported. -/
theorem demo_honest : Honest (demoWorld []).ws demoCpp ∧
    parserMain { demoWorld [] with cpp := some demoCpp } (ofList [("/m", .file []), ("/h", .file [2])]) 9 "/m"
      = some (([2], []), ["/m", "/h"]) := by
  refine ⟨?_, by decide +kernel⟩
  intro fs fs' p out rule names h hr hn hp hu
  unfold demoCpp at h ⊢
  split at h
  · rename_i b c hb hc
    simp only [Option.some.injEq, Prod.mk.injEq] at h
    obtain ⟨rfl, rfl⟩ := h
    have hh : fs' "/h" = fs "/h" := hu "/h" (by
      have : Makefile.parseRule (demoWorld []).ws false ["x: /h\n".toList] = .ok ["/h".toList] := by rfl
      rw [this] at hr
      cases hr
      decide +kernel)
    rw [hp, hh, hb, hc]
  · simp at h

/-- A query is answered from its file, which is then reported; a query that is not used is not. -/
theorem demo_query :
    parserMain (demoWorld [demoQuery]) (ofList [("/m", .file [3]), ("/d", .file [5])]) 9 "/m"
      = some (([3], [("i", "fivequery")]), ["/m", "/d"]) ∧
    parserMain (demoWorld [demoQuery]) (ofList [("/m", .file [1]), ("/d", .file [5])]) 9 "/m" = some (([1], []), ["/m"]) := by
  decide +kernel

/-- The rule that is written, and what the build makes of it. -/
theorem demo_rule : ruleText "/b/out".toList ["/y", "/m", "/y"] = "/b/out: \\\n  /m \\\n  /y\n".toList ∧
    truncated "/b".toList (ruleText "/b/out".toList ["/y", "/m", "/y"]) = "out: \\\n  /m \\\n  /y\n".toList := by
  decide +kernel

/-- Names that are plain, for `rule_lists`. -/
theorem demo_plain : Makefile.WsOk (demoWorld []).ws ∧ ∀ p ∈ ["/y", "/m"], Plain (demoWorld []).ws p := by
  refine ⟨⟨rfl, rfl, rfl, rfl⟩, ?_⟩
  unfold Plain
  decide +kernel

/-- A template that includes another one. -/
def demoTool : Tool Nat Nat where
  decode b := match b with | [0] => some "main" | [1] => some "one" | [2] => some "two" | _ => none
  dirs := ["/u", "/t"]
  join d n := some (d ++ "/" ++ n)
  render i src s :=
    if src = "main" then .load "inc" fun o => .done ((match o with | none => "none" | some x => x) ++ toString i, s + i)
    else .done (src, s + i)

/-- Two items with the same template: the included template comes from the first directory that has it. -/
theorem demo_render :
    runnerMain demoTool (ofList [("/t/main", .file [0]), ("/t/inc", .file [1]), ("/u/inc", .file [2])]) [(1, "main"), (2, "main")] 0
      = some (["two1", "two2"], 3, ["/u/inc", "/t/main"]) := by decide +kernel

/-- An item without a template is refused. -/
theorem demo_missing : runnerMain demoTool (ofList [("/t/inc", .file [1])]) [(1, "inc"), (2, "main")] 0 = none ∧
    runnerMain demoTool (ofList [("/t/main", .file [0])]) [(1, "main")] 0 = some (["none1"], 1, ["/t/main"]) := by decide +kernel

/-- **Disagreement with C113.** A file that appears in an earlier directory of the import path changes the AST, although each reported
file is as it was: no rule mentions the places where a file was looked for in vain. -/
theorem new_import_missed :
    ∃ (fs fs' : FS) (a a' : List Nat × List (String × String)) (r r' : List Path),
      parserMain (demoWorld []) fs 9 "/m" = some (a, r) ∧ parserMain (demoWorld []) fs' 9 "/m" = some (a', r') ∧ a ≠ a' ∧
      Untouched fs fs' r ∧ ∀ p, (fs p).isSome → fs' p = fs p := by
  refine ⟨ofList [("/m", .file [0]), ("/b/x", .file [1])], ofList [("/m", .file [0]), ("/b/x", .file [1]), ("/a/x", .file [2])],
    ([1, 0], []), ([2, 0], []), ["/b/x", "/m"], ["/a/x", "/m"], by decide +kernel, by decide +kernel, by decide,
    by unfold Untouched; decide +kernel, fun p hp => ?_⟩
  by_cases h1 : p = "/m"
  · subst h1; decide +kernel
  · by_cases h2 : p = "/b/x"
    · subst h2; decide +kernel
    · have e1 : (p == "/m") = false := by simpa using h1
      have e2 : (p == "/b/x") = false := by simpa using h2
      simp [ofList, List.lookup, e1, e2] at hp

/-- **Disagreement with C113.** A template that appears in an earlier directory changes what is generated, although each reported file is
as it was. -/
theorem new_template_missed :
    ∃ (fs fs' : FS) (o o' : List String) (r r' : List Path),
      runnerMain demoTool fs [(1, "main")] 0 = some (o, 1, r) ∧ runnerMain demoTool fs' [(1, "main")] 0 = some (o', 1, r') ∧ o ≠ o' ∧
      Untouched fs fs' r ∧ ∀ p, (fs p).isSome → fs' p = fs p := by
  refine ⟨ofList [("/t/main", .file [0]), ("/t/inc", .file [1])],
    ofList [("/t/main", .file [0]), ("/t/inc", .file [1]), ("/u/inc", .file [2])],
    ["one1"], ["two1"], ["/t/inc", "/t/main"], ["/u/inc", "/t/main"], by decide +kernel, by decide +kernel, by decide,
    by unfold Untouched; decide +kernel, fun p hp => ?_⟩
  by_cases h1 : p = "/t/main"
  · subst h1; decide +kernel
  · by_cases h2 : p = "/t/inc"
    · subst h2; decide +kernel
    · have e1 : (p == "/t/main") = false := by simpa using h1
      have e2 : (p == "/t/inc") = false := by simpa using h2
      simp [ofList, List.lookup, e1, e2] at hp

/-- **Disagreement with C113.** A change of a file whose name has a blank is not noticed: the rule lists the pieces of the name, and no
file with such a name differs. -/
theorem blank_missed :
    ∃ (fs fs' : FS) (a a' : List Nat × List (String × String)) (r r' : List Path),
      parserMain (demoWorld []) fs 9 "/my m" = some (a, r) ∧ parserMain (demoWorld []) fs' 9 "/my m" = some (a', r') ∧ a ≠ a' ∧
      ¬ Noticed (demoWorld []).ws (ruleText "ast".toList r) fs fs' := by
  refine ⟨ofList [("/my m", .file [1])], ofList [("/my m", .file [2])], ([1], []), ([2], []), ["/my m"], ["/my m"],
    by decide +kernel, by decide +kernel, by decide, ?_⟩
  rintro ⟨names, p, h1, h2, h3⟩
  have : Makefile.parseRule (demoWorld []).ws false (linesOf (ruleText "ast".toList ["/my m"])) = .ok ["/my".toList, "m".toList] := by
    decide +kernel
  rw [this] at h1
  cases h1
  have hp : p ≠ "/my m" := by rintro rfl; exact absurd h2 (by decide +kernel)
  have e : (p == "/my m") = false := by simpa using hp
  exact h3 (by simp [ofList, List.lookup, e])

/-- **Disagreement with C113.** The file of a query that is never used can stop the run: it is read but not reported, so that a run that
would now fail is not repeated. -/
theorem unused_query_file :
    ∃ (fs fs' : FS) (a : List Nat × List (String × String)) (r : List Path),
      parserMain (demoWorld [demoQuery]) fs 9 "/m" = some (a, r) ∧ parserMain (demoWorld [demoQuery]) fs' 9 "/m" = none ∧
      Untouched fs fs' r ∧ SameNames fs fs' := by
  refine ⟨ofList [("/m", .file [1]), ("/d", .file [5])], ofList [("/m", .file [1]), ("/d", .file [7])], ([1], []), ["/m"],
    by decide +kernel, by decide +kernel, by unfold Untouched; decide +kernel, fun p => ?_⟩
  by_cases h1 : p = "/m"
  · subst h1; decide +kernel
  · by_cases h2 : p = "/d"
    · subst h2; decide +kernel
    · have e1 : (p == "/m") = false := by simpa using h1
      have e2 : (p == "/d") = false := by simpa using h2
      simp [ofList, List.lookup, e1, e2]

end Verif.Deps
