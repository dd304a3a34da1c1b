import Verif.DepCheck.Steps
import Mathlib.Data.List.Perm.Basic
import Mathlib.Data.List.Nodup
import Mathlib.Tactic.ByContra

/-!
# C128: the checker of dependencies reports what is missing
-/

namespace Verif.DepCheck

/-! ## A dependency -/

theorem called_true (s : Option Int) : called s = .answer true ↔ s = some 0 := by
  cases s with
  | none => simp [called]
  | some n => simp [called]

theorem called_works (s : Option Int) (h : s ≠ none) : called s = .answer true ∨ called s = .answer false := by
  cases s with
  | none => exact absurd rfl h
  | some n => by_cases hn : n = 0 <;> simp [called, hn]

/-- What `exists()` of a dependency means. -/
theorem simple_answer (env : Env) (p : Simple) (hw : p.Works env) (hc : p.Comparable env) :
    (p.exists env = .answer true ∧ p.Present env) ∨
    (p.exists env = .answer false ∧ ¬ p.Present env ∧ p.Explains env .notFound) ∨
    (∃ m, p.exists env = .refuse m ∧ ¬ p.Present env ∧ p.Explains env m ∧ ¬ p.Quiet) := by
  cases p with
  | binary n d =>
    rcases called_works _ hw with h | h
    · exact .inl ⟨h, (called_true _).1 h⟩
    · refine .inr (.inl ⟨h, ?_⟩)
      have : ¬ env.which n = some 0 := by rw [← called_true, h]; simp
      exact ⟨this, this⟩
  | library n d =>
    rcases called_works _ hw with h | h
    · exact .inl ⟨h, (called_true _).1 h⟩
    · refine .inr (.inl ⟨h, ?_⟩)
      have : ¬ env.pkgConfig n = some 0 := by rw [← called_true, h]; simp
      exact ⟨this, this⟩
  | cunit n d =>
    simp only [Simple.Works] at hw
    cases he : env.cunit with
    | none => exact absurd he hw
    | some b =>
      cases b with
      | true => exact .inl ⟨by simp [Simple.exists, he], he⟩
      | false =>
        refine .inr (.inl ⟨by simp [Simple.exists, he], ?_, ?_⟩) <;> simp [Simple.Present, Simple.Explains, he]
  | module n d =>
    simp only [Simple.Works] at hw
    cases he : env.imp n with
    | module has => exact .inl ⟨by simp [Simple.exists, he], has, he⟩
    | importError => refine .inr (.inl ⟨by simp [Simple.exists, he], ?_, ?_⟩) <;> simp [Simple.Present, Simple.Explains, he]
    | otherError => exact absurd he hw
  | moduleWith n d a =>
    simp only [Simple.Works] at hw
    cases he : env.imp n with
    | module has =>
      by_cases ha : has a = true
      · exact .inl ⟨by simp [Simple.exists, he, ha], has, he, ha⟩
      · refine .inr (.inr ⟨.noAttr n a, by simp [Simple.exists, he, ha], ?_, ⟨rfl, rfl, has, he⟩, fun h => h⟩)
        rintro ⟨has', he', ha'⟩
        rw [he] at he'; injection he' with he'; subst he'; exact ha ha'
    | importError =>
      refine .inr (.inl ⟨by simp [Simple.exists, he], ?_, ?_⟩) <;> simp [Simple.Present, Simple.Explains, he]
    | otherError => exact absurd he hw
  | pylint n d a b =>
    rcases called_works _ hw.1 with h | h
    · have h0 := (called_true _).1 h
      have hp := hw.2 h0
      cases ho : env.pylint with
      | none => exact absurd ho hp
      | some out =>
        cases hs : search true out with
        | none =>
          have hno : ∀ v, ¬ Tells out v := by
            intro v hv; rw [← tells_iff, hs] at hv; exact absurd hv (by simp)
          refine .inr (.inr ⟨.noVersion, by simp [Simple.exists, pylintExists, h, ho, hs], ?_, ⟨h0, out, ho, hno⟩, fun h => h⟩)
          rintro ⟨_, out', v, ho', hv, _⟩
          rw [ho] at ho'; injection ho' with ho'; subst ho'; exact hno v hv
        | some v =>
          have ht := (tells_iff _ _).1 hs
          have key := older_iff v (a, b) (tells_digits ht) ⟨hc.1, hc.2.1⟩ (hc.2.2 out v ho ht)
          by_cases hold : older v (a, b) = true
          · have hna : ¬ AtLeast v (a, b) := by rw [← key, hold]; simp
            refine .inr (.inr ⟨.tooOld v.1 v.2, by simp [Simple.exists, pylintExists, h, ho, hs, hold], ?_, ⟨h0, out, ho, ht, hna⟩,
              fun h => h⟩)
            rintro ⟨_, out', w, ho', hw', hat⟩
            rw [ho] at ho'; injection ho' with ho'; subst ho'
            rw [← tells_iff, hs] at hw'; injection hw' with hw'; subst hw'; exact hna hat
          · refine .inl ⟨by simp [Simple.exists, pylintExists, h, ho, hs, hold], h0, out, v, ho, ht, key.1 (by simpa using hold)⟩
    · refine .inr (.inl ⟨by simp [Simple.exists, pylintExists, h], ?_, ?_⟩)
      · rintro ⟨h0, _⟩; rw [← called_true, h] at h0; exact absurd h0 (by simp)
      · show env.which n ≠ some 0
        rw [Ne, ← called_true, h]; simp

theorem any_answer (env : Env) (ps : List Simple) (hw : ∀ p ∈ ps, p.Works env) (hq : ∀ p ∈ ps, p.Quiet) :
    (anyExists env ps = .answer true ∧ ∃ p ∈ ps, p.Present env) ∨ (anyExists env ps = .answer false ∧ ∀ p ∈ ps, ¬ p.Present env) := by
  induction ps with
  | nil => exact .inr ⟨rfl, by simp⟩
  | cons p r ih =>
    have hc : p.Comparable env := by
      have := hq p (List.mem_cons_self ..)
      cases p <;> first | trivial | exact this.elim
    rcases simple_answer env p (hw p (List.mem_cons_self ..)) hc with h | h | ⟨m, h⟩
    · exact .inl ⟨by simp [anyExists, h.1], p, List.mem_cons_self .., h.2⟩
    · rcases ih (fun q hq' => hw q (List.mem_cons_of_mem _ hq')) (fun q hq' => hq q (List.mem_cons_of_mem _ hq')) with i | i
      · obtain ⟨i1, q, hq', hp⟩ := i
        exact .inl ⟨by simp [anyExists, h.1, i1], q, List.mem_cons_of_mem _ hq', hp⟩
      · refine .inr ⟨by simp [anyExists, h.1, i.1], ?_⟩
        intro q hq'
        rcases List.mem_cons.1 hq' with rfl | hq'
        · exact h.2.1
        · exact i.2 q hq'
    · exact absurd (hq p (List.mem_cons_self ..)) h.2.2.2

theorem package_answer (env : Env) (p : Package) (h : p.Fit env) :
    (p.exists env = .answer true ∧ p.Present env) ∨
    (p.exists env = .answer false ∧ ¬ p.Present env ∧ p.Explains env .notFound) ∨
    (∃ m, p.exists env = .refuse m ∧ ¬ p.Present env ∧ p.Explains env m ∧ ∃ q, p = .one q ∧ ¬ q.Quiet) := by
  cases p with
  | one q =>
    rcases simple_answer env q h.1 h.2.1 with i | i | ⟨m, i⟩
    · exact .inl i
    · exact .inr (.inl i)
    · exact .inr (.inr ⟨m, i.1, i.2.1, i.2.2.1, q, rfl, i.2.2.2⟩)
  | or ps =>
    rcases any_answer env ps h.1 h.2.2 with i | i
    · exact .inl i
    · exact .inr (.inl ⟨i.1, fun ⟨q, hq, hp⟩ => i.2 q hq hp, rfl, i.2⟩)

/-! ## The loops -/

theorem joinOr_eq (l : List Text) : joinOr l = " or ".toList.intercalate l := by
  match l with
  | [] => rfl
  | [t] => simp [joinOr, List.intercalate]
  | t :: u :: r =>
    have := joinOr_eq (u :: r)
    simp only [joinOr, this, List.intercalate, List.intersperse_cons₂, List.flatten_cons]
    simp

theorem simple_title (p : Simple) : p.name = p.title ∧ p.desc = p.about := by cases p <;> exact ⟨rfl, rfl⟩

theorem title_eq (p : Package) : p.name = p.title := by
  cases p with
  | one p => exact (simple_title p).1
  | or ps =>
    simp only [Package.name, Package.title, joinOr_eq]
    congr 1

theorem about_eq (p : Package) : p.desc = p.about := by
  cases p with
  | one p => exact (simple_title p).2
  | or ps => rfl

theorem depLoop_spec (env : Env) (ps : List Package) (hf : ∀ p ∈ ps, p.Fit env) (s : St) (ok : Bool) :
    ∃ vs, List.Forall₂ (Verdict env) ps vs ∧
      (depLoop env s ok ps).1.out = s.out ++ (List.zipWith (fun p v => [Event.checking p.title p.about, v]) ps vs).flatten ∧
      ((∀ p ∈ ps, p.Present env) ∧ (depLoop env s ok ps).2 = some ok ∧ (depLoop env s ok ps).1.ret = s.ret ∨
       (∃ p ∈ ps, ¬ p.Present env) ∧ (depLoop env s ok ps).2 = some false ∧ (depLoop env s ok ps).1.ret = -1) := by
  induction ps generalizing s ok with
  | nil => exact ⟨[], .nil, by simp [depLoop], .inl ⟨by simp, rfl, rfl⟩⟩
  | cons p r ih =>
    have hr : ∀ q ∈ r, q.Fit env := fun q hq => hf q (List.mem_cons_of_mem _ hq)
    rcases package_answer env p (hf p (List.mem_cons_self ..)) with h | h | ⟨m, h⟩
    · obtain ⟨vs, h1, h2, h3⟩ := ih hr { s with out := s.out ++ [.checking p.name p.desc] ++ [.found] } ok
      refine ⟨.found :: vs, .cons (.found h.2) h1, ?_, ?_⟩
      · simp only [depLoop, h.1, h2, List.zipWith_cons_cons, List.flatten_cons]; simp [title_eq, about_eq]
      · simp only [depLoop, h.1]
        rcases h3 with ⟨a, b, c⟩ | ⟨⟨q, hq, hq'⟩, b, c⟩
        · exact .inl ⟨by simpa [h.2] using a, b, c⟩
        · exact .inr ⟨⟨q, List.mem_cons_of_mem _ hq, hq'⟩, b, c⟩
    · obtain ⟨vs, h1, h2, h3⟩ := ih hr { out := s.out ++ [.checking p.name p.desc] ++ [.message .notFound], ret := -1 } false
      refine ⟨.message .notFound :: vs, .cons (.missing _ h.2.1 h.2.2) h1, ?_, .inr ⟨⟨p, List.mem_cons_self .., h.2.1⟩, ?_⟩⟩
      · simp only [depLoop, h.1, h2, List.zipWith_cons_cons, List.flatten_cons]; simp [title_eq, about_eq]
      · simp only [depLoop, h.1]
        rcases h3 with ⟨a, b, c⟩ | ⟨_, b, c⟩
        · exact ⟨b, c⟩
        · exact ⟨b, c⟩
    · obtain ⟨vs, h1, h2, h3⟩ := ih hr { out := s.out ++ [.checking p.name p.desc] ++ [.message m], ret := -1 } false
      refine ⟨.message m :: vs, .cons (.missing _ h.2.1 h.2.2.1) h1, ?_, .inr ⟨⟨p, List.mem_cons_self .., h.2.1⟩, ?_⟩⟩
      · simp only [depLoop, h.1, h2, List.zipWith_cons_cons, List.flatten_cons]; simp [title_eq, about_eq]
      · simp only [depLoop, h.1]
        rcases h3 with ⟨a, b, c⟩ | ⟨_, b, c⟩
        · exact ⟨b, c⟩
        · exact ⟨b, c⟩

theorem skip_iff (chosen : Option (List Text)) (k : Text) : chosen.any (fun l => !l.contains k) = true ↔ ¬ Chosen chosen k := by
  cases chosen with
  | none => simp [Chosen]
  | some l => simp [Chosen]

instance (chosen : Option (List Text)) (k : Text) : Decidable (Chosen chosen k) :=
  decidable_of_iff (¬ chosen.any (fun l => !l.contains k) = true) (by rw [skip_iff]; simp)

theorem componentLoop_spec (env : Env) (chosen : Option (List Text)) (l : List (Text × List Package))
    (hf : ∀ c ∈ l, Chosen chosen c.1 → ∀ p ∈ c.2, p.Fit env) (s : St) :
    ∃ reports, List.Forall₂ (ComponentReport env) (l.filter (fun c => Chosen chosen c.1)) reports ∧
      (componentLoop env chosen s l).1.out = s.out ++ reports.flatten ∧ (componentLoop env chosen s l).2 = true ∧
      ((∀ c ∈ l, Chosen chosen c.1 → ∀ p ∈ c.2, p.Present env) ∧ (componentLoop env chosen s l).1.ret = s.ret ∨
       (∃ c ∈ l, Chosen chosen c.1 ∧ ∃ p ∈ c.2, ¬ p.Present env) ∧ (componentLoop env chosen s l).1.ret = -1 ∨ s.ret = -1 ∧
         (componentLoop env chosen s l).1.ret = -1) := by
  induction l generalizing s with
  | nil => exact ⟨[], .nil, by simp [componentLoop], rfl, .inl ⟨by simp, rfl⟩⟩
  | cons c r ih =>
    obtain ⟨k, ps⟩ := c
    have hr : ∀ c ∈ r, Chosen chosen c.1 → ∀ p ∈ c.2, p.Fit env := fun c hc => hf c (List.mem_cons_of_mem _ hc)
    by_cases hk : Chosen chosen k
    · have hs : ¬ chosen.any (fun l => !l.contains k) = true := by rw [skip_iff]; simpa using hk
      obtain ⟨vs, h1, h2, h3⟩ := depLoop_spec env ps (hf (k, ps) (List.mem_cons_self ..) hk) { s with out := s.out ++ [.header k] } true
      simp only [componentLoop, if_neg hs]
      rw [List.filter_cons_of_pos (by simpa using hk)]
      rcases hd : depLoop env { s with out := s.out ++ [.header k] } true ps with ⟨s', o⟩
      rw [hd] at h2 h3
      rcases h3 with ⟨ha, hb, hc⟩ | ⟨ha, hb, hc⟩
      · simp only at hb hc h2; subst hb
        obtain ⟨reports, i1, i2, i3, i4⟩ := ih hr { s' with out := s'.out ++ [] ++ [.blank] }
        refine ⟨_ :: reports, .cons (.usable k ps vs h1 ha) i1, ?_, i3, ?_⟩
        · show (componentLoop env chosen { s' with out := s'.out ++ [] ++ [.blank] } r).1.out = _
          rw [i2, h2]; simp
        · rcases i4 with ⟨a, b⟩ | ⟨⟨c, hc', hx⟩, b⟩ | ⟨a, b⟩
          · left
            refine ⟨?_, b.trans hc⟩
            intro c hc' hch
            rcases List.mem_cons.1 hc' with rfl | hc'
            · exact ha
            · exact a c hc' hch
          · exact .inr (.inl ⟨⟨c, List.mem_cons_of_mem _ hc', hx⟩, b⟩)
          · exact .inr (.inr ⟨hc.symm.trans a, b⟩)
      · simp only at hb hc h2; subst hb
        obtain ⟨reports, i1, i2, i3, i4⟩ := ih hr { s' with out := s'.out ++ [.cannot] ++ [.blank] }
        refine ⟨_ :: reports, .cons (.unusable k ps vs h1 ha) i1, ?_, i3, ?_⟩
        · show (componentLoop env chosen { s' with out := s'.out ++ [.cannot] ++ [.blank] } r).1.out = _
          rw [i2, h2]; simp
        · right; left
          refine ⟨⟨(k, ps), List.mem_cons_self .., hk, ha⟩, ?_⟩
          rcases i4 with ⟨a, b⟩ | ⟨_, b⟩ | ⟨a, b⟩
          · exact b.trans hc
          · exact b
          · exact b
    · have hs : chosen.any (fun l => !l.contains k) = true := by rw [skip_iff]; exact hk
      obtain ⟨reports, i1, i2, i3, i4⟩ := ih hr s
      simp only [componentLoop, if_pos hs]
      rw [List.filter_cons_of_neg (by simpa using hk)]
      refine ⟨reports, i1, i2, i3, ?_⟩
      rcases i4 with ⟨a, b⟩ | ⟨⟨c, hc', hx⟩, b⟩ | ⟨a, b⟩
      · left
        refine ⟨?_, b⟩
        intro c hc' hch
        rcases List.mem_cons.1 hc' with rfl | hc'
        · exact absurd hch hk
        · exact a c hc' hch
      · exact .inr (.inl ⟨⟨c, List.mem_cons_of_mem _ hc', hx⟩, b⟩)
      · exact .inr (.inr ⟨a, b⟩)

theorem plain_answer (env : Env) (p : Package) (h : p.Plain env) :
    (p.exists env = .answer true ∧ p.Present env) ∨ (p.exists env = .answer false ∧ ¬ p.Present env) := by
  have quiet : ∀ q : Simple, q.Quiet → q.Comparable env := by
    intro q hq; cases q <;> first | trivial | exact hq.elim
  cases p with
  | one q =>
    rcases simple_answer env q h.1 (quiet q h.2) with i | i | ⟨m, i⟩
    · exact .inl i
    · exact .inr ⟨i.1, i.2.1⟩
    · exact absurd h.2 i.2.2.2
  | or ps =>
    rcases any_answer env ps (fun q hq => (h q hq).1) (fun q hq => (h q hq).2) with i | i
    · exact .inl i
    · exact .inr ⟨i.1, fun ⟨q, hq, hp⟩ => i.2 q hq hp⟩

theorem extraLoop_spec (env : Env) (l : List (Package × Text)) (hf : ∀ e ∈ l, e.1.Plain env) (s : St) (printed : Bool) :
    ∃ sugg, Suggestions env l sugg ∧
      (extraLoop env s printed l).1.out = s.out ++ (if printed ∨ sugg = [] then sugg else .suggestions :: sugg) ∧
      (extraLoop env s printed l).1.ret = s.ret ∧ (extraLoop env s printed l).2 = true := by
  induction l generalizing s printed with
  | nil => exact ⟨[], .nil, by simp [extraLoop], rfl, rfl⟩
  | cons e r ih =>
    obtain ⟨p, n⟩ := e
    have hr : ∀ e ∈ r, e.1.Plain env := fun e he => hf e (List.mem_cons_of_mem _ he)
    rcases plain_answer env p (hf (p, n) (List.mem_cons_self ..)) with h | h
    · obtain ⟨sugg, h1, h2, h3, h4⟩ := ih hr s printed
      refine ⟨sugg, .there p n r sugg h.2 h1, ?_, ?_, ?_⟩
      · simpa only [extraLoop, h.1] using h2
      · simpa only [extraLoop, h.1] using h3
      · simpa only [extraLoop, h.1] using h4
    · obtain ⟨sugg, h1, h2, h3, h4⟩ := ih hr
        { s with out := s.out ++ (if printed then [] else [.suggestions]) ++ [.suggest p.name p.desc n] } true
      refine ⟨_ :: sugg, .missing p n r sugg h.2 h1, ?_, ?_, ?_⟩
      · simp only [extraLoop, h.1, h2]
        cases printed <;> simp [title_eq, about_eq]
      · simpa only [extraLoop, h.1] using h3
      · simpa only [extraLoop, h.1] using h4

/-! ## The order of the components -/

theorem leText_iff (a b : Text) : leText a b = true ↔ a ≤ b := by
  induction a generalizing b with
  | nil => simp [leText]
  | cons x r ih =>
    cases b with
    | nil => simp [leText]
    | cons y t =>
      simp only [leText, List.cons_le_cons_iff]
      by_cases h : x = y
      · subst h
        rw [if_pos rfl, ih]
        constructor
        · exact fun h => .inr ⟨rfl, h⟩
        · rintro (h | h)
          · exact absurd h (Nat.lt_irrefl x.toNat)
          · exact h.2
      · rw [if_neg h]
        simp only [decide_eq_true_eq]
        constructor
        · exact fun h => .inl h
        · rintro (h' | h')
          · exact h'
          · exact absurd h'.1 h

theorem insert_perm (x : Text × List Package) (l : List (Text × List Package)) : (insert x l).Perm (x :: l) := by
  induction l with
  | nil => exact .refl _
  | cons y r ih =>
    simp only [insert]
    split_ifs
    · exact .refl _
    · exact (List.Perm.cons y ih).trans (List.Perm.swap x y r)

theorem insert_sorted (x : Text × List Package) (l : List (Text × List Package)) (h : l.Pairwise (fun a b => a.1 ≤ b.1)) :
    (insert x l).Pairwise (fun a b => a.1 ≤ b.1) := by
  induction l with
  | nil => simp [insert]
  | cons y r ih =>
    simp only [insert]
    obtain ⟨h1, h2⟩ := List.pairwise_cons.1 h
    split_ifs with hle
    · have hxy := (leText_iff x.1 y.1).1 hle
      refine List.pairwise_cons.2 ⟨?_, h⟩
      intro z hz
      rcases List.mem_cons.1 hz with rfl | hz
      · exact hxy
      · exact List.le_trans hxy (h1 z hz)
    · refine List.pairwise_cons.2 ⟨?_, ih h2⟩
      intro z hz
      rcases List.mem_cons.1 ((insert_perm x r).mem_iff.1 hz) with rfl | hz
      · have : ¬ z.1 ≤ y.1 := fun h => hle ((leText_iff _ _).2 h)
        rcases List.le_total y.1 z.1 with h | h
        · exact h
        · exact absurd h this
      · exact h1 z hz

theorem sortItems_perm (l : List (Text × List Package)) : (sortItems l).Perm l := by
  induction l with
  | nil => exact .refl _
  | cons x r ih => exact (insert_perm x _).trans (List.Perm.cons x ih)

theorem sortItems_sorted (l : List (Text × List Package)) : (sortItems l).Pairwise (fun a b => a.1 ≤ b.1) := by
  induction l with
  | nil => exact List.Pairwise.nil
  | cons x r ih => exact insert_sorted x _ ih

/-! ## The properties -/

theorem usage_iff (deps : List (Text × List Package)) (chosen : Option (List Text)) :
    chosen.any (fun l => l.any (fun k => !(deps.map (·.1)).contains k)) = true ↔ ¬ Valid deps chosen := by
  cases chosen with
  | none => simp [Valid]
  | some l => simp [Valid]

/-- **C128 (the report).** If the programs that the checker asks can be run, imports fail with `ImportError` if at all, and
the version of pylint has one digit behind the point as the one that is needed: the report has a section for each
component that was asked for (all, by default), in the order of their names; a section has a line for each dependency,
which tells whether it is there and otherwise why not, and says that the component cannot be built exactly if one is
missing; then each extra that is missing is suggested. The status is zero exactly if no dependency of these components is
missing. -/
theorem report_partial (env : Env) (deps : List (Text × List Package)) (extras : List (Package × Text))
    (chosen : Option (List Text)) (hv : Valid deps chosen)
    (hd : ∀ c ∈ deps, Chosen chosen c.1 → ∀ p ∈ c.2, p.Fit env) (he : ∀ e ∈ extras, e.1.Plain env) :
    ∃ comps reports sugg,
      (comps.Perm (deps.filter (fun c => Chosen chosen c.1)) ∧ comps.Pairwise (fun a b => a.1 ≤ b.1)) ∧
      List.Forall₂ (ComponentReport env) comps reports ∧
      Suggestions env extras sugg ∧
      (main env deps extras chosen).1 = reports.flatten ++ (if sugg = [] then [] else .suggestions :: sugg) ∧
      ((∀ c ∈ deps, Chosen chosen c.1 → ∀ p ∈ c.2, p.Present env) ∧ (main env deps extras chosen).2 = .returns 0 ∨
       (∃ c ∈ deps, Chosen chosen c.1 ∧ ∃ p ∈ c.2, ¬ p.Present env) ∧ (main env deps extras chosen).2 = .returns (-1)) := by
  have hmem : ∀ c, c ∈ sortItems deps ↔ c ∈ deps := fun c => (sortItems_perm deps).mem_iff
  obtain ⟨reports, h1, h2, h3, h4⟩ := componentLoop_spec env chosen (sortItems deps)
    (fun c hc => hd c ((hmem c).1 hc)) { out := [], ret := 0 }
  have hu : ¬ chosen.any (fun l => l.any (fun k => !(deps.map (·.1)).contains k)) = true := by
    rw [usage_iff]; simpa using hv
  simp only [main, if_neg hu]
  rcases hc : componentLoop env chosen { out := [], ret := 0 } (sortItems deps) with ⟨s, b⟩
  rw [hc] at h2 h3 h4
  simp only at h2 h3 h4; subst h3
  obtain ⟨sugg, g1, g2, g3, g4⟩ := extraLoop_spec env extras he s false
  rcases hx : extraLoop env s false extras with ⟨s', b'⟩
  rw [hx] at g2 g3 g4
  simp only at g2 g3 g4; subst g4
  simp only [hx]
  refine ⟨_, reports, sugg, ⟨(sortItems_perm deps).filter _, (sortItems_sorted deps).filter _⟩, h1, g1, ?_, ?_⟩
  · rw [g2, h2]
    by_cases hs : sugg = [] <;> simp [hs]
  · rcases h4 with ⟨a, b⟩ | ⟨⟨c, hc', hx'⟩, b⟩ | ⟨a, b⟩
    · exact .inl ⟨fun c hc' => a c ((hmem c).2 hc'), by rw [g3, b]⟩
    · exact .inr ⟨⟨c, (hmem c).1 hc', hx'⟩, by rw [g3, b]⟩
    · exact absurd a (by decide)

/-- **C128 (a component that does not exist).** Nothing is examined or written if a component is asked for that does not
exist. -/
theorem unknown_component (env : Env) (deps : List (Text × List Package)) (extras : List (Package × Text)) (l : List Text)
    (k : Text) (hk : k ∈ l) (hn : ∀ c ∈ deps, c.1 ≠ k) : main env deps extras (some l) = ([], .usage) := by
  have : (some l).any (fun l => l.any (fun k => !(deps.map (·.1)).contains k)) = true := by
    rw [usage_iff]
    intro h
    obtain ⟨c, hc, e⟩ := h l rfl k hk
    exact hn c hc e
  simp only [main, if_pos this]

theorem componentLoop_congr (env : Env) (a b : Option (List Text)) (h : ∀ k, Chosen a k ↔ Chosen b k) (s : St)
    (l : List (Text × List Package)) : componentLoop env a s l = componentLoop env b s l := by
  induction l generalizing s with
  | nil => rfl
  | cons c r ih =>
    obtain ⟨k, ps⟩ := c
    have : (a.any (fun l => !l.contains k)) = (b.any (fun l => !l.contains k)) := by
      rw [Bool.eq_iff_iff, skip_iff, skip_iff, h]
    simp only [componentLoop, this, ih]

/-- **C128 (the choice is a set).** Neither the order in which components are asked for nor asking twice matters. -/
theorem choice_is_set (env : Env) (deps : List (Text × List Package)) (extras : List (Package × Text)) (a b : List Text)
    (h : ∀ k, k ∈ a ↔ k ∈ b) : main env deps extras (some a) = main env deps extras (some b) := by
  have hc : ∀ k, Chosen (some a) k ↔ Chosen (some b) k := by
    intro k; simp [Chosen, h]
  have hv : Valid deps (some a) ↔ Valid deps (some b) := by
    simp [Valid, h]
  have hu : (some a).any (fun l => l.any (fun k => !(deps.map (·.1)).contains k)) =
      (some b).any (fun l => l.any (fun k => !(deps.map (·.1)).contains k)) := by
    rw [Bool.eq_iff_iff, usage_iff, usage_iff, hv]
  simp only [main, hu, componentLoop_congr env _ _ hc]

/-- **C128 (default).** Without a choice all components are examined. -/
theorem default_is_all (env : Env) (deps : List (Text × List Package)) (extras : List (Package × Text)) :
    main env deps extras none = main env deps extras (some (deps.map (·.1))) := by
  have hv : ¬ (some (deps.map (·.1))).any (fun l => l.any (fun k => !(deps.map (·.1)).contains k)) = true := by
    rw [usage_iff, not_not]; rintro l e k hk
    injection e with e; subst e
    obtain ⟨c, hc, e⟩ := List.mem_map.1 hk
    exact ⟨c, hc, e⟩
  have hl : ∀ (l : List (Text × List Package)) (s : St), (∀ c ∈ l, c ∈ deps) →
      componentLoop env none s l = componentLoop env (some (deps.map (·.1))) s l := by
    intro l
    induction l with
    | nil => intros; rfl
    | cons c r ih =>
      intro s h
      obtain ⟨k, ps⟩ := c
      have : (some (deps.map (·.1))).any (fun l => !l.contains k) = false := by
        rw [Bool.eq_false_iff, Ne, skip_iff, not_not]
        rintro l e; injection e with e; subst e
        exact List.mem_map.2 ⟨(k, ps), h _ (List.mem_cons_self ..), rfl⟩
      simp only [componentLoop, this, ih _ (fun c hc => h c (List.mem_cons_of_mem _ hc))]
      simp
  simp only [main, if_neg hv, Option.any_none, hl _ _ (fun c hc => (sortItems_perm deps).mem_iff.1 hc)]
  simp

theorem depLoop_stops (env : Env) (ps : List Package) (p : Package) (hp : p ∈ ps) (hc : p.exists env = .crash) (s : St) (ok : Bool) :
    (depLoop env s ok ps).2 = none := by
  induction ps generalizing s ok with
  | nil => exact absurd hp (by simp)
  | cons q r ih =>
    rcases List.mem_cons.1 hp with rfl | hp
    · simp only [depLoop, hc]
    · simp only [depLoop]
      split
      · exact ih hp _ _
      · exact ih hp _ _
      · exact ih hp _ _
      · rfl

theorem componentLoop_stops (env : Env) (chosen : Option (List Text)) (l : List (Text × List Package)) (c : Text × List Package)
    (hl : c ∈ l) (hk : Chosen chosen c.1) (p : Package) (hp : p ∈ c.2) (hc : p.exists env = .crash) (s : St) :
    (componentLoop env chosen s l).2 = false := by
  induction l generalizing s with
  | nil => exact absurd hl (by simp)
  | cons d r ih =>
    obtain ⟨k, ps⟩ := d
    simp only [componentLoop]
    split_ifs with hs
    · rcases List.mem_cons.1 hl with rfl | hl
      · exact absurd hk ((skip_iff _ _).1 hs)
      · exact ih hl s
    · rcases List.mem_cons.1 hl with rfl | hl
      · have := depLoop_stops env ps p hp hc { s with out := s.out ++ [.header k] } true
        rcases hd : depLoop env { s with out := s.out ++ [.header k] } true ps with ⟨s', o⟩
        rw [hd] at this; simp only at this; subst this; rfl
      · rcases hd : depLoop env { s with out := s.out ++ [.header k] } true ps with ⟨s', o⟩
        cases o with
        | none => rfl
        | some b => exact ih hl _

/-- **Disagreement with C128.** A Python module that is installed but cannot be imported for another reason than
`ImportError` (a syntax error for this version of Python, say) ends the checker: there is no verdict about this or any
later dependency. -/
theorem broken_module_no_verdict (env : Env) (deps : List (Text × List Package)) (extras : List (Package × Text))
    (chosen : Option (List Text)) (hv : Valid deps chosen) (c : Text × List Package) (hc : c ∈ deps) (hk : Chosen chosen c.1)
    (n d : Text) (hp : .one (.module n d) ∈ c.2) (hb : env.imp n = .otherError) : (main env deps extras chosen).2 = .crash := by
  have hu : ¬ chosen.any (fun l => l.any (fun k => !(deps.map (·.1)).contains k)) = true := by
    rw [usage_iff]; simpa using hv
  have hcr : (Package.one (.module n d)).exists env = .crash := by simp [Package.exists, Simple.exists, hb]
  have := componentLoop_stops env chosen (sortItems deps) c ((sortItems_perm deps).mem_iff.2 hc) hk _ hp hcr { out := [], ret := 0 }
  simp only [main, if_neg hu]
  rcases hs : componentLoop env chosen { out := [], ret := 0 } (sortItems deps) with ⟨s, b⟩
  rw [hs] at this; simp only at this; subst this; rfl

/-! ## Non-vacuity, and the version of pylint -/

def kRunner : Text := "CAmkES runner".toList
def kTests : Text := "CAmkES test suite".toList
def kSel4 : Text := "seL4".toList

/-- Some of the table, check_deps.py:155-179. -/
def someDeps : List (Text × List Package) :=
  [(kSel4, [.one (.binary "gcc".toList "C compiler".toList), .one (.module "jinja2".toList "Python templating module".toList)]),
   (kTests, [.one (.pylint "pylint".toList "Python linter".toList ['1'] ['4']), .one (.binary "spin".toList "model checker".toList)]),
   (kRunner, [.one (.module "jinja2".toList "Python templating module".toList),
     .one (.moduleWith "six".toList "compatibility".toList "assertCountEqual".toList)])]

/-- Some of the extras, check_deps.py:181-227. -/
def someExtras : List (Package × Text) :=
  [(.one (.binary "ccache".toList "accelerator".toList), "faster".toList),
   (.or [.binary "arm-none-eabi-gcc".toList "ARM C compiler".toList, .binary "arm-linux-gnu-gcc".toList "ARM C compiler".toList], "for ARM".toList)]

def someEnv (version : Text) : Env where
  which n := if n = "gcc".toList ∨ n = "pylint".toList ∨ n = "arm-linux-gnu-gcc".toList then some 0 else some 1
  pylint := some ("No config file\npylint ".toList ++ version ++ "\nastroid 1.4\n".toList)
  imp n := if n = "jinja2".toList then .module (fun _ => false) else if n = "six".toList then .module (fun _ => false) else .importError
  pkgConfig _ := some 1
  cunit := none

/-- The report of an old system. -/
theorem demo_report : main (someEnv "1.3.1".toList) someDeps someExtras (some [kTests, kRunner]) =
    ([.header kRunner,
      .checking "jinja2".toList "Python templating module".toList, .found,
      .checking "six".toList "compatibility".toList, .message (.noAttr "six".toList "assertCountEqual".toList),
      .cannot, .blank,
      .header kTests,
      .checking "pylint".toList "Python linter".toList, .message (.tooOld ['1'] ['3']),
      .checking "spin".toList "model checker".toList, .message .notFound,
      .cannot, .blank,
      .suggestions, .suggest "ccache".toList "accelerator".toList "faster".toList], .returns (-1)) := by
  decide +kernel

theorem demo_fine : main (someEnv "1.3.1".toList) someDeps someExtras (some [kSel4]) =
    ([.header kSel4, .checking "gcc".toList "C compiler".toList, .found,
      .checking "jinja2".toList "Python templating module".toList, .found, .blank,
      .suggestions, .suggest "ccache".toList "accelerator".toList "faster".toList], .returns 0) := by
  decide +kernel

theorem some_which (v n : Text) : (someEnv v).which n ≠ none := by
  simp only [someEnv]; split <;> simp

theorem some_imp (v n : Text) : (someEnv v).imp n ≠ .otherError := by
  simp only [someEnv]; split
  · simp
  · split <;> simp

theorem some_pylint (v : Text) : (someEnv v).pylint ≠ none := Option.some_ne_none _

theorem some_comparable : (Simple.pylint "pylint".toList "Python linter".toList ['1'] ['4']).Comparable (someEnv "1.3.1".toList) := by
  refine ⟨by decide, by decide, ?_⟩
  intro out v ho hv
  have hs : search true ("No config file\npylint ".toList ++ "1.3.1".toList ++ "\nastroid 1.4\n".toList) = some (['1'], ['3']) := by
    decide +kernel
  have ho : "No config file\npylint ".toList ++ "1.3.1".toList ++ "\nastroid 1.4\n".toList = out := Option.some.inj ho
  rw [← tells_iff, ← ho, hs] at hv
  have : v = (['1'], ['3']) := (Option.some.inj hv).symm
  rw [this]; rfl

/-- The report of an old system meets the hypotheses of `report_partial`. -/
theorem demo_hypotheses : Valid someDeps (some [kTests, kRunner]) ∧
    (∀ c ∈ someDeps, Chosen (some [kTests, kRunner]) c.1 → ∀ p ∈ c.2, p.Fit (someEnv "1.3.1".toList)) ∧
    (∀ e ∈ someExtras, e.1.Plain (someEnv "1.3.1".toList)) := by
  refine ⟨?_, ?_, ?_⟩
  · have h : ¬ (some [kTests, kRunner]).any (fun l => l.any (fun k => !(someDeps.map (·.1)).contains k)) = true := by decide +kernel
    rw [usage_iff, not_not] at h; exact h
  · intro c hc _ p hp
    unfold someDeps at hc
    rcases List.mem_cons.1 hc with rfl | hc
    · rcases List.mem_cons.1 hp with rfl | hp
      · exact ⟨some_which _ _, trivial, trivial⟩
      · cases List.mem_singleton.1 hp
        exact ⟨some_imp _ _, trivial, trivial⟩
    · rcases List.mem_cons.1 hc with rfl | hc
      · rcases List.mem_cons.1 hp with rfl | hp
        · exact ⟨⟨some_which _ _, fun _ => some_pylint _⟩, some_comparable, trivial⟩
        · cases List.mem_singleton.1 hp
          exact ⟨some_which _ _, trivial, trivial⟩
      · cases List.mem_singleton.1 hc
        rcases List.mem_cons.1 hp with rfl | hp
        · exact ⟨some_imp _ _, trivial, trivial⟩
        · cases List.mem_singleton.1 hp
          exact ⟨some_imp _ _, trivial, trivial⟩
  · intro e he
    unfold someExtras at he
    rcases List.mem_cons.1 he with rfl | he
    · exact ⟨some_which _ _, trivial⟩
    · cases List.mem_singleton.1 he
      intro p hp
      rcases List.mem_cons.1 hp with rfl | hp
      · exact ⟨some_which _ _, trivial⟩
      · cases List.mem_singleton.1 hp
        exact ⟨some_which _ _, trivial⟩

/-- **Disagreement with C128.** Versions are compared as decimal numbers, so pylint 1.10, which is newer than the 1.4 that
is needed, is refused. -/
theorem newer_pylint_refused :
    (Simple.pylint "pylint".toList "Python linter".toList ['1'] ['4']).Present (someEnv "1.10.2".toList) ∧
    (Simple.pylint "pylint".toList "Python linter".toList ['1'] ['4']).exists (someEnv "1.10.2".toList) = .refuse (.tooOld ['1'] ['1', '0']) := by
  refine ⟨⟨by decide +kernel, _, (['1'], ['1', '0']), rfl, ?_, ?_⟩, by decide +kernel⟩
  · rw [← tells_iff]; decide +kernel
  · right; decide

end Verif.DepCheck
