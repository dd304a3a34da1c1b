import Verif.VerNames.Spec
import Verif.Diag.Props

/-!
# C141: the generated theories are made once, and under the names by which they refer to each other
-/

namespace Verif.VerNames

open Verif.Diag

/-! ### Each file is made once -/

theorem foldl_gen : ∀ (gs : List Gen) (s : State), gs.foldl gen s =
    ⟨s.pending ++ gs, s.opts ++ gs.flatMap option, s.runs⟩
  | [], s => by simp
  | g :: gs, s => by
    rw [List.foldl_cons, foldl_gen gs]
    simp [gen]

theorem script_plain (first : List Gen) (dir adl : Text) : (script first false dir adl).runs =
      (if first = [] then [] else [⟨false, first, first.flatMap option⟩]) ∧
    (script first false dir adl).pending = [] := by
  unfold script output
  rw [foldl_gen]
  by_cases h : first = [] <;> simp [h]

theorem script_ver (first : List Gen) (dir adl : Text) (hv : ∀ g ∈ first, g.ver = []) : (script first true dir adl).runs =
      (if first = [] then [] else [⟨false, first, []⟩]) ++ [⟨true, verGens dir (verBase adl), (verGens dir (verBase adl)).flatMap option⟩] ∧
    (script first true dir adl).pending = [] := by
  have hf : first.flatMap option = [] := by
    rw [List.flatMap_eq_nil_iff]
    intro g hg
    unfold option
    rw [hv g hg]
    rfl
  unfold script output
  rw [foldl_gen, hf]
  by_cases h : first = []
  · simp [h, gen, verGens]
  · simp [h, gen, verGens]

/-- C141: whatever files the instances need, the last check of the build holds, and every file that was asked for is made by exactly
one run of the tool, in order; the theories by a run that loads the final objects and the others by one that does not. -/
theorem made_once (first : List Gen) (verification : Bool) (dir adl : Text) (hv : ∀ g ∈ first, g.ver = []) :
    checked (script first verification dir adl) = true ∧
    (script first verification dir adl).runs.flatMap (·.gens) = first ++ (if verification then verGens dir (verBase adl) else []) ∧
    (∀ r ∈ (script first verification dir adl).runs, r.loads = false → r.gens = first) ∧
    (∀ r ∈ (script first verification dir adl).runs, r.loads = true → r.gens = verGens dir (verBase adl)) := by
  cases verification with
  | false =>
    obtain ⟨h1, h2⟩ := script_plain first dir adl
    unfold checked
    rw [h1, h2]
    by_cases h : first = [] <;> simp [h]
  | true =>
    obtain ⟨h1, h2⟩ := script_ver first dir adl hv
    unfold checked
    rw [h1, h2]
    by_cases h : first = [] <;> simp [h]

/-! ### Names -/

theorem nameWE_stem {adl stem : Text} (h : Stem adl stem) : nameWE adl = stem := by
  obtain ⟨dir, ext, rfl, hd, hs, hdot, he⟩ := h
  have hbase : baseName (dir ++ stem ++ ext) = stem ++ ext := by
    rw [List.append_assoc]
    refine base_name_after_slash dir (stem ++ ext) ?_ hd
    rw [List.mem_append]
    rintro (h | h)
    · exact hs h
    · rcases he with rfl | ⟨e, rfl, he⟩
      · cases h
      · rcases List.mem_cons.mp h with h | h
        · exact absurd h (by decide)
        · exact he h
  unfold nameWE
  rw [hbase]
  have : ∀ (l : Text), '.' ∉ l → (l ++ ext).takeWhile (fun x => decide (x ≠ '.')) = l := by
    intro l
    induction l with
    | nil =>
      intro _
      rcases he with rfl | ⟨e, rfl, _⟩ <;> simp
    | cons c l ih =>
      intro hm
      rw [List.mem_cons, not_or] at hm
      rw [List.cons_append, List.takeWhile_cons_of_pos (by simpa using Ne.symm hm.1), ih hm.2]
  exact this stem hdot

theorem makeC_word (s : Text) : ∀ c ∈ makeC s, word c = true := by
  intro c hc
  unfold makeC at hc
  obtain ⟨d, _, rfl⟩ := List.mem_map.mp hc
  by_cases h : word d = true
  · rw [if_pos h]; exact h
  · rw [if_neg h]; decide

theorem verBase_no_slash (adl : Text) : '/' ∉ verBase adl := fun h => absurd (makeC_word _ _ h) (by decide)

theorem no_newline (adl : Text) : '\n' ∉ verBase adl := fun h => absurd (makeC_word _ _ h) (by decide)

theorem head_kept (c : Char) (r : Text) (hd : ¬ ('0' ≤ c ∧ c ≤ '9')) :
    makeC (c :: r) = (if word c then c else '_') :: r.map (fun c => if word c then c else '_') := by
  unfold makeC
  simp only [if_neg hd]
  rfl

theorem dropWhile_nil {p : Char → Bool} : ∀ {l : Text}, (∀ x ∈ l, p x = true) → l.dropWhile p = []
  | [], _ => rfl
  | c :: l, h => by
    rw [List.dropWhile_cons_of_pos (h c List.mem_cons_self)]
    exact dropWhile_nil fun x hx => h x (List.mem_cons_of_mem _ hx)

/-- C141: the name that the build makes for theories is accepted by the tool exactly if the name of the assembly's file begins
with a letter, whatever follows. -/
theorem name_accepted_iff {adl stem : Text} (h : Stem adl stem) : baseNameOk (verBase adl) = true ↔ Begins stem := by
  unfold verBase
  rw [nameWE_stem h]
  cases stem with
  | nil =>
    refine ⟨fun h => absurd h (by decide), ?_⟩
    rintro ⟨c, r, h, _⟩
    cases h
  | cons c r =>
    have hb : Begins (c :: r) ↔ IsLetter c := by
      constructor
      · rintro ⟨_, _, h, hl⟩; cases h; exact hl
      · intro hl; exact ⟨c, r, rfl, hl⟩
    rw [hb]
    by_cases hd : '0' ≤ c ∧ c ≤ '9'
    · have hno : ¬ IsLetter c := by
        intro hl
        have hh : letter c = true := (letter_iff c).mpr hl
        have h1 : 48 ≤ c.toNat := hd.1
        have h2 : c.toNat ≤ 57 := hd.2
        unfold IsLetter at hl
        omega
      constructor
      · intro hok
        exfalso
        unfold makeC at hok
        simp only [if_pos hd, List.map_cons, baseNameOk, Bool.and_eq_true] at hok
        exact absurd hok.1 (by decide)
      · intro hl; exact absurd hl hno
    · rw [head_kept c r hd, baseNameOk, Bool.and_eq_true]
      have htail : ((r.map (fun c => if word c then c else '_')).dropWhile word = []) := by
        apply dropWhile_nil
        intro x hx
        obtain ⟨d, _, rfl⟩ := List.mem_map.mp hx
        by_cases h : word d = true
        · rw [if_pos h]; exact h
        · rw [if_neg h]; decide
      rw [htail]
      simp only [decide_true, Bool.true_or, and_true]
      by_cases hw : word c = true
      · rw [if_pos hw, letter_iff]
      · rw [if_neg hw]
        constructor
        · intro h; exact absurd h (by decide)
        · intro hl
          exact absurd ((word_iff c).mpr (.inl hl)) hw

theorem thyDir_slash (dir : Text) : ∃ d, thyDir dir = d ++ ['/'] :=
  ⟨dir ++ "/cdl-refine".toList, by unfold thyDir; rw [List.append_assoc]; rfl⟩

theorem thy_ok (dir adl suffix : Text) (hs : '/' ∉ suffix) :
    outfileOk (verBase adl ++ suffix) (thyDir dir ++ verBase adl ++ (suffix ++ ".thy".toList)) = true := by
  rw [List.append_assoc]
  refine (outfile_named ?_ (.inr (thyDir_slash dir))).mpr (.inl (List.append_assoc _ _ _).symm)
  simp only [List.mem_append, not_or]
  exact ⟨verBase_no_slash adl, hs, by decide⟩

theorem gens_render (dir adl : Text) : ∀ g ∈ verGens dir (verBase adl), rendered (some (verBase adl)) g = true := by
  intro g hg
  unfold verGens at hg
  simp only [List.mem_cons, List.not_mem_nil, or_false] at hg
  rcases hg with rfl | rfl | rfl
  · rfl
  · exact thy_ok dir adl "_Arch_Spec".toList (by decide)
  · exact thy_ok dir adl "_CDL_Refine".toList (by decide)

theorem opts_nonempty (dir : Text) {base : Text} (h : base ≠ []) : (verGens dir base).flatMap option = [base, base, base] := by
  simp [verGens, option, h]

/-- C141: all runs of the tool get through the checks of names, if the name of the assembly's file begins with a letter. -/
theorem runs_pass_partial (first : List Gen) (verification : Bool) (dir : Text) {adl stem : Text} (h : Stem adl stem) (hb : Begins stem)
    (hv : ∀ g ∈ first, g.ver = [] ∧ ∃ n, g.template = .other n) : ∀ r ∈ (script first verification dir adl).runs, passes r = true := by
  have hv1 : ∀ g ∈ first, g.ver = [] := fun g hg => (hv g hg).1
  have hfirst : passes ⟨false, first, []⟩ = true := by
    unfold passes
    rw [Bool.and_eq_true]
    refine ⟨rfl, ?_⟩
    rw [List.all_eq_true]
    intro g hg
    obtain ⟨n, hn⟩ := (hv g hg).2
    unfold rendered
    rw [hn]
  have hf : first.flatMap option = [] := by
    rw [List.flatMap_eq_nil_iff]
    intro g hg
    unfold option
    rw [hv1 g hg]
    rfl
  have hok := (name_accepted_iff h).mpr hb
  have hne : verBase adl ≠ [] := fun he => by rw [he] at hok; exact absurd hok (by decide)
  have hver : passes ⟨true, verGens dir (verBase adl), (verGens dir (verBase adl)).flatMap option⟩ = true := by
    rw [opts_nonempty dir hne]
    unfold passes
    rw [Bool.and_eq_true]
    refine ⟨hok, ?_⟩
    rw [List.all_eq_true]
    exact gens_render dir adl
  intro r hr
  cases verification with
  | false =>
    rw [(script_plain first dir adl).1, hf] at hr
    split at hr
    · cases hr
    · rw [List.mem_singleton] at hr; subst hr; exact hfirst
  | true =>
    rw [(script_ver first dir adl hv1).1, List.mem_append] at hr
    rcases hr with hr | hr
    · split at hr
      · cases hr
      · rw [List.mem_singleton] at hr; subst hr; exact hfirst
    · rw [List.mem_singleton] at hr; subst hr; exact hver

/-- **Disagreement with C141.** If the name of the assembly's file begins with anything else, such as a digit, the build makes a name
that the tool then refuses, or none: no theory is made. -/
theorem other_names_refused (first : List Gen) (dir : Text) {adl stem : Text} (h : Stem adl stem) (hb : ¬ Begins stem)
    (hv : ∀ g ∈ first, g.ver = []) :
    ∃ r ∈ (script first true dir adl).runs, r.gens = verGens dir (verBase adl) ∧ passes r = false := by
  refine ⟨⟨true, verGens dir (verBase adl), (verGens dir (verBase adl)).flatMap option⟩, ?_, rfl, ?_⟩
  · rw [(script_ver first dir adl hv).1, List.mem_append]
    exact .inr List.mem_cons_self
  · have hok : baseNameOk (verBase adl) = false := by
      cases hok : baseNameOk (verBase adl)
      · rfl
      · exact absurd ((name_accepted_iff h).mp hok) hb
    by_cases hne : verBase adl = []
    · have hf : rendered none ⟨adlThy dir (verBase adl), .arch, verBase adl⟩ = false := by
        show outfileOk ("None".toList ++ "_Arch_Spec".toList) (adlThy dir (verBase adl)) = false
        rw [Bool.eq_false_iff]
        intro hh
        unfold adlThy at hh
        rw [hne, List.append_nil] at hh
        rcases (outfile_named (by decide) (.inr (thyDir_slash dir))).mp hh with h | h
        · exact absurd h (by decide)
        · exact absurd h.1 (by decide)
      have ho : (verGens dir (verBase adl)).flatMap option = [] := by simp [verGens, option, hne]
      rw [ho]
      unfold passes
      rw [Bool.and_eq_false_iff]
      refine .inr ?_
      rw [List.all_eq_false]
      refine ⟨_, List.mem_cons_of_mem _ List.mem_cons_self, ?_⟩
      rw [show baseOf ⟨true, verGens dir (verBase adl), []⟩ = none from rfl, hf]
      decide
    · rw [opts_nonempty dir hne]
      unfold passes
      rw [Bool.and_eq_false_iff]
      exact .inl hok

/-! ### What refers to what -/

/-- C141: the theories of the session are exactly the theories that the build makes, each where Isabelle looks for it, next to the
file of the session, and no two of them are in the same file. -/
theorem session_complete (dir adl : Text) :
    (∀ g ∈ verGens dir (verBase adl), g.template = .root → ∀ t ∈ sessionTheories (verBase adl), ∃ file,
      LooksFor g.out t file ∧ file ∈ cdlThy dir (verBase adl) :: (verGens dir (verBase adl)).map (·.out)) ∧
    (∀ g ∈ verGens dir (verBase adl), g.template = .root → ∀ file ∈ cdlThy dir (verBase adl) :: (verGens dir (verBase adl)).map (·.out),
      file = g.out ∨ ∃ t ∈ sessionTheories (verBase adl), LooksFor g.out t file) ∧
    (sessionTheories (verBase adl)).Nodup := by
  refine ⟨?_, ?_, ?_⟩
  · intro g hg hr t ht
    have hg' : g = ⟨thyDir dir ++ "ROOT".toList, .root, verBase adl⟩ := by
      unfold verGens at hg
      simp only [List.mem_cons, List.not_mem_nil, or_false] at hg
      rcases hg with rfl | rfl | rfl
      · rfl
      · cases hr
      · cases hr
    subst hg'
    refine ⟨thyDir dir ++ t ++ ".thy".toList, ⟨thyDir dir, rfl, rfl⟩, ?_⟩
    unfold sessionTheories at ht
    simp only [List.mem_cons, List.not_mem_nil, or_false] at ht
    rcases ht with rfl | rfl | rfl
    · have : thyDir dir ++ (verBase adl ++ "_CDL".toList) ++ ".thy".toList = cdlThy dir (verBase adl) := by
        unfold cdlThy
        rw [← List.append_assoc, List.append_assoc]
        rfl
      rw [this]; exact List.mem_cons_self
    · have : thyDir dir ++ (verBase adl ++ "_Arch_Spec".toList) ++ ".thy".toList = adlThy dir (verBase adl) := by
        unfold adlThy
        rw [← List.append_assoc, List.append_assoc]
        rfl
      rw [this]
      simp [verGens]
    · have : thyDir dir ++ (verBase adl ++ "_CDL_Refine".toList) ++ ".thy".toList = refineThy dir (verBase adl) := by
        unfold refineThy
        rw [← List.append_assoc, List.append_assoc]
        rfl
      rw [this]
      simp [verGens]
  · intro g hg hr file hf
    have hg' : g = ⟨thyDir dir ++ "ROOT".toList, .root, verBase adl⟩ := by
      unfold verGens at hg
      simp only [List.mem_cons, List.not_mem_nil, or_false] at hg
      rcases hg with rfl | rfl | rfl
      · rfl
      · cases hr
      · cases hr
    subst hg'
    unfold verGens at hf
    simp only [List.map_cons, List.map_nil, List.mem_cons, List.not_mem_nil, or_false] at hf
    rcases hf with rfl | rfl | rfl | rfl
    · refine .inr ⟨_, by unfold sessionTheories; exact List.mem_cons_self, thyDir dir, rfl, ?_⟩
      unfold cdlThy
      rw [← List.append_assoc, List.append_assoc (thyDir dir ++ verBase adl)]
      rfl
    · exact .inl rfl
    · refine .inr ⟨verBase adl ++ "_Arch_Spec".toList, by simp [sessionTheories], thyDir dir, rfl, ?_⟩
      unfold adlThy
      rw [← List.append_assoc, List.append_assoc (thyDir dir ++ verBase adl)]
      rfl
    · refine .inr ⟨verBase adl ++ "_CDL_Refine".toList, by simp [sessionTheories], thyDir dir, rfl, ?_⟩
      unfold refineThy
      rw [← List.append_assoc, List.append_assoc (thyDir dir ++ verBase adl)]
      rfl
  · simp [sessionTheories]

/-- C141: the proof imports theories of its session only, and all of them but itself. -/
theorem imports_made (adl : Text) : (∀ t ∈ proofImports (verBase adl), t ∈ sessionTheories (verBase adl)) ∧
    (∀ t ∈ sessionTheories (verBase adl), t ∈ proofImports (verBase adl) ∨ t = verBase adl ++ "_CDL_Refine".toList) ∧
    verBase adl ++ "_CDL_Refine".toList ∉ proofImports (verBase adl) := by
  refine ⟨?_, ?_, ?_⟩
  · intro t ht
    unfold proofImports at ht
    simp only [List.mem_cons, List.not_mem_nil, or_false] at ht
    rcases ht with rfl | rfl <;> simp [sessionTheories]
  · intro t ht
    unfold sessionTheories at ht
    simp only [List.mem_cons, List.not_mem_nil, or_false] at ht
    rcases ht with rfl | rfl | rfl <;> simp [proofImports]
  · simp [proofImports]

/-! ### A concrete case -/

theorem demo_stem : Stem "/src/apps/my-app.v2.camkes".toList "my-app".toList :=
  ⟨"/src/apps/".toList, ".v2.camkes".toList, by decide, .inr ⟨"/src/apps".toList, by decide⟩, by decide, by decide,
    .inr ⟨"v2.camkes".toList, by decide, by decide⟩⟩

theorem demo_names : (verBase "/src/apps/my-app.v2.camkes".toList, verBase "3d.camkes".toList, verBase "x/.camkes".toList, adlThy "b".toList (verBase "a.camkes".toList)) =
    ("my_app".toList, "_3d".toList, [], "b/cdl-refine/a_Arch_Spec.thy".toList) := by decide +kernel

theorem demo_runs : ((script [⟨"graph.dot".toList, .other "graph.dot".toList, []⟩] true "b".toList "a.camkes".toList).runs.map passes,
      (script [⟨"graph.dot".toList, .other "graph.dot".toList, []⟩] true "b".toList "3d.camkes".toList).runs.map passes) =
    ([true, true], [true, false]) := by decide +kernel

end Verif.VerNames
