import Verif.Imports.Lemmas

/-!
# C01, C02: imports
-/

namespace Verif.Imports
open Spec

variable {σ : Type}

/-- **C01 (refinement).** Running the work-list loop of stage 2 long enough gives exactly
the depth-first expansion of the file (`Spec.Expands`), including its failures. -/
theorem resolve_eq_depth_first (env : Env σ) (hfin : FiniteFS env)
    (file : Option Path) (seen : List Path) (is : List (Item σ)) (r : Res σ) :
    (∃ n, resolve env n file is seen = some r) ↔ Expands env file seen is r := by
  constructor
  · rintro ⟨n, hn⟩
    obtain ⟨files, hfin⟩ := hfin
    obtain ⟨r', hr'⟩ := expands_total hfin _ seen (Nat.le_refl _) is file
    obtain ⟨m, hm⟩ := expands_resolve hr'
    rw [loop_det hn hm]
    exact hr'
  · exact expands_resolve

/-- **C02 (termination).** Over finitely many files import resolution terminates
whatever the import graph looks like. -/
theorem resolve_terminates (env : Env σ) (hfin : FiniteFS env)
    (file : Option Path) (seen : List Path) (is : List (Item σ)) :
    ∃ n r, ∀ m, n ≤ m → resolve env m file is seen = some r := by
  obtain ⟨files, hfin⟩ := hfin
  obtain ⟨r, hr⟩ := expands_total hfin _ seen (Nat.le_refl _) is file
  obtain ⟨n, hn⟩ := expands_resolve hr
  refine ⟨n, r, fun m hm => ?_⟩
  have := loop_mono hn (m - n)
  rwa [Nat.add_sub_cancel' hm] at this

/-- **C01 (each file once).** When `parse_file` succeeds, the statements of the root file
appear exactly once and in source order; the statements of any other file
appear either not at all or exactly once and in source order. -/
theorem parseFile_once (env : Env σ) (hfin : FiniteFS env) (root : Path) (js : List (Item σ))
    (rr : List Path) (hroot : env.parse1 root = some (js, rr))
    (n : Nat) (out : List (Option Path × σ)) (seen' : List Path)
    (h : parseFile env n root = some (.ok (out, seen'))) :
    stmtsFrom (some root) out = ownStmts js ∧
    ∀ f, f ≠ root → stmtsFrom (some f) out = [] ∨
      ∃ fs fr, env.parse1 f = some (fs, fr) ∧ stmtsFrom (some f) out = ownStmts fs := by
  unfold parseFile at h
  rw [hroot] at h
  have hx := (resolve_eq_depth_first env hfin _ _ _ _).mp ⟨n, h⟩
  have hF := expands_from hx out seen' rfl (by intro f hf; cases hf; simp)
  refine ⟨hF.1, fun f hne => ?_⟩
  by_cases hm : f ∈ root :: rr
  · left; exact hF.2.2.1 f (by simpa using hne) hm
  · rcases hF.2.2.2 f hm with h | ⟨fs, fr, hp, _, he⟩
    · exact .inl h
    · exact .inr ⟨fs, fr, hp, he⟩

/-- **C01 (nothing is missed).** With the plain reader (no C preprocessor, so a file's
read set is the file itself), every file in the final read set contributes all
its statements exactly once, and the read set is closed under imports and
contains the root. -/
theorem parseFile_complete (env : Env σ) (hfin : FiniteFS env)
    (hplain : ∀ f fs fr, env.parse1 f = some (fs, fr) → fr = [])
    (root : Path) (n : Nat) (out : List (Option Path × σ)) (seen' : List Path)
    (h : parseFile env n root = some (.ok (out, seen'))) :
    root ∈ seen' ∧
    ∀ f ∈ seen', ∃ fs, env.parse1 f = some (fs, []) ∧
      stmtsFrom (some f) out = ownStmts fs ∧
      ∀ i ∈ fs, ∀ t, Names env (some f) i t → t ∈ seen' := by
  unfold parseFile at h
  cases hp : env.parse1 root with
  | none => simp [hp] at h
  | some p =>
    obtain ⟨js, rr⟩ := p
    rw [hp] at h
    have hrr := hplain _ _ _ hp
    subst hrr
    have hx := (resolve_eq_depth_first env hfin _ _ _ _).mp ⟨n, h⟩
    have hf : ∀ f, some root = some f → f ∈ [root] := by intro f hf; cases hf; simp
    have hF := expands_from hx out seen' rfl hf
    have hC := expands_complete hplain hx out seen' rfl hf
    refine ⟨expands_subset hx _ _ rfl root (by simp), fun f hfm => ?_⟩
    by_cases hfr : f = root
    · subst hfr; exact ⟨js, hp, hF.1, hC.1⟩
    · exact hC.2 f hfm (by simpa using hfr)

/-- **C01 (input from a string).** A specification given as a string stands for its depth-first expansion, in which quoted imports are relative to the
working directory and the headers it has included count as read. -/
theorem parseString_depth_first (env : Env σ) (hfin : FiniteFS env) (is : List (Item σ)) (headers : List Path) (r : Res σ) :
    (∃ n, parseString env n is headers = some r) ↔ Expands env none headers is r :=
  resolve_eq_depth_first env hfin none headers is r

/-- **C02 (search order).** The code's loop over the import path finds a file exactly when
some entry has it, and then takes the first such entry. -/
theorem angle_takes_first (env : Env σ) (c : String) (t : Path) :
    angleTarget env c env.importpath = some t ↔
      ∃ before dir after, env.importpath = before ++ dir :: after ∧
        (∀ d ∈ before, env.exists_ (env.absIn d c) = false) ∧
        env.exists_ (env.absIn dir c) = true ∧ t = env.absIn dir c :=
  angleTarget_some

/-- **C02 (errors).** Resolution fails with "import not found" for `c` only if some import
with that text, in the root or in an existing file, denotes no existing file. -/
theorem notFound_only_if_missing (env : Env σ) (hfin : FiniteFS env)
    (file : Option Path) (seen : List Path) (is : List (Item σ)) (n : Nat) (c : String)
    (h : resolve env n file is seen = some (.error (.notFound c))) :
    ∃ (f : Option Path) (i : Item σ), content i = some c ∧ (∀ t, ¬ Names env f i t) ∧
      ((f = file ∧ i ∈ is) ∨
        ∃ g gs gr, f = some g ∧ env.exists_ g = true ∧ env.parse1 g = some (gs, gr) ∧ i ∈ gs) := by
  have hx := (resolve_eq_depth_first env hfin _ _ _ _).mp ⟨n, h⟩
  clear h
  generalize hr : (Except.error (Err.notFound c) : Res σ) = r at hx
  have hexists : ∀ {f : Option Path} {i : Item σ} {t}, Names env f i t → env.exists_ t = true := by
    intro f i t hn
    cases hn with
    | quoted _ _ _ h => exact h
    | angle _ _ _ _ _ _ _ _ h => exact h
  have widen : ∀ {file : Option Path} {i : Item σ} {is : List (Item σ)},
      (∃ (f : Option Path) (j : Item σ), content j = some c ∧ (∀ t, ¬ Names env f j t) ∧
        ((f = file ∧ j ∈ is) ∨
          ∃ g gs gr, f = some g ∧ env.exists_ g = true ∧ env.parse1 g = some (gs, gr) ∧ j ∈ gs)) →
      (∃ (f : Option Path) (j : Item σ), content j = some c ∧ (∀ t, ¬ Names env f j t) ∧
        ((f = file ∧ j ∈ i :: is) ∨
          ∃ g gs gr, f = some g ∧ env.exists_ g = true ∧ env.parse1 g = some (gs, gr) ∧ j ∈ gs)) := by
    rintro file i is ⟨f, j, h1, h2, h3⟩
    refine ⟨f, j, h1, h2, ?_⟩
    rcases h3 with ⟨h, h'⟩ | h
    · exact .inl ⟨h, by simp [h']⟩
    · exact .inr h
  induction hx with
  | nil => cases hr
  | empty _ ih => exact widen (ih hr)
  | stmt => cases hr
  | stmtErr _ ih => exact widen (ih hr)
  | missing hc hn => cases hr; exact ⟨_, _, hc, hn, .inl ⟨rfl, by simp⟩⟩
  | again _ _ _ ih => exact widen (ih hr)
  | unreadable => cases hr
  | first => cases hr
  | firstErrIn hn _ hp _ ih =>
    obtain ⟨f, j, h1, h2, h3⟩ := ih hr
    refine ⟨f, j, h1, h2, .inr ?_⟩
    rcases h3 with ⟨h, h'⟩ | h
    · exact ⟨_, _, _, h, hexists hn, hp, h'⟩
    · exact h
  | firstErrAfter _ _ _ _ _ _ ih₂ => exact widen (ih₂ hr)

/-- **C02 (errors, converse).** An unresolvable import directly in the root file always makes
resolution fail (with that import or an earlier failure). -/
theorem missing_import_fails (env : Env σ) (hfin : FiniteFS env)
    (file : Option Path) (seen : List Path) (is : List (Item σ)) (i : Item σ) (c : String)
    (hi : i ∈ is) (hc : content i = some c) (hn : ∀ t, ¬ Names env file i t) :
    ∃ n e, resolve env n file is seen = some (.error e) := by
  obtain ⟨files, hf⟩ := hfin
  obtain ⟨r, hr⟩ := expands_total hf _ seen (Nat.le_refl _) is file
  obtain ⟨n, hn'⟩ := expands_resolve hr
  cases r with
  | error e => exact ⟨n, e, hn'⟩
  | ok p =>
    exfalso
    clear hn'
    generalize hrr : (Except.ok p : Res σ) = r at hr
    induction hr generalizing p with
    | nil => cases hi
    | empty _ ih =>
      rcases List.mem_cons.mp hi with rfl | h
      · simp [content] at hc
      · exact ih h hn p hrr
    | stmt _ ih =>
      rcases List.mem_cons.mp hi with rfl | h
      · simp [content] at hc
      · exact ih h hn _ rfl
    | stmtErr => cases hrr
    | missing => cases hrr
    | again hn' _ _ ih =>
      rcases List.mem_cons.mp hi with rfl | h
      · exact hn _ hn'
      · exact ih h hn p hrr
    | unreadable => cases hrr
    | first hn' _ _ _ _ _ ih₂ =>
      rcases List.mem_cons.mp hi with rfl | h
      · exact hn _ hn'
      · exact ih₂ h hn _ rfl
    | firstErrIn => cases hrr
    | firstErrAfter => cases hrr

/-! ## A concrete instance: a diamond with a cycle -/

/-- `/r` imports `/a` and `/b`; both import `/c`; `/c` imports `/r` again. -/
def demo : Env String where
  exists_ p := p ∈ ["/r", "/a", "/b", "/c"]
  absFrom _ c := c
  absIn d c := d ++ c
  importpath := ["/x", "/"]
  parse1 p :=
    if p = "/r" then some ([.quoted ["\"/a\""], .stmt "R", .quoted ["\"/b\""]], [])
    else if p = "/a" then some ([.stmt "A", .angle "<c>"], [])
    else if p = "/b" then some ([.quoted ["\"/\"", "\"c\""], .stmt "B"], [])
    else if p = "/c" then some ([.quoted ["\"/r\""], .stmt "C", .empty], [])
    else none

theorem demo_finite : FiniteFS demo := ⟨["/r", "/a", "/b", "/c"], by simp [demo]⟩

example : parseFile demo 20 "/r" = some (.ok
    ([(some "/a", "A"), (some "/c", "C"), (some "/r", "R"), (some "/b", "B")],
     ["/b", "/c", "/a", "/r"])) := by
  simp (decide := true) [parseFile, resolve, loop, body, doImport, quotedTarget, angleTarget, demo]

/-- The same file under a relative root name: `parse_file` does not normalise the name it
is given (stage2.py 101-103), while import targets are absolute. -/
def demoRel : Env String where
  exists_ p := p = "/r"
  absFrom _ c := "/" ++ c
  absIn d c := d ++ c
  importpath := []
  parse1 p :=
    if p = "/r" ∨ p = "r" then some ([.quoted ["\"r\""], .stmt "R"], []) else none

/-- **C01 fails without the absolute-root condition**: a root file given by a relative path
that imports itself is read twice and its statements are duplicated. -/
theorem relative_root_read_twice :
    parseFile demoRel 20 "r" = some (.ok
      ([(some "/r", "R"), (some "r", "R")], ["/r", "r"])) := by
  simp (decide := true) [parseFile, resolve, loop, body, doImport, quotedTarget, demoRel]

end Verif.Imports
