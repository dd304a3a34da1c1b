import Verif.Paths.Steps
import Verif.Imports.Props

/-!
# C133: an import leads to the file that its text names, and a file is one file however it is spelled
-/

namespace Verif.Paths

/-- **C133**, spelling. Without symbolic links, whatever path the operating system would follow to a place, the code turns it into the usual way to
write that place. -/
theorem abspath_names_partial (fs : Fs) (ht : Tree fs) (hn : NoLinks fs) (cwd : Loc) (hc : fs.isDir cwd = true) (p : Text) (l : Loc)
    (h : Finds fs cwd p l) (h2 : ¬ TwoSlashes p) : abspath (render cwd) p = render l :=
  (abspath_of_finds ht hn hc h).1 h2

/-- That text leads to the place. -/
theorem render_found (fs : Fs) (ht : Tree fs) (hn : NoLinks fs) (cwd : Loc) (l : Loc)
    (h : fs.isDir l = true ∨ ∃ d n, l = d ++ [n] ∧ fs.isDir d = true ∧ Name n) : Finds fs cwd (render l) l := by
  have hh : ∀ m : Loc, (render m).head? = some '/' := by
    intro m
    cases m with
    | nil => rfl
    | cons n t => simp [render]
  refine ⟨(by intro e; have h3 := hh l; rw [e] at h3; simp at h3), ?_⟩
  rw [if_pos (hh l)]
  rcases h with h | ⟨d, n, rfl, hd, hname⟩
  · exact walk_render ht hn _ l rfl h
  · have hw : Walk fs d n (d ++ [n]) := by
      have := Walk.name (fs := fs) n hd hname (Or.inl rfl) (.here (fs.enter d n))
      rwa [List.append_nil, enter_plain hn] at this
    by_cases hm : d = []
    · subst hm
      have := Walk.slash (fs := fs) hd hw
      simpa [render] using this
    · have := walk_append (walk_render ht hn _ d rfl hd) hd hw
      simpa [render, hm] using this

/-- Different places are written differently. -/
theorem render_injective (l m : Loc) (hl : ∀ n ∈ l, Name n) (hm : ∀ n ∈ m, Name n) (h : render l = render m) : l = m := by
  let fs : Fs := ⟨fun d => decide (∀ n ∈ d, n ≠ [] ∧ '/' ∉ n ∧ n ≠ ['.'] ∧ n ≠ ['.', '.']), fun _ => none⟩
  have ht : Tree fs := by
    constructor
    · simp [fs]
    · intro l n h
      have h' : ∀ x ∈ l ++ [n], x ≠ [] ∧ '/' ∉ x ∧ x ≠ ['.'] ∧ x ≠ ['.', '.'] := by simpa [fs] using h
      refine ⟨?_, h' n (by simp)⟩
      have : ∀ x ∈ l, x ≠ [] ∧ '/' ∉ x ∧ x ≠ ['.'] ∧ x ≠ ['.', '.'] := fun x hx => h' x (by simp [hx])
      simpa [fs] using this
  have hdir : fs.isDir l = true := by
    have : ∀ x ∈ l, x ≠ [] ∧ '/' ∉ x ∧ x ≠ ['.'] ∧ x ≠ ['.', '.'] := fun x hx => hl x hx
    simpa [fs] using this
  have h1 := render_found fs ht (fun _ => rfl) [] l (Or.inl hdir)
  rw [h] at h1
  exact finds_render ht (fun _ => rfl) ht.root hm h1

/-- **C133**, quoted imports. What an import in a file names is searched from the directory that has the file, wherever the parser runs and however the file was
named. -/
theorem quoted_relative_partial (fs : Fs) (ht : Tree fs) (hn : NoLinks fs) (cwd : Loc) (hc : fs.isDir cwd = true) (f : Text) (d : Loc) (n : Text)
    (hf : Finds fs cwd f (d ++ [n])) (hfile : fs.isDir (d ++ [n]) = false) (h2 : ¬ TwoSlashes f) (c : Text) (l : Loc) (hc0 : c ≠ [])
    (hrel : c.head? ≠ some '/') (hw : Walk fs d c l) : quotedTarget (render cwd) (some f) c = render l := by
  obtain ⟨d', n', he, _, h⟩ := join_dirname ht hn hc hf hfile h2
  have hd : d = d' := by
    have := congrArg List.dropLast he
    simpa using this
  subst hd
  obtain ⟨h3, h4⟩ := h c l hc0 hrel hw
  exact (abspath_of_finds ht hn hc h3).1 h4

/-- Texts that begin with a slash do not depend on the file, and input that is no file counts from the directory of the parser. -/
theorem quoted_absolute_partial (fs : Fs) (ht : Tree fs) (hn : NoLinks fs) (cwd : Loc) (hc : fs.isDir cwd = true) (f : Option Text) (c : Text) (l : Loc)
    (hf : f = none ∨ c.head? = some '/') (h : Finds fs cwd c l) (h2 : ¬ TwoSlashes c) : quotedTarget (render cwd) f c = render l := by
  cases f with
  | none => exact (abspath_of_finds ht hn hc h).1 h2
  | some f =>
    have hs : c.head? = some '/' := by
      rcases hf with hf | hf
      · cases hf
      · exact hf
    unfold quotedTarget
    simp only
    have : join (dirname f) c = c := by simp [join, hs]
    rw [this]
    exact (abspath_of_finds ht hn hc h).1 h2

/-- **C133**, imports in angle brackets: the text is searched from the directory of the import path, with or without a slash at its end. -/
theorem angle_partial (fs : Fs) (ht : Tree fs) (hn : NoLinks fs) (cwd : Loc) (hc : fs.isDir cwd = true) (dir : Text) (d : Loc) (c : Text) (l : Loc)
    (hd : Finds fs cwd dir d) (hdir : fs.isDir d = true) (hc0 : c ≠ []) (hrel : c.head? ≠ some '/') (hw : Walk fs d c l)
    (h2 : ¬ TwoSlashes (join dir c)) : angleTarget (render cwd) dir c = render l := by
  refine (abspath_of_finds ht hn hc (l := l) ⟨?_, ?_⟩).1 h2
  · unfold join
    rw [if_neg hrel]
    split_ifs <;> simp [hc0]
  · obtain ⟨hne, hwd⟩ := hd
    have hhead : ∀ x : Text, (dir ++ x).head? = dir.head? := by
      intro x
      cases dir with
      | nil => exact absurd rfl hne
      | cons a t => rfl
    unfold join
    rw [if_neg hrel]
    by_cases hlast : dir.getLast? = some '/'
    · rw [if_pos (Or.inr hlast), hhead]
      obtain ⟨g, rfl⟩ : ∃ g, dir = g ++ ['/'] := by
        rcases List.eq_nil_or_concat dir with hl | ⟨g, a, hl⟩
        · exact absurd hl hne
        · have : dir = g ++ [a] := by simpa using hl
          subst this
          simp at hlast
          exact ⟨g, by rw [hlast]⟩
      obtain ⟨d0, a, b, e⟩ := walk_split hwd g [] rfl
      have : d = d0 := walk_nil e rfl
      subst this
      have := walk_append a hdir hw
      simpa using this
    · have hno : ¬ (dir = [] ∨ dir.getLast? = some '/') := by
        rintro (h | h)
        · exact hne h
        · exact hlast h
      rw [if_neg hno, hhead]
      exact walk_append hwd hdir hw

/-- **C133**, one file. In the result of a parse of the file at `lr`, without symbolic links and paths that begin with two slashes, all statements from the file at a place come
under one path, and that file was read at most once: they are its statements, each once and in their order, or none. -/
theorem each_file_once_partial {σ : Type} (fs : Fs) (ht : Tree fs) (hn : NoLinks fs) (cwd : Loc) (hc : fs.isDir cwd = true)
    (exists_ : Imports.Path → Bool) (importpath : List Imports.Path)
    (parse1 : Imports.Path → Option (List (Imports.Item σ) × List Imports.Path))
    (hfin : Imports.Spec.FiniteFS (stage2 (render cwd) exists_ importpath parse1)) (lr : Loc) (hlr : ∀ n ∈ lr, Name n)
    (js : List (Imports.Item σ)) (rr : List Imports.Path) (hroot : parse1 (String.ofList (render lr)) = some (js, rr))
    (n : Nat) (out : List (Option Imports.Path × σ)) (seen : List Imports.Path)
    (h : Imports.parseFile (stage2 (render cwd) exists_ importpath parse1) n (String.ofList (render lr)) = some (.ok (out, seen)))
    (l : Loc) :
    (∀ q s, (some q, s) ∈ out → ¬ TwoSlashes q.toList → Finds fs cwd q.toList l → q = String.ofList (render l)) ∧
    (Imports.Spec.stmtsFrom (some (String.ofList (render l))) out = [] ∨
      ∃ is r, parse1 (String.ofList (render l)) = some (is, r) ∧
        Imports.Spec.stmtsFrom (some (String.ofList (render l))) out = Imports.Spec.ownStmts is) := by
  have hcw : (render cwd).head? = some '/' := by
    cases cwd with
    | nil => rfl
    | cons n t => simp [render]
  let P : Option Imports.Path → Prop := fun t => ∀ q, t = some q →
    ∃ ms : Loc, (∀ n ∈ ms, Name n) ∧ (q.toList = render ms ∨ q.toList = '/' :: render ms)
  have htags : ∀ x ∈ out, P x.1 := by
    unfold Imports.parseFile at h
    have hr' : (stage2 (render cwd) exists_ importpath parse1).parse1 (String.ofList (render lr)) = some (js, rr) := hroot
    rw [hr'] at h
    refine loop_tags _ P ?_ ?_ _ _ out seen ?_ ?_ h
    · intro f c q hq
      simp only [Option.some.injEq] at hq
      rw [← hq]
      cases f with
      | none => simpa [stage2, quotedTarget] using abspath_form (render cwd) c.toList hcw
      | some f => simpa [stage2, quotedTarget] using abspath_form (render cwd) (join (dirname f.toList) c.toList) hcw
    · intro d c q hq
      simp only [Option.some.injEq] at hq
      rw [← hq]
      simpa [stage2, angleTarget] using abspath_form (render cwd) (join d.toList c.toList) hcw
    · intro x hx q hq
      simp only [List.mem_map] at hx
      obtain ⟨i, _, rfl⟩ := hx
      simp only [Option.some.injEq] at hq
      rw [← hq]
      exact ⟨lr, hlr, Or.inl (by simp)⟩
    · intro x hx; cases hx
  refine ⟨?_, ?_⟩
  · intro q s hq h2 hf
    obtain ⟨ms, hms, e⟩ := htags _ hq q rfl
    have e1 : q.toList = render ms := by
      rcases e with e | e
      · exact e
      · exfalso
        apply h2
        rw [e]
        cases ms with
        | nil => exact ⟨[], rfl, by simp⟩
        | cons m t =>
          have hm := hms m (by simp)
          refine ⟨m ++ t.flatMap (fun n => '/' :: n), by simp [render], ?_⟩
          cases m with
          | nil => exact absurd rfl hm.1
          | cons a m =>
            intro ha
            simp at ha
            exact hm.2.1 (by simp [ha])
    rw [e1] at hf
    have := finds_render ht hn hc hms hf
    rw [this, ← e1]
    simp
  · have ho := Imports.parseFile_once (stage2 (render cwd) exists_ importpath parse1) hfin _ js rr hroot n out seen h
    by_cases he : String.ofList (render l) = String.ofList (render lr)
    · right
      exact ⟨js, rr, by rw [he]; exact hroot, by rw [he]; exact ho.1⟩
    · exact ho.2 _ he

/-! ## Cases -/

/-- `/home/p` with directories `src` and `lib`. -/
def demoDirs : List Loc :=
  [[], ["home".toList], ["home".toList, "p".toList], ["home".toList, "p".toList, "src".toList], ["home".toList, "p".toList, "lib".toList]]

def demoFs : Fs := ⟨fun l => decide (l ∈ demoDirs), fun _ => none⟩

theorem demo_tree : Tree demoFs := by
  constructor
  · decide
  · intro l n h
    have h' : l ++ [n] ∈ demoDirs := by simpa [demoFs] using h
    simp only [demoDirs, List.mem_cons, List.not_mem_nil, or_false] at h'
    rcases h' with h' | h' | h' | h' | h'
    · simp at h'
    all_goals
      have h1 := congrArg List.dropLast h'
      have h2 := congrArg List.getLast? h'
      simp at h1 h2
      subst h1
      subst h2
      exact ⟨by decide, by refine ⟨?_, ?_, ?_, ?_⟩ <;> decide⟩

/-- In `src/main.camkes`, the import `"../lib/./x.camkes"` leads to `/home/p/lib/x.camkes`. -/
theorem demo_quoted : quotedTarget "/home/p".toList (some "src//main.camkes".toList) "../lib/./x.camkes".toList =
    "/home/p/lib/x.camkes".toList := by decide +kernel

theorem demo_hypotheses : Finds demoFs ["home".toList, "p".toList] "src//main.camkes".toList
      (["home".toList, "p".toList, "src".toList] ++ ["main.camkes".toList]) ∧
    Walk demoFs ["home".toList, "p".toList, "src".toList] "../lib/./x.camkes".toList
      ["home".toList, "p".toList, "lib".toList, "x.camkes".toList] := by
  have nm : ∀ w : Text, w ≠ [] → '/' ∉ w → w ≠ ['.'] → w ≠ ['.', '.'] → Name w := fun w a b c d => ⟨a, b, c, d⟩
  refine ⟨⟨by decide, ?_⟩, ?_⟩
  · rw [if_neg (by decide)]
    refine .name "src".toList (by decide) (nm _ (by decide) (by decide) (by decide) (by decide)) (Or.inr ⟨_, rfl⟩) ?_
    refine .slash (by decide) (.slash (by decide) ?_)
    exact .name "main.camkes".toList (p := []) (by decide) (nm _ (by decide) (by decide) (by decide) (by decide)) (Or.inl rfl) (.here _)
  · refine .up (by decide) (Or.inr ⟨_, rfl⟩) (.slash (by decide) ?_)
    refine .name "lib".toList (by decide) (nm _ (by decide) (by decide) (by decide) (by decide)) (Or.inr ⟨_, rfl⟩) ?_
    refine .slash (by decide) (.dot (by decide) (Or.inr ⟨_, rfl⟩) (.slash (by decide) ?_))
    exact .name "x.camkes".toList (p := []) (by decide) (nm _ (by decide) (by decide) (by decide) (by decide)) (Or.inl rfl) (.here _)

/-! ## Where the code does not do what users expect -/

/-- **Disagreement with C133.** Two slashes at the start are kept, though they lead to the same place. -/
theorem two_slashes_kept (fs : Fs) (ht : Tree fs) (hn : NoLinks fs) (cwd : Loc) (hc : fs.isDir cwd = true) (p : Text) (l : Loc)
    (h : Finds fs cwd p l) (h2 : TwoSlashes p) : abspath (render cwd) p = '/' :: render l ∧ abspath (render cwd) p ≠ render l := by
  have := (abspath_of_finds ht hn hc h).2 h2
  refine ⟨this, ?_⟩
  rw [this]
  intro e
  have := congrArg List.length e
  simp at this

/-- A specification `/r` that imports the file `/a` under both spellings. -/
def twice : Imports.Env String := stage2 ['/'] (fun p => p = "/a" ∨ p = "//a") []
  fun p => if p = "/r" then some ([.quoted ["\"//a\""], .quoted ["\"/a\""]], []) else if p = "/a" ∨ p = "//a" then some ([.stmt "A"], []) else none

/-- **Disagreement with C133.** The statements of this file come twice. -/
theorem read_twice : Imports.parseFile twice 9 "/r" = some (.ok ([(some "//a", "A"), (some "/a", "A")], ["/a", "//a", "/r"])) := by
  rfl

/-- `/home/l` is a symbolic link to `/data`. -/
def linkFs : Fs := ⟨fun l => decide (l ∈ [[], ["home".toList], ["data".toList]]),
  fun l => if l = ["home".toList, "l".toList] then some ["data".toList] else none⟩

/-- **Disagreement with C133.** With symbolic links, `..` is taken away together with the name before it: the operating system finds `/x`, the code goes to
`/home/x`. -/
theorem link_followed_wrongly : Finds linkFs ["home".toList] "l/../x".toList ["x".toList] ∧
    abspath "/home".toList "l/../x".toList = "/home/x".toList := by
  refine ⟨⟨by decide, ?_⟩, by decide +kernel⟩
  have nm : ∀ w : Text, w ≠ [] → '/' ∉ w → w ≠ ['.'] → w ≠ ['.', '.'] → Name w := fun w a b c d => ⟨a, b, c, d⟩
  rw [if_neg (by decide)]
  refine .name "l".toList (by decide) (nm _ (by decide) (by decide) (by decide) (by decide)) (Or.inr ⟨_, rfl⟩) ?_
  refine .slash (by decide) (.up (by decide) (Or.inr ⟨_, rfl⟩) (.slash (by decide) ?_))
  exact .name "x".toList (p := []) (by decide) (nm _ (by decide) (by decide) (by decide) (by decide)) (Or.inl rfl) (.here _)

/-- **Disagreement with C133.** A path through a directory that does not exist names nothing, and the code accepts it. -/
theorem missing_directory : (∀ l, ¬ Finds demoFs ["home".toList] "no/../p".toList l) ∧
    abspath "/home".toList "no/../p".toList = render ["home".toList, "p".toList] := by
  refine ⟨?_, by decide +kernel⟩
  rintro l ⟨_, hw⟩
  rw [if_neg (by decide)] at hw
  obtain ⟨d, a, b, _⟩ := walk_split hw "no".toList "../p".toList rfl
  have h1 := (walk_norm demo_tree (fun _ => rfl) a (dir_names demo_tree _ (by decide))).1
  have h2 : d = ["home".toList, "no".toList] := by
    have e : normLoop true (List.reverse ["home".toList]) (split "no".toList) = ["no".toList, "home".toList] := by decide
    rw [e] at h1
    have := congrArg List.reverse h1
    simpa using this.symm
  rw [h2] at b
  exact absurd b (by decide)

end Verif.Paths
