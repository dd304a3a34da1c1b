import Verif.Groups.Model

/-!
# C11: flattening groups
-/

namespace Verif.Groups

namespace Spec

/-- `r` is the members of the groups `gs` in order, each group's members given that group's
address space from `spaces`. -/
inductive Members : List Group → List String → List Inst → Prop
  | nil : Members [] [] []
  | cons (g gs sp sps rest) : Members gs sps rest →
      Members (g :: gs) (sp :: sps) (g.instances.map (fun i => ⟨i.name, sp⟩) ++ rest)

/-- A named group's address space is its name. -/
def NamesKept (gs : List Group) (spaces : List String) : Prop :=
  ∀ (i : Nat) (g : Group) (n : String), gs[i]? = some g → g.name = some n → spaces[i]? = some n

end Spec
open Spec

/-- The address spaces handed out to a list of groups from a given counter. -/
def spacesFrom : Nat → List Group → List String
  | _, [] => []
  | c, ⟨none, _⟩ :: gs => unnamed c :: spacesFrom (c + 1) gs
  | c, ⟨some n, _⟩ :: gs => n :: spacesFrom c gs

theorem visitGroups_members (c : Nat) (gs : List Group) :
    Members gs (spacesFrom c gs) ((visitGroups c gs).1.flatMap fun g => g.instances) := by
  induction gs generalizing c with
  | nil => exact .nil
  | cons g gs ih =>
    obtain ⟨_ | n, is⟩ := g
    · exact .cons _ _ _ _ _ (ih (c + 1))
    · exact .cons _ _ _ _ _ (ih c)

theorem spaces_named (c : Nat) (gs : List Group) : NamesKept gs (spacesFrom c gs) := by
  intro i g n hg hn
  induction gs generalizing c i with
  | nil => simp at hg
  | cons h gs ih =>
    cases i with
    | zero =>
      simp at hg; subst hg
      obtain ⟨_ | m, is⟩ := h
      · simp at hn
      · simp at hn; subst hn; simp [spacesFrom]
    | succ i =>
      simp at hg
      obtain ⟨_ | m, is⟩ := h
      · simpa [spacesFrom] using ih (c + 1) i hg
      · simpa [spacesFrom] using ih c i hg

theorem unnamed_inj {m n : Nat} (h : unnamed m = unnamed n) : m = n := by
  unfold unnamed at h
  have h1 := congrArg String.toList h
  have h2 : Nat.toDigits 10 m = Nat.toDigits 10 n := by
    simpa [String.toList_append] using h1
  have h3 := congrArg (fun l => Nat.ofDigitChars 10 l 0) h2
  simpa [Nat.ofDigitChars_toDigits] using h3

/-- Values in `spacesFrom` are user names or fresh unnamed ones. -/
theorem mem_spaces {c : Nat} {gs : List Group} {s : String} (h : s ∈ spacesFrom c gs) :
    (∃ g ∈ gs, g.name = some s) ∨ ∃ k, c ≤ k ∧ s = unnamed k := by
  induction gs generalizing c with
  | nil => simp [spacesFrom] at h
  | cons g gs ih =>
    obtain ⟨_ | n, is⟩ := g
    · simp only [spacesFrom, List.mem_cons] at h
      rcases h with rfl | h
      · exact .inr ⟨c, Nat.le_refl _, rfl⟩
      · rcases ih h with ⟨g, hg, hn⟩ | ⟨k, hk, rfl⟩
        · exact .inl ⟨g, by simp [hg], hn⟩
        · exact .inr ⟨k, by omega, rfl⟩
    · simp only [spacesFrom, List.mem_cons] at h
      rcases h with rfl | h
      · exact .inl ⟨_, List.mem_cons_self, rfl⟩
      · rcases ih h with ⟨g, hg, hn⟩ | ⟨k, hk, rfl⟩
        · exact .inl ⟨g, by simp [hg], hn⟩
        · exact .inr ⟨k, hk, rfl⟩

theorem spaces_nodup (c : Nat) (gs : List Group)
    (hnames : (gs.filterMap Group.name).Nodup)
    (huser : ∀ g ∈ gs, ∀ k, g.name ≠ some (unnamed k)) : (spacesFrom c gs).Nodup := by
  induction gs generalizing c with
  | nil => simp [spacesFrom]
  | cons g gs ih =>
    have hu : ∀ g ∈ gs, ∀ k, g.name ≠ some (unnamed k) := fun g hg => huser g (by simp [hg])
    obtain ⟨_ | n, is⟩ := g
    · simp only [spacesFrom, List.nodup_cons]
      refine ⟨?_, ih _ (by simpa using hnames) hu⟩
      intro hm
      rcases mem_spaces hm with ⟨g, hg, hn⟩ | ⟨k, hk, he⟩
      · exact hu g hg c hn
      · have := unnamed_inj he; omega
    · simp only [List.filterMap_cons, List.nodup_cons] at hnames
      simp only [spacesFrom, List.nodup_cons]
      refine ⟨?_, ih _ hnames.2 hu⟩
      intro hm
      rcases mem_spaces hm with ⟨g, hg, hn⟩ | ⟨k, hk, he⟩
      · exact hnames.1 (List.mem_filterMap.mpr ⟨g, hg, hn⟩)
      · exact huser ⟨some n, is⟩ (by simp) k (by simp [he])

theorem visit_other (s : State) (k j : Nat) (h : j ≠ k) : (visit s k).comps j = s.comps j := by
  simp [visit, h]

/-- A composition without groups is not changed by a visit. -/
theorem visit_collapsed (s : State) (k j : Nat) (h : (s.comps j).groups = []) :
    (visit s k).comps j = s.comps j := by
  by_cases hjk : j = k
  · subst hjk
    cases hc : s.comps j with
    | mk is gs =>
      rw [hc] at h
      simp at h
      subst h
      simp [visit, hc, visitComposition, visitGroups]
  · exact visit_other s k j hjk

theorem collapsed_stable (order : List Nat) (s : State) (j : Nat) (h : (s.comps j).groups = []) :
    (order.foldl visit s).comps j = s.comps j := by
  induction order generalizing s with
  | nil => rfl
  | cons k order ih =>
    simp only [List.foldl_cons]
    have hv := visit_collapsed s k j h
    rw [ih (visit s k) (by rw [hv]; exact h), hv]

theorem collapse_at (order : List Nat) (s : State) (j : Nat) (h : j ∈ order) :
    ∃ c, (order.foldl visit s).comps j =
      ⟨(s.comps j).instances ++ ((visitGroups c (s.comps j).groups).1.flatMap fun g => g.instances), []⟩ := by
  induction order generalizing s with
  | nil => simp at h
  | cons k order ih =>
    by_cases hjk : j = k
    · subst hjk
      refine ⟨s.counter, ?_⟩
      simp only [List.foldl_cons]
      rw [collapsed_stable]
      · simp [visit, visitComposition]
      · simp [visit, visitComposition]
    · simp only [List.mem_cons, hjk, false_or] at h
      obtain ⟨c, hc⟩ := ih (visit s k) h
      refine ⟨c, ?_⟩
      simp only [List.foldl_cons, hc, visit_other s k j hjk]

/-- **C11.** However often and in whatever order the traversal reaches a composition, afterwards
it has no groups; its instances are the ungrouped ones, unchanged, followed by the
members of its groups in order; the members of one group share one address space, which
is the group's name if it has one. -/
theorem collapse_instances (comps : Nat → Composition) (order : List Nat) (k : Nat) (hk : k ∈ order) :
    ∃ spaces members,
      (collapse comps order).comps k = ⟨(comps k).instances ++ members, []⟩ ∧
      Members (comps k).groups spaces members ∧ NamesKept (comps k).groups spaces := by
  obtain ⟨c, hc⟩ := collapse_at order ⟨comps, 0⟩ k hk
  exact ⟨_, _, hc, visitGroups_members c _, spaces_named c _⟩

/-- **C11 (distinct groups).** If the composition's named groups have distinct names (scoping
enforces this) and no user-chosen name is of the form the tool generates, distinct groups
get distinct address spaces. Missing from C11: the last hypothesis, which the tool does not
enforce; see `generated_name_collides`. -/
theorem groups_distinct_partial (comps : Nat → Composition) (order : List Nat) (k : Nat) (hk : k ∈ order)
    (hnames : ((comps k).groups.filterMap Group.name).Nodup)
    (huser : ∀ g ∈ (comps k).groups, ∀ n : Nat, g.name ≠ some ("unamed_group_" ++ toString n)) :
    ∃ spaces members,
      (collapse comps order).comps k = ⟨(comps k).instances ++ members, []⟩ ∧
      Members (comps k).groups spaces members ∧ spaces.Nodup := by
  obtain ⟨c, hc⟩ := collapse_at order ⟨comps, 0⟩ k hk
  exact ⟨_, _, hc, visitGroups_members c _, spaces_nodup c _ hnames huser⟩

/-- A composition not reached is not changed. -/
theorem collapse_elsewhere (comps : Nat → Composition) (order : List Nat) (k : Nat) (hk : k ∉ order) :
    (collapse comps order).comps k = comps k := by
  unfold collapse
  suffices ∀ s : State, (order.foldl visit s).comps k = s.comps k from this ⟨comps, 0⟩
  induction order with
  | nil => intro s; rfl
  | cons j order ih =>
    intro s
    simp only [List.mem_cons, not_or] at hk
    simp only [List.foldl_cons]
    rw [ih hk.2, visit_other _ _ _ hk.1]

/-- **C11 is false of the code without the naming hypothesis.** A group the user calls
`unamed_group_0` ends up in one address space with an anonymous group. -/
theorem generated_name_collides :
    ∃ (g h : Group), g ≠ h ∧ (([g, h]).filterMap Group.name).Nodup ∧
      ∃ i ∈ g.instances, ∃ j ∈ h.instances, i.name ≠ j.name ∧
        ∃ i' ∈ ((collapse (fun _ => ⟨[], [g, h]⟩) [0]).comps 0).instances,
        ∃ j' ∈ ((collapse (fun _ => ⟨[], [g, h]⟩) [0]).comps 0).instances,
          i'.name = i.name ∧ j'.name = j.name ∧ i'.addressSpace = j'.addressSpace := by
  refine ⟨⟨none, [⟨"a", "a"⟩]⟩, ⟨some "unamed_group_0", [⟨"b", "b"⟩]⟩, by decide, by decide,
    ⟨"a", "a"⟩, by decide, ⟨"b", "b"⟩, by decide, by decide,
    ⟨"a", "unamed_group_0"⟩, by decide, ⟨"b", "unamed_group_0"⟩, by decide, rfl, rfl, rfl⟩

/-- Non-vacuity: two groups, one anonymous, and a repeated visit. -/
example : (collapse (fun _ => ⟨[⟨"x", "x"⟩], [⟨some "g", [⟨"a", "a"⟩, ⟨"b", "b"⟩]⟩, ⟨none, [⟨"c", "c"⟩]⟩]⟩) [3, 0, 3]).comps 0 =
    ⟨[⟨"x", "x"⟩, ⟨"a", "g"⟩, ⟨"b", "g"⟩, ⟨"c", "unamed_group_1"⟩], []⟩ := by decide

theorem counter_le (c : Nat) (gs : List Group) : c ≤ (visitGroups c gs).2 := by
  induction gs generalizing c with
  | nil => exact Nat.le_refl _
  | cons g gs ih =>
    obtain ⟨_ | n, is⟩ := g
    · exact Nat.le_trans (Nat.le_succ c) (ih (c + 1))
    · exact ih c

theorem visit_counter (s : State) (k : Nat) : s.counter ≤ (visit s k).counter := counter_le _ _

theorem collapse_from (order : List Nat) (s : State) (j : Nat) (h : j ∈ order) :
    ∃ c, s.counter ≤ c ∧ (order.foldl visit s).comps j =
      ⟨(s.comps j).instances ++ ((visitGroups c (s.comps j).groups).1.flatMap fun g => g.instances), []⟩ := by
  induction order generalizing s with
  | nil => simp at h
  | cons k order ih =>
    by_cases hjk : j = k
    · subst hjk
      refine ⟨s.counter, Nat.le_refl _, ?_⟩
      simp only [List.foldl_cons]
      rw [collapsed_stable]
      · simp [visit, visitComposition]
      · simp [visit, visitComposition]
    · simp only [List.mem_cons, hjk, false_or] at h
      obtain ⟨c, hle, hc⟩ := ih (visit s k) h
      refine ⟨c, Nat.le_trans (visit_counter s k) hle, ?_⟩
      simp only [List.foldl_cons, hc, visit_other s k j hjk]

theorem collapse_two (order : List Nat) (s : State) (j k : Nat) (hne : j ≠ k) (hj : j ∈ order) (hk : k ∈ order) :
    ∃ cj ck, ((visitGroups cj (s.comps j).groups).2 ≤ ck ∨ (visitGroups ck (s.comps k).groups).2 ≤ cj) ∧
      (order.foldl visit s).comps j = ⟨(s.comps j).instances ++ ((visitGroups cj (s.comps j).groups).1.flatMap fun g => g.instances), []⟩ ∧
      (order.foldl visit s).comps k = ⟨(s.comps k).instances ++ ((visitGroups ck (s.comps k).groups).1.flatMap fun g => g.instances), []⟩ := by
  induction order generalizing s with
  | nil => simp at hj
  | cons i order ih =>
    have atHead : ∀ a b, a ≠ b → i = a → b ∈ order → ∃ ca cb, (visitGroups ca (s.comps a).groups).2 ≤ cb ∧
        ((i :: order).foldl visit s).comps a = ⟨(s.comps a).instances ++ ((visitGroups ca (s.comps a).groups).1.flatMap fun g => g.instances), []⟩ ∧
        ((i :: order).foldl visit s).comps b = ⟨(s.comps b).instances ++ ((visitGroups cb (s.comps b).groups).1.flatMap fun g => g.instances), []⟩ := by
      rintro a b hab rfl hb
      obtain ⟨c, hle, hc⟩ := collapse_from order (visit s i) b hb
      refine ⟨s.counter, c, hle, ?_, ?_⟩
      · simp only [List.foldl_cons]
        rw [collapsed_stable]
        · simp [visit, visitComposition]
        · simp [visit, visitComposition]
      · simp only [List.foldl_cons, hc, visit_other s i b (Ne.symm hab)]
    by_cases hij : i = j
    · obtain ⟨ca, cb, h1, h2, h3⟩ := atHead j k hne hij (by
        rcases List.mem_cons.mp hk with e | e
        · exact absurd (hij.symm.trans e.symm) hne
        · exact e)
      exact ⟨ca, cb, .inl h1, h2, h3⟩
    · by_cases hik : i = k
      · obtain ⟨ca, cb, h1, h2, h3⟩ := atHead k j (Ne.symm hne) hik (by
          rcases List.mem_cons.mp hj with e | e
          · exact absurd e.symm hij
          · exact e)
        exact ⟨cb, ca, .inr h1, h3, h2⟩
      · have hj' : j ∈ order := by
          rcases List.mem_cons.mp hj with e | e
          · exact absurd e.symm hij
          · exact e
        have hk' : k ∈ order := by
          rcases List.mem_cons.mp hk with e | e
          · exact absurd e.symm hik
          · exact e
        have := ih (visit s i) hj' hk'
        rw [visit_other s i j (Ne.symm hij), visit_other s i k (Ne.symm hik)] at this
        exact this

theorem spaces_range (c : Nat) (gs : List Group) (a : Nat) (g : Group) (x : String) (hg : gs[a]? = some g) (hn : g.name = none)
    (hx : (spacesFrom c gs)[a]? = some x) : ∃ m, x = unnamed m ∧ c ≤ m ∧ m < (visitGroups c gs).2 := by
  induction gs generalizing c a with
  | nil => simp at hg
  | cons h gs ih =>
    obtain ⟨_ | n, is⟩ := h
    · cases a with
      | zero =>
        simp only [spacesFrom, List.getElem?_cons_zero, Option.some.injEq] at hx
        exact ⟨c, hx.symm, Nat.le_refl _, counter_le (c + 1) gs⟩
      | succ a =>
        simp only [spacesFrom, List.getElem?_cons_succ] at hx hg
        obtain ⟨m, h1, h2, h3⟩ := ih (c + 1) a hg hx
        exact ⟨m, h1, by omega, h3⟩
    · cases a with
      | zero =>
        simp only [List.getElem?_cons_zero, Option.some.injEq] at hg
        rw [← hg] at hn
        cases hn
      | succ a =>
        simp only [spacesFrom, List.getElem?_cons_succ] at hx hg
        exact ih c a hg hx

/-- **C11 (across compositions).** Groups without a name in different compositions get different address spaces, too. -/
theorem unnamed_across (comps : Nat → Composition) (order : List Nat) (j k : Nat) (hne : j ≠ k) (hj : j ∈ order) (hk : k ∈ order) :
    ∃ sj mj sk mk,
      (collapse comps order).comps j = ⟨(comps j).instances ++ mj, []⟩ ∧ Members (comps j).groups sj mj ∧
      (collapse comps order).comps k = ⟨(comps k).instances ++ mk, []⟩ ∧ Members (comps k).groups sk mk ∧
      ∀ (a b : Nat) (g h : Group) (x y : String), (comps j).groups[a]? = some g → (comps k).groups[b]? = some h →
        g.name = none → h.name = none → sj[a]? = some x → sk[b]? = some y → x ≠ y := by
  obtain ⟨cj, ck, hd, h1, h2⟩ := collapse_two order ⟨comps, 0⟩ j k hne hj hk
  refine ⟨_, _, _, _, h1, visitGroups_members cj _, h2, visitGroups_members ck _, ?_⟩
  intro a b g h x y hg hh gn hn hx hy e
  obtain ⟨m, rfl, m1, m2⟩ := spaces_range cj _ a g x hg gn hx
  obtain ⟨n, rfl, n1, n2⟩ := spaces_range ck _ b h y hh hn hy
  have := unnamed_inj e
  simp only at hd
  omega

/-- Two compositions with a group without a name each. -/
example : let s := collapse (fun k => if k = 0 then ⟨[], [⟨none, [⟨"a", "a"⟩]⟩]⟩ else ⟨[], [⟨none, [⟨"b", "b"⟩]⟩]⟩) [1, 0]
    ((s.comps 0).instances, (s.comps 1).instances) = ([⟨"a", "unamed_group_1"⟩], [⟨"b", "unamed_group_0"⟩]) := by decide

end Verif.Groups
