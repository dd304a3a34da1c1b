import Verif.Runner.Spec
import Mathlib.Data.List.Basic
import Mathlib.Data.List.Nodup

namespace Verif.Runner

theorem openAll_length : ∀ (ps : List String) (n : Nat), (openAll n ps).length = ps.length := by
  intro ps
  induction ps with
  | nil => intro n; rfl
  | cons p ps ih => intro n; simp only [openAll]; split <;> simp [ih]

theorem openAll_path : ∀ (ps : List String) (n : Nat), (openAll n ps).map (·.path) = ps := by
  intro ps
  induction ps with
  | nil => intro n; rfl
  | cons p ps ih => intro n; simp only [openAll]; split <;> simp [ih]

theorem openAll_fresh : ∀ (ps : List String) (n : Nat), ∀ f ∈ openAll n ps, f.ident = 0 ∧ f.path = "-" ∨ n ≤ f.ident ∧ f.path ≠ "-" := by
  intro ps
  induction ps with
  | nil => intro n f hf; simp [openAll] at hf
  | cons p ps ih =>
    intro n f hf
    simp only [openAll] at hf
    split at hf
    · rcases List.mem_cons.mp hf with rfl | hf
      · left; exact ⟨rfl, by assumption⟩
      · exact ih n f hf
    · rcases List.mem_cons.mp hf with rfl | hf
      · right; exact ⟨Nat.le_refl _, by assumption⟩
      · rcases ih (n + 1) f hf with h | h
        · left; exact h
        · right; exact ⟨by omega, h.2⟩

theorem distinct_le : ∀ l : List Nat, distinct l ≤ l.length := by
  intro l
  induction l with
  | nil => simp [distinct]
  | cons x l ih => simp only [distinct]; split <;> simp <;> omega

theorem distinct_nodup : ∀ l : List Nat, distinct l = l.length ↔ l.Nodup := by
  intro l
  induction l with
  | nil => simp [distinct]
  | cons x l ih =>
    have := distinct_le l
    simp only [distinct, List.nodup_cons, List.length_cons]
    split
    · rename_i h
      constructor
      · intro e; omega
      · rintro ⟨h1, _⟩; exact absurd h h1
    · rename_i h
      constructor
      · intro e; exact ⟨h, ih.mp (by omega)⟩
      · rintro ⟨_, h2⟩; have := ih.mpr h2; omega

/-- The identities of the opened files differ exactly if `-` is given at most once. -/
theorem openAll_nodup : ∀ (ps : List String) (n : Nat), 1 ≤ n →
    (((openAll n ps).map (·.ident)).Nodup ↔ ps.count "-" ≤ 1) := by
  intro ps
  induction ps with
  | nil => intro n _; simp [openAll]
  | cons p ps ih =>
    intro n hn
    by_cases hp : p = "-"
    · subst hp
      simp only [openAll, if_true, List.map_cons, List.nodup_cons, List.count_cons_self]
      rw [ih n hn]
      constructor
      · rintro ⟨h1, h2⟩
        have : ps.count "-" = 0 := by
          rw [List.count_eq_zero]
          intro hm
          apply h1
          have : "-" ∈ (openAll n ps).map (·.path) := by rw [openAll_path]; exact hm
          obtain ⟨f, hf, hfp⟩ := List.mem_map.mp this
          rw [List.mem_map]
          refine ⟨f, hf, ?_⟩
          rcases openAll_fresh ps n f hf with h | h
          · exact h.1
          · exact absurd hfp h.2
        omega
      · intro h
        refine ⟨?_, by omega⟩
        intro hm
        obtain ⟨f, hf, hf0⟩ := List.mem_map.mp hm
        rcases openAll_fresh ps n f hf with h' | h'
        · have hz : ps.count "-" = 0 := by omega
          rw [List.count_eq_zero] at hz
          apply hz
          have : f.path ∈ (openAll n ps).map (·.path) := List.mem_map.mpr ⟨f, hf, rfl⟩
          rw [openAll_path, h'.2] at this
          exact this
        · omega
    · simp only [openAll, if_neg hp, List.map_cons, List.nodup_cons]
      rw [ih (n + 1) (by omega), List.count_cons_of_ne hp]
      constructor
      · rintro ⟨_, h⟩; exact h
      · intro h
        refine ⟨?_, h⟩
        intro hm
        obtain ⟨f, hf, hf0⟩ := List.mem_map.mp hm
        rcases openAll_fresh ps (n + 1) f hf with h' | h'
        · omega
        · omega

/-- C41, exactly what is accepted: the number of output files equals the number of items or the number
of items equals the number of templates, and the standard output is named at most once. -/
theorem accepted_iff (outs items templates : List String) :
    (∃ p, runnerPlan outs items templates = .ok p) ↔
      (outs.length = items.length ∨ items.length = templates.length) ∧ outs.count "-" ≤ 1 := by
  unfold runnerPlan plan
  rw [openAll_length]
  have hn := openAll_nodup outs 1 (Nat.le_refl _)
  have hd := distinct_nodup ((openAll 1 outs).map (·.ident))
  rw [List.length_map, openAll_length] at hd
  split
  · rename_i h
    constructor
    · rintro ⟨p, hp⟩; cases hp
    · rintro ⟨h1 | h1, _⟩
      · exact absurd h1 h.1
      · exact absurd h1 h.2
  · rename_i h
    have hor : outs.length = items.length ∨ items.length = templates.length := by
      by_cases e : outs.length = items.length
      · exact .inl e
      · by_cases e2 : items.length = templates.length
        · exact .inr e2
        · exact absurd ⟨e, e2⟩ h
    split
    · rename_i h2
      constructor
      · rintro ⟨p, hp⟩; cases hp
      · rintro ⟨_, h3⟩; exact absurd (hd.mpr (hn.mpr h3)) h2
    · rename_i h2
      simp only [ne_eq, Decidable.not_not] at h2
      exact ⟨fun _ => ⟨hor, hn.mp (hd.mp h2)⟩, fun _ => ⟨_, rfl⟩⟩

/-- C41: if all three numbers differ pairwise from the number of items, there is an error. -/
theorem all_different_rejected_partial (outs items templates : List String)
    (h1 : outs.length ≠ items.length) (h2 : items.length ≠ templates.length) :
    ∃ e, runnerPlan outs items templates = .error e := by
  cases h : runnerPlan outs items templates with
  | error e => exact ⟨e, rfl⟩
  | ok p =>
    have := (accepted_iff outs items templates).mp ⟨p, h⟩
    rcases this.1 with h | h
    · exact absurd h h1
    · exact absurd h h2

/-- C41: if the numbers agree and the arguments are accepted, then the `i`-th item is rendered with the
`i`-th template into the `i`-th file, and nothing else is rendered. -/
theorem pairing (outs items templates : List String) (p : List (String × File × String))
    (h1 : outs.length = items.length) (h2 : items.length = templates.length)
    (h : runnerPlan outs items templates = .ok p) :
    p.length = items.length ∧ ∀ (i : Nat) (it : String) (f : File) (t : String), p[i]? = some (it, f, t) →
      items[i]? = some it ∧ outs[i]? = some f.path ∧ templates[i]? = some t := by
  unfold runnerPlan plan at h
  split at h
  · cases h
  · split at h
    · cases h
    · cases h
      refine ⟨by simp [openAll_length]; omega, ?_⟩
      intro i it f t hi
      rw [List.getElem?_zip_eq_some] at hi
      obtain ⟨a, b⟩ := hi
      rw [List.getElem?_zip_eq_some] at b
      refine ⟨a, ?_, b.2⟩
      rw [← openAll_path outs 1, List.getElem?_map, b.1]
      rfl

/-- The hypotheses can be met. -/
example : (runnerPlan ["a.c", "b.c"] ["component/a", "assembly"] ["x.c", "y.c"]).toOption =
    some [("component/a", ⟨1, "a.c"⟩, "x.c"), ("assembly", ⟨2, "b.c"⟩, "y.c")] := by decide

/-- C41 does not hold in full: two files and two items but one template are accepted, and the second
item is silently not rendered. -/
theorem missing_template_accepted : (runnerPlan ["a.c", "b.c"] ["component/a", "assembly"] ["x.c"]).toOption =
    some [("component/a", ⟨1, "a.c"⟩, "x.c")] := by decide

/-- C41 does not hold in full: one file for two items and two templates is accepted. -/
theorem missing_outfile_accepted : (runnerPlan ["a.c"] ["component/a", "assembly"] ["x.c", "y.c"]).toOption =
    some [("component/a", ⟨1, "a.c"⟩, "x.c")] := by decide

/-- C41 does not hold in full: the same output file given twice is accepted. -/
theorem duplicate_outfile_accepted : (runnerPlan ["a.c", "a.c"] ["component/a", "assembly"] ["x.c", "y.c"]).toOption =
    some [("component/a", ⟨1, "a.c"⟩, "x.c"), ("assembly", ⟨2, "a.c"⟩, "y.c")] := by decide

/-! ### Items (C60) -/

open Verif.Runner.Spec

theorem splitAux_plain : ∀ (t cur : Text), Plain t → splitAux cur t = [cur ++ t] := by
  intro t
  induction t with
  | nil => intro cur _; simp [splitAux]
  | cons c t ih =>
    intro cur h
    have hc : c ≠ '/' := fun e => h (by simp [e])
    rw [splitAux, if_neg hc, ih _ (fun e => h (by simp [e]))]
    simp

theorem splitAux_slash : ∀ (t cur u : Text), Plain t → splitAux cur (t ++ '/' :: u) = (cur ++ t) :: splitAux [] u := by
  intro t
  induction t with
  | nil => intro cur u _; simp [splitAux]
  | cons c t ih =>
    intro cur u h
    have hc : c ≠ '/' := fun e => h (by simp [e])
    rw [List.cons_append, splitAux, if_neg hc, ih _ _ (fun e => h (by simp [e]))]
    simp

/-- The first part of an item and the rest. -/
theorem split_rest (t rest : Text) (h : Plain t) (hr : Rest rest) :
    split (t ++ rest) = t :: (match rest with | [] => [] | _ :: u => split u) := by
  unfold split
  rcases hr with rfl | ⟨u, rfl⟩
  · rw [List.append_nil, splitAux_plain t [] h]; rfl
  · rw [splitAux_slash t [] u h]; rfl

theorem cut (item : Text) : ∃ t rest, item = t ++ rest ∧ Plain t ∧ Rest rest := by
  induction item with
  | nil => exact ⟨[], [], rfl, by simp [Plain], .inl rfl⟩
  | cons c item ih =>
    by_cases hc : c = '/'
    · exact ⟨[], c :: item, rfl, by simp [Plain], .inr ⟨item, by rw [hc]⟩⟩
    · obtain ⟨t, rest, h1, h2, h3⟩ := ih
      refine ⟨c :: t, rest, by rw [h1]; rfl, ?_, h3⟩
      intro hm
      rcases List.mem_cons.mp hm with h | h
      · exact hc h.symm
      · exact h2 h

/-- Items that consist of `n` parts or more. -/
theorem split_cons (item : Text) (a : Text) (l : List Text) (h : split item = a :: l) :
    Plain a ∧ ((l = [] ∧ item = a) ∨ ∃ u, item = a ++ '/' :: u ∧ split u = l) := by
  obtain ⟨t, rest, rfl, h2, h3⟩ := cut item
  rw [split_rest t rest h2 h3] at h
  rcases h3 with rfl | ⟨u, rfl⟩
  · cases h; exact ⟨h2, .inl ⟨rfl, by simp⟩⟩
  · cases h; exact ⟨h2, .inr ⟨u, rfl, rfl⟩⟩

theorem split_ne_nil (item : Text) : split item ≠ [] := by
  obtain ⟨t, rest, rfl, h2, h3⟩ := cut item
  rw [split_rest t rest h2 h3]; simp

theorem rest_of_split (item : Text) (a : Text) (l : List Text) (h : split item = a :: l) :
    ∃ rest, item = a ++ rest ∧ Rest rest := by
  obtain ⟨_, h⟩ := split_cons item a l h
  rcases h with ⟨_, h⟩ | ⟨u, h, _⟩
  · exact ⟨[], by rw [h]; simp, .inl rfl⟩
  · exact ⟨_, h, .inr ⟨u, rfl⟩⟩

theorem find_first {α : Type} (p : α → Prop) [DecidablePred p] (l : List α) (x : α) :
    l.find? (fun y => decide (p y)) = some x ↔ IsFirst p l x := by
  rw [List.find?_eq_some_iff_append]
  unfold IsFirst
  simp only [decide_eq_true_eq]
  constructor
  · rintro ⟨h1, as, bs, h2, h3⟩
    exact ⟨as, bs, h2, h1, fun y hy => by simpa using h3 y hy⟩
  · rintro ⟨as, bs, h2, h1, h3⟩
    exact ⟨h1, as, bs, h2, fun y hy => by simpa using h3 y hy⟩

theorem pyIndex_at {α : Type} (l : List α) (k : Int) (x : α) : pyIndex l k = some x ↔ At l k x := by
  have hget : ∀ (n : Nat), l[n]? = some x ↔ ∃ before after, l = before ++ x :: after ∧ before.length = n := by
    intro n
    constructor
    · intro h
      rw [List.getElem?_eq_some_iff] at h
      obtain ⟨hn, hx⟩ := h
      refine ⟨l.take n, l.drop (n + 1), ?_, by simp; omega⟩
      rw [← hx]
      simp
    · rintro ⟨b, a, rfl, rfl⟩; simp
  unfold pyIndex At
  split
  · rename_i h0
    rw [hget]
    apply exists_congr; intro b
    apply exists_congr; intro a
    apply and_congr_right
    intro _
    constructor
    · intro h; left; omega
    · intro h; omega
  · rename_i h0
    split
    · rename_i h1
      rw [hget]
      apply exists_congr; intro b
      apply exists_congr; intro a
      apply and_congr_right
      intro hl
      have : l.length = b.length + (a.length + 1) := by rw [hl]; simp
      constructor
      · intro h; right; omega
      · intro h; omega
    · rename_i h1
      constructor
      · intro h; cases h
      · rintro ⟨b, a, hl, h⟩
        have : l.length = b.length + (a.length + 1) := by rw [hl]; simp
        omega

/-- C60: an item is accepted if and only if it names an entity of the assembly, and then exactly this
entity is rendered, with the capabilities and mappings of its address space. -/
theorem resolve_iff (num : Text → Option Int) (asm : Assembly) (item : Text) (ent : Entity) (key : Option Text) :
    resolve num asm item = .ok (ent, key) ↔ Names num asm item ent key := by
  constructor
  · intro h
    unfold resolve at h
    dsimp only at h
    split at h
    · rename_i h0
      cases hs : split item with
      | nil => exact absurd hs (split_ne_nil item)
      | cons a l =>
        rw [hs] at h0 h
        simp only [List.getElem?_cons_zero, Option.some.injEq] at h0
        obtain ⟨_, h1⟩ := split_cons item a l hs
        rcases h1 with ⟨rfl, _⟩ | ⟨u, rfl, hu⟩
        · simp at h
        · cases hl : l with
          | nil => rw [hl] at hu; exact absurd hu (split_ne_nil u)
          | cons n l' =>
            rw [hl] at hu h
            simp only [List.getElem?_cons_succ, List.getElem?_cons_zero] at h
            split at h
            · cases h
            · rename_i i hi
              cases h
              obtain ⟨rest, rfl, hr⟩ := rest_of_split u n l' hu
              subst h0
              have hp := (split_cons _ _ _ hu).1
              have := Names.component (num := num) (asm := asm) n rest i hp hr ((find_first _ _ _).mp hi)
              simpa using this
    · split at h
      · rename_i h0
        cases hs : split item with
        | nil => exact absurd hs (split_ne_nil item)
        | cons a l =>
          rw [hs] at h0 h
          simp only [List.getElem?_cons_zero, Option.some.injEq] at h0
          obtain ⟨_, h1⟩ := split_cons item a l hs
          rcases h1 with ⟨rfl, _⟩ | ⟨u, rfl, hu⟩
          · simp at h
          · cases hl : l with
            | nil => rw [hl] at hu; exact absurd hu (split_ne_nil u)
            | cons n l' =>
              rw [hl] at hu h
              simp only [List.getElem?_cons_succ, List.getElem?_cons_zero] at h
              split at h
              · cases h
              · rename_i c hc
                have hp := (split_cons _ _ _ hu).1
                obtain ⟨_, h1⟩ := split_cons u n l' hu
                rcases h1 with ⟨rfl, _⟩ | ⟨v, rfl, hv⟩
                · simp at h
                · cases hl' : l' with
                  | nil => rw [hl'] at hv; exact absurd hv (split_ne_nil v)
                  | cons d l'' =>
                    rw [hl'] at hv h
                    simp only [List.getElem?_cons_zero] at h
                    have hends : ∀ ends e, endOf num ends (a :: n :: d :: l'') = .ok e →
                        ∃ t rest k, v = d ++ ['/'] ++ t ++ rest ∧ Plain t ∧ Rest rest ∧ num t = some k ∧ At ends k e := by
                      intro ends e he
                      unfold endOf at he
                      simp only [List.getElem?_cons_succ] at he
                      obtain ⟨_, h1⟩ := split_cons v d l'' hv
                      rcases h1 with ⟨rfl, _⟩ | ⟨w, rfl, hw⟩
                      · simp at he
                      · cases hl'' : l'' with
                        | nil => rw [hl''] at hw; exact absurd hw (split_ne_nil w)
                        | cons t l3 =>
                          rw [hl''] at hw he
                          simp only [List.getElem?_cons_zero] at he
                          obtain ⟨rest, rfl, hr⟩ := rest_of_split w t l3 hw
                          split at he
                          · cases he
                          · rename_i k hk
                            split at he
                            · cases he
                            · rename_i e' he'
                              cases he
                              exact ⟨t, rest, k, by simp, (split_cons _ _ _ hw).1, hr, hk, (pyIndex_at _ _ _).mp he'⟩
                    subst h0
                    split at h
                    · rename_i hd
                      split at h
                      · cases h
                      · rename_i e he
                        cases h
                        obtain ⟨t, rest, k, rfl, h5, h6, h7, h8⟩ := hends _ _ he
                        have := Names.to_ (num := num) (asm := asm) n t rest c k e hp h5 h6 ((find_first _ _ _).mp hc) h7 h8
                        rw [hd]
                        simpa using this
                    · split at h
                      · rename_i hd
                        split at h
                        · cases h
                        · rename_i e he
                          cases h
                          obtain ⟨t, rest, k, rfl, h5, h6, h7, h8⟩ := hends _ _ he
                          have := Names.from_ (num := num) (asm := asm) n t rest c k e hp h5 h6 ((find_first _ _ _).mp hc) h7 h8
                          rw [hd]
                          simpa using this
                      · cases h
      · split at h
        · rename_i h0
          cases h
          cases hs : split item with
          | nil => exact absurd hs (split_ne_nil item)
          | cons a l =>
            rw [hs] at h0
            simp only [List.getElem?_cons_zero, Option.some.injEq] at h0
            obtain ⟨rest, rfl, hr⟩ := rest_of_split item a l hs
            rw [h0]
            exact .assembly rest hr
        · cases h
  · intro h
    have hat : ∀ (ends : List End) (k : Int) (e : End) (a b d t : Text) (l : List Text), num t = some k → At ends k e →
        endOf num ends (a :: b :: d :: t :: l) = .ok e := by
      intro ends k e a b d t l h1 h2
      simp only [endOf, List.getElem?_cons_succ, List.getElem?_cons_zero, h1, (pyIndex_at _ _ _).mpr h2]
    cases h with
    | component n rest i h1 h2 h3 =>
      have hs : split ("component/".toList ++ n ++ rest) = "component".toList :: n :: (match rest with | [] => [] | _ :: u => split u) := by
        have : "component/".toList ++ n ++ rest = "component".toList ++ '/' :: (n ++ rest) := by simp
        rw [this, split_rest _ _ (by simp [Plain]) (.inr ⟨_, rfl⟩)]
        dsimp only
        rw [split_rest n rest h1 h2]
      have hf := (find_first (fun x : Inst => x.name = n) _ _).mpr h3
      unfold resolve
      rw [hs]
      simp only [List.getElem?_cons_zero, List.getElem?_cons_succ, if_true]
      rw [hf]
    | to_ n t rest c k e h1 h2 h3 h4 h5 h6 =>
      have hs : split ("connector/".toList ++ n ++ "/to/".toList ++ t ++ rest) = "connector".toList :: n :: "to".toList :: t :: (match rest with | [] => [] | _ :: u => split u) := by
        have : "connector/".toList ++ n ++ "/to/".toList ++ t ++ rest = "connector".toList ++ '/' :: (n ++ '/' :: ("to".toList ++ '/' :: (t ++ rest))) := by simp
        rw [this, split_rest _ _ (by simp [Plain]) (.inr ⟨_, rfl⟩)]
        dsimp only
        rw [split_rest n _ h1 (.inr ⟨_, rfl⟩)]
        dsimp only
        rw [split_rest _ _ (by simp [Plain]) (.inr ⟨_, rfl⟩)]
        dsimp only
        rw [split_rest t rest h2 h3]
      have hf := (find_first (fun x : Connection => x.name = n) _ _).mpr h4
      unfold resolve
      rw [hs]
      simp only [List.getElem?_cons_zero, List.getElem?_cons_succ]
      rw [if_neg (by simp), if_pos trivial, hf]
      dsimp only
      rw [if_pos trivial, hat _ k e _ _ _ _ _ h5 h6]
    | from_ n t rest c k e h1 h2 h3 h4 h5 h6 =>
      have hs : split ("connector/".toList ++ n ++ "/from/".toList ++ t ++ rest) = "connector".toList :: n :: "from".toList :: t :: (match rest with | [] => [] | _ :: u => split u) := by
        have : "connector/".toList ++ n ++ "/from/".toList ++ t ++ rest = "connector".toList ++ '/' :: (n ++ '/' :: ("from".toList ++ '/' :: (t ++ rest))) := by simp
        rw [this, split_rest _ _ (by simp [Plain]) (.inr ⟨_, rfl⟩)]
        dsimp only
        rw [split_rest n _ h1 (.inr ⟨_, rfl⟩)]
        dsimp only
        rw [split_rest _ _ (by simp [Plain]) (.inr ⟨_, rfl⟩)]
        dsimp only
        rw [split_rest t rest h2 h3]
      have hf := (find_first (fun x : Connection => x.name = n) _ _).mpr h4
      unfold resolve
      rw [hs]
      simp only [List.getElem?_cons_zero, List.getElem?_cons_succ]
      rw [if_neg (by simp), if_pos trivial, hf]
      dsimp only
      rw [if_neg (by simp), if_pos trivial, hat _ k e _ _ _ _ _ h5 h6]
    | assembly rest h1 =>
      unfold resolve
      rw [split_rest _ rest (by simp [Plain]) h1]
      simp only [List.getElem?_cons_zero]
      rw [if_neg (by simp), if_neg (by simp), if_pos trivial]

/-- C60: what has been written when the runner ends. The files are written in the order of the items,
each with what its template gives for its entity in the state that the previous item has left. If all
items are rendered, all files are written; otherwise there is a first item that does not name an entity
or whose rendering fails, and exactly the files before it are written. -/
theorem written {S : Type} (num : Text → Option Int) (asm : Assembly)
    (render : S → Entity → Option Text → String → Except String (Text × S)) (s0 : S) (plan : List (Text × Nat × String)) :
    ∃ states : List S, states.head? = some s0 ∧ states.length = (renderAll num asm render s0 plan).1.length + 1 ∧
      (∀ (i file : Nat) (g : Text), (renderAll num asm render s0 plan).1[i]? = some (file, g) →
        ∃ item template ent key s s', plan[i]? = some (item, file, template) ∧ Names num asm item ent key ∧
          states[i]? = some s ∧ states[i + 1]? = some s' ∧ render s ent key template = .ok (g, s')) ∧
      (∀ s, (renderAll num asm render s0 plan).2 = .ok s → (renderAll num asm render s0 plan).1.length = plan.length ∧ states.getLast? = some s) ∧
      (∀ x, (renderAll num asm render s0 plan).2 = .error x →
        ∃ item file template s, plan[(renderAll num asm render s0 plan).1.length]? = some (item, file, template) ∧
          states.getLast? = some s ∧
          ((∀ ent key, ¬ Names num asm item ent key) ∨ ∃ ent key, Names num asm item ent key ∧ render s ent key template = .error x)) := by
  induction plan generalizing s0 with
  | nil =>
    refine ⟨[s0], rfl, rfl, ?_, ?_, ?_⟩
    · intro i file g h; simp [renderAll] at h
    · intro s h; simp only [renderAll, Except.ok.injEq] at h; subst h; exact ⟨rfl, rfl⟩
    · intro x h; simp [renderAll] at h
  | cons p plan ih =>
    obtain ⟨item, file, template⟩ := p
    cases hr : resolve num asm item with
    | error x =>
      have he : renderAll num asm render s0 ((item, file, template) :: plan) = ([], .error x) := by simp only [renderAll, hr]
      rw [he]
      refine ⟨[s0], rfl, rfl, ?_, ?_, ?_⟩
      · intro i f g h; simp at h
      · intro s h; simp at h
      · intro y h
        refine ⟨item, file, template, s0, by simp, rfl, .inl ?_⟩
        intro ent key hn
        rw [(resolve_iff num asm item ent key).mpr hn] at hr
        cases hr
    | ok r =>
      obtain ⟨ent, key⟩ := r
      have hn := (resolve_iff num asm item ent key).mp hr
      cases hg : render s0 ent key template with
      | error x =>
        have he : renderAll num asm render s0 ((item, file, template) :: plan) = ([], .error x) := by simp only [renderAll, hr, hg]
        rw [he]
        refine ⟨[s0], rfl, rfl, ?_, ?_, ?_⟩
        · intro i f g h; simp at h
        · intro s h; simp at h
        · intro y h
          simp only [Except.error.injEq] at h
          subst h
          exact ⟨item, file, template, s0, by simp, rfl, .inr ⟨ent, key, hn, hg⟩⟩
      | ok r =>
        obtain ⟨g, s'⟩ := r
        have he : renderAll num asm render s0 ((item, file, template) :: plan) =
            ((file, g) :: (renderAll num asm render s' plan).1, (renderAll num asm render s' plan).2) := by
          simp only [renderAll, hr, hg]
        rw [he]
        obtain ⟨states, h1, h2, h3, h4, h5⟩ := ih s'
        have hne : states ≠ [] := by rintro rfl; cases h1
        refine ⟨s0 :: states, rfl, by simp [h2], ?_, ?_, ?_⟩
        · intro i f g' hi
          cases i with
          | zero =>
            simp only [List.getElem?_cons_zero, Option.some.injEq, Prod.mk.injEq] at hi
            obtain ⟨rfl, rfl⟩ := hi
            refine ⟨item, template, ent, key, s0, s', rfl, hn, rfl, ?_, hg⟩
            rw [List.getElem?_cons_succ, ← List.head?_eq_getElem?]; exact h1
          | succ i =>
            obtain ⟨it, te, en, ke, a, b, g1, g2, g3, g4, g5⟩ := h3 i f g' (by simpa using hi)
            exact ⟨it, te, en, ke, a, b, by simpa using g1, g2, by simpa using g3, by simpa using g4, g5⟩
        · intro s hs
          obtain ⟨g1, g2⟩ := h4 s hs
          exact ⟨by simp [g1], by rw [List.getLast?_cons_of_ne_nil hne]; exact g2⟩
        · intro x hx
          obtain ⟨it, fi, te, s, g1, g2, g3⟩ := h5 x hx
          exact ⟨it, fi, te, s, by simpa using g1, by rw [List.getLast?_cons_of_ne_nil hne]; exact g2, g3⟩

def demoAsm : Assembly :=
  ⟨[⟨"a".toList, "a".toList⟩, ⟨"b".toList, "g".toList⟩], [⟨"c".toList, [⟨0, "a".toList⟩], [⟨1, "a".toList⟩, ⟨2, "g".toList⟩]⟩]⟩
def demoNum : Text → Option Int := fun t => if t = "0".toList then some 0 else if t = "1".toList then some 1 else if t = "-1".toList then some (-1) else none

/-- Items that are accepted and rejected. -/
example : resolve demoNum demoAsm "component/b".toList = .ok (.inst ⟨"b".toList, "g".toList⟩, some "g".toList) ∧
    resolve demoNum demoAsm "connector/c/to/1".toList = .ok (.end_ ⟨2, "g".toList⟩, some "g".toList) ∧
    resolve demoNum demoAsm "assembly".toList = .ok (.assembly, none) ∧
    (∃ e, resolve demoNum demoAsm "component/d".toList = .error e) ∧
    (∃ e, resolve demoNum demoAsm "connector/c/from/1".toList = .error e) := ⟨rfl, rfl, rfl, ⟨_, rfl⟩, ⟨_, rfl⟩⟩

/-- A negative index is not rejected: it counts from the last end. -/
theorem negative_index_accepted : resolve demoNum demoAsm "connector/c/to/-1".toList =
    .ok (.end_ ⟨2, "g".toList⟩, some "g".toList) := rfl

/-- What follows the parts that are used is ignored. -/
theorem trailing_parts_accepted : resolve demoNum demoAsm "component/b/x".toList = resolve demoNum demoAsm "component/b".toList := rfl

end Verif.Runner
