import Verif.Labels.Spec
import Mathlib.Data.List.Nodup
import Mathlib.Tactic.ByContra
import Mathlib.Tactic.Tauto
import Batteries.Data.List.Perm

namespace Verif.Labels
open Spec Relation

/-! ### Dictionaries -/

theorem get_put (d : Dict) (k v x : String) : get (put d k v) x = if x = k then some v else get d x := by
  induction d with
  | nil =>
    by_cases h : x = k
    · subst h; simp [put, get]
    · have : ¬ k = x := fun e => h e.symm
      simp [put, get, h, this]
  | cons p d ih =>
    obtain ⟨k', v'⟩ := p
    simp only [put]
    by_cases hk : k' = k
    · subst hk
      rw [if_pos rfl]
      by_cases h : x = k'
      · subst h; simp [get]
      · have : ¬ k' = x := fun e => h e.symm
        simp [get, h, this]
    · rw [if_neg hk]
      by_cases h : k' = x
      · subst h
        simp [get, hk]
      · have e1 : get ((k', v') :: put d k v) x = get (put d k v) x := by simp [get, h]
        have e2 : get ((k', v') :: d) x = get d x := by simp [get, h]
        rw [e1, e2, ih]

theorem get_mem {d : Dict} {k v : String} (h : get d k = some v) : (k, v) ∈ d := by
  unfold get at h
  simp only [Option.map_eq_some_iff] at h
  obtain ⟨p, hp, rfl⟩ := h
  have h1 := List.find?_some hp
  have h2 := List.mem_of_find?_eq_some hp
  simp only [decide_eq_true_eq] at h1
  subst h1
  exact h2

theorem get_of_mem {d : Dict} {k v : String} (hnd : (d.map (·.1)).Nodup) (h : (k, v) ∈ d) : get d k = some v := by
  induction d with
  | nil => cases h
  | cons p d ih =>
    rw [List.map_cons, List.nodup_cons] at hnd
    rcases List.mem_cons.mp h with rfl | h
    · simp [get]
    · have hne : ¬ p.1 = k := by
        intro e
        exact hnd.1 (e ▸ List.mem_map_of_mem (f := (·.1)) h)
      have : get (p :: d) k = get d k := by simp [get, hne]
      rw [this]
      exact ih hnd.2 h

theorem put_keys (d : Dict) (k v : String) : ∀ x, x ∈ (put d k v).map (·.1) ↔ x = k ∨ x ∈ d.map (·.1) := by
  induction d with
  | nil => intro x; simp [put]
  | cons p d ih =>
    intro x
    simp only [put]
    by_cases h : p.1 = k
    · rw [if_pos h]; simp [h]
    · rw [if_neg h]
      simp only [List.map_cons, List.mem_cons, ih x]
      tauto

theorem put_nodup (d : Dict) (k v : String) (h : (d.map (·.1)).Nodup) : ((put d k v).map (·.1)).Nodup := by
  induction d with
  | nil => simp [put]
  | cons p d ih =>
    simp only [put]
    rw [List.map_cons, List.nodup_cons] at h
    by_cases hk : p.1 = k
    · rw [if_pos hk, List.map_cons, List.nodup_cons]
      exact ⟨hk ▸ h.1, h.2⟩
    · rw [if_neg hk, List.map_cons, List.nodup_cons]
      refine ⟨?_, ih h.2⟩
      rw [put_keys]
      rintro (e | e)
      · exact hk e
      · exact h.1 e

/-! ### Following a dictionary -/

/-- One step of following the dictionary. -/
def Step (d : Dict) (x y : String) : Prop := get d x = some y

theorem step_unique (d : Dict) : Relator.RightUnique (Step d) := by
  intro a b c h1 h2
  have h : some b = some c := h1.symm.trans h2
  exact Option.some.inj h

/-- Where following a relation ends. -/
def Root (r : String → String → Prop) (x l : String) : Prop := ReflTransGen r x l ∧ ∀ y, ¬ r l y

theorem stuck {r : String → String → Prop} {l x : String} (h : ∀ y, ¬ r l y) (hr : ReflTransGen r l x) : l = x := by
  rcases ReflTransGen.cases_head hr with h' | ⟨c, hc, _⟩
  · exact h'
  · exact absurd hc (h c)

theorem root_unique {r : String → String → Prop} (hu : Relator.RightUnique r) {x l m : String}
    (h1 : Root r x l) (h2 : Root r x m) : l = m := by
  rcases ReflTransGen.total_of_right_unique hu h1.1 h2.1 with h | h
  · exact stuck h1.2 h
  · exact (stuck h2.2 h).symm

/-- A cycle that is reached is never left. -/
theorem cycle_no_root {r : String → String → Prop} (hu : Relator.RightUnique r) {x c l : String}
    (hx : ReflTransGen r x c) (hc : TransGen r c c) : ¬ Root r x l := by
  rintro ⟨h1, h2⟩
  have hback : ∀ y, ReflTransGen r c y → ReflTransGen r y c := by
    intro y hy
    induction hy with
    | refl => exact .refl
    | @tail b y' hb hs ih =>
      have hbc : TransGen r b c := by
        rcases ReflTransGen.cases_head ih with e | ⟨z, hz, hzc⟩
        · subst e; exact hc
        · exact TransGen.head' hz hzc
      obtain ⟨z, hz, hzc⟩ := TransGen.head'_iff.mp hbc
      rw [hu hs hz]; exact hzc
  rcases ReflTransGen.total_of_right_unique hu h1 hx with h | h
  · have := stuck h2 h
    subst this
    obtain ⟨z, hz, _⟩ := TransGen.head'_iff.mp hc
    exact h2 z hz
  · have hlc := stuck h2 (hback l h)
    subst hlc
    obtain ⟨z, hz, _⟩ := TransGen.head'_iff.mp hc
    exact h2 z hz

theorem canonLoop_spec (d : Dict) (x : String) : ∀ (fuel : Nat) (seen : List String) (group : String),
    fuel + seen.length = d.length + 2 → seen.Nodup → group ∈ seen → ReflTransGen (Step d) x group →
    (∀ s ∈ seen, ReflTransGen (Step d) s group) → (∀ s ∈ seen, s ≠ group → s ∈ d.map (·.1)) →
    (∃ l, canonLoop d fuel seen group = .ok l ∧ Root (Step d) x l) ∨
    (∃ e, canonLoop d fuel seen group = .error e ∧ ∃ c, ReflTransGen (Step d) x c ∧ TransGen (Step d) c c) := by
  intro fuel
  induction fuel with
  | zero =>
    intro seen group hf hnd hg hx hs hk
    exfalso
    have hsub : seen.erase group ⊆ d.map (·.1) := by
      intro s hs'
      have h1 := List.mem_of_mem_erase hs'
      have h2 : s ≠ group := by rintro rfl; exact (List.Nodup.not_mem_erase hnd) hs'
      exact hk s h1 h2
    have := (List.subperm_of_subset (hnd.erase group) hsub).length_le
    rw [List.length_erase_of_mem hg, List.length_map] at this
    omega
  | succ f ih =>
    intro seen group hf hnd hg hx hs hk
    simp only [canonLoop]
    cases hget : get d group with
    | none =>
      left
      exact ⟨group, rfl, hx, fun y hy => by rw [Step, hget] at hy; cases hy⟩
    | some g =>
      simp only []
      by_cases hmem : g ∈ seen
      · rw [if_pos hmem]
        right
        have hstep : Step d group g := hget
        refine ⟨_, rfl, g, hx.tail hstep, ?_⟩
        exact TransGen.tail' (hs g hmem) hstep
      · rw [if_neg hmem]
        have hstep : Step d group g := hget
        apply ih
        · simp; omega
        · rw [List.nodup_append]
          refine ⟨hnd, by simp, ?_⟩
          intro a ha b hb
          simp only [List.mem_singleton] at hb
          subst hb
          rintro rfl; exact hmem ha
        · simp
        · exact hx.tail hstep
        · intro s hs'
          rcases List.mem_append.mp hs' with h | h
          · exact (hs s h).tail hstep
          · simp only [List.mem_singleton] at h
            subst h; exact .refl
        · intro s hs' hne
          rcases List.mem_append.mp hs' with h | h
          · by_cases hsg : s = group
            · subst hsg; exact List.mem_map_of_mem (f := (·.1)) (get_mem hget)
            · exact hk s h hsg
          · simp only [List.mem_singleton] at h
            exact absurd h hne

theorem canon_spec (d : Dict) (x : String) :
    (∃ l, canon d x = .ok l ∧ Root (Step d) x l) ∨
    (∃ e, canon d x = .error e ∧ ∃ c, ReflTransGen (Step d) x c ∧ TransGen (Step d) c c) :=
  canonLoop_spec d x (d.length + 1) [x] x (by simp) (by simp) (by simp) .refl
    (by intro s hs; simp only [List.mem_singleton] at hs; subst hs; exact .refl)
    (by intro s hs hne; simp only [List.mem_singleton] at hs; exact absurd hs hne)

theorem canon_ok {d : Dict} {x l : String} : canon d x = .ok l ↔ Root (Step d) x l := by
  rcases canon_spec d x with ⟨l', h1, h2⟩ | ⟨e, h1, c, h2, h3⟩
  · rw [h1]
    constructor
    · intro h; cases h; exact h2
    · intro h; rw [root_unique (step_unique d) h h2]
  · rw [h1]
    constructor
    · intro h; cases h
    · intro h; exact absurd h (cycle_no_root (step_unique d) h2 h3)

theorem canon_error {d : Dict} {x e : String} (h : canon d x = .error e) :
    ∃ c, ReflTransGen (Step d) x c ∧ TransGen (Step d) c c := by
  rcases canon_spec d x with ⟨l', h1, h2⟩ | ⟨e, h1, h2⟩
  · rw [h1] at h; cases h
  · exact h2

/-! ### Assigning -/

/-- The dictionary represents the assignments made so far, perhaps with shortcuts. -/
structure Inv (r : String → String → Prop) (d : Dict) : Prop where
  keys : ∀ x, (∃ y, get d x = some y) ↔ ∃ y, r x y
  path : ∀ x y, get d x = some y → TransGen r x y
  nodup : (d.map (·.1)).Nodup

theorem Inv.reach {r : String → String → Prop} {d : Dict} (h : Inv r d) {x y : String}
    (hr : ReflTransGen (Step d) x y) : ReflTransGen r x y := by
  induction hr with
  | refl => exact .refl
  | tail _ hs ih => exact ih.trans (h.path _ _ hs).to_reflTransGen

theorem Inv.cycle {r : String → String → Prop} {d : Dict} (h : Inv r d) {c : String}
    (hc : TransGen (Step d) c c) : TransGen r c c := by
  have : ∀ x y, TransGen (Step d) x y → TransGen r x y := by
    intro x y hxy
    induction hxy with
    | single hs => exact h.path _ _ hs
    | tail _ hs ih => exact ih.trans (h.path _ _ hs)
  exact this c c hc

theorem Inv.root {r : String → String → Prop} {d : Dict} (h : Inv r d) {x l : String}
    (hr : Root (Step d) x l) : Root r x l := by
  refine ⟨h.reach hr.1, ?_⟩
  intro y hy
  obtain ⟨z, hz⟩ := (h.keys l).mpr ⟨y, hy⟩
  exact hr.2 z hz

/-- With one more assignment. -/
def Plus (r : String → String → Prop) (c l : String) (x y : String) : Prop := r x y ∨ (x = c ∧ y = l)

theorem assign_inv {r : String → String → Prop} {d : Dict} (h : Inv r d) {c l : String} (hc : ∀ y, ¬ r c y) :
    (∀ d', assign d c l = .ok d' → Inv (Plus r c l) d') ∧
    (∀ e, assign d c l = .error e → ∃ z, TransGen r z z) := by
  constructor
  · intro d' ha
    unfold assign at ha
    cases hk : canon d l with
    | error e => rw [hk] at ha; cases ha
    | ok g =>
      rw [hk] at ha
      cases ha
      have hroot := canon_ok.mp hk
      constructor
      · intro x
        rw [get_put]
        by_cases hx : x = c
        · subst hx; simp [Plus]
        · rw [if_neg hx, h.keys x]
          constructor
          · rintro ⟨y, hy⟩; exact ⟨y, .inl hy⟩
          · rintro ⟨y, hy | ⟨e, _⟩⟩
            · exact ⟨y, hy⟩
            · exact absurd e hx
      · intro x y hy
        rw [get_put] at hy
        by_cases hx : x = c
        · rw [if_pos hx] at hy
          cases hy
          subst hx
          have h1 : ReflTransGen (Plus r x l) l g := ReflTransGen.mono (fun a b hab => .inl hab) _ _ (h.reach hroot.1)
          exact TransGen.head' (.inr ⟨rfl, rfl⟩) h1
        · rw [if_neg hx] at hy
          exact TransGen.mono (fun a b hab => .inl hab) _ _ (h.path x y hy)
      · exact put_nodup d c g h.nodup
  · intro e ha
    unfold assign at ha
    cases hk : canon d l with
    | ok g => rw [hk] at ha; cases ha
    | error e' =>
      obtain ⟨z, _, hz⟩ := canon_error hk
      exact ⟨z, h.cycle hz⟩

/-- The assignments of step 1. -/
def ByGroup (is : List Inst) (c l : String) : Prop :=
  ∃ i ∈ is, i.name = c ∧ i.addressSpace ≠ i.name ∧ i.addressSpace = l

/-- The assignments of step 2. -/
def ByLabel (is : List Inst) (c l : String) : Prop := ∃ i ∈ is, i.name = c ∧ i.label = some l

theorem assigned_iff (is : List Inst) (c l : String) : Assigned is c l ↔ ByGroup is c l ∨ ByLabel is c l := by
  unfold Assigned ByGroup ByLabel
  constructor
  · rintro ⟨i, hi, hn, h | h⟩
    · exact .inr ⟨i, hi, hn, h⟩
    · exact .inl ⟨i, hi, hn, h⟩
  · rintro (⟨i, hi, hn, h⟩ | ⟨i, hi, hn, h⟩)
    · exact ⟨i, hi, hn, .inr h⟩
    · exact ⟨i, hi, hn, .inl h⟩

theorem Inv.congr {r s : String → String → Prop} {d : Dict} (h : Inv r d) (he : ∀ x y, r x y ↔ s x y) : Inv s d := by
  have : r = s := by funext x y; exact propext (he x y)
  exact this ▸ h

theorem groups_inv : ∀ (is : List Inst) (r : String → String → Prop) (d : Dict),
    Inv r d → (is.map (·.name)).Nodup → (∀ i ∈ is, ∀ y, ¬ r i.name y) →
    (∀ d', groups is d = .ok d' → Inv (fun x y => r x y ∨ ByGroup is x y) d') ∧
    (∀ e, groups is d = .error e → ∃ z, TransGen (fun x y => r x y ∨ ByGroup is x y) z z) := by
  intro is
  induction is with
  | nil =>
    intro r d h _ _
    refine ⟨?_, fun e he => (by cases he)⟩
    intro d' he
    cases he
    exact h.congr (fun x y => by simp [ByGroup])
  | cons i is ih =>
    intro r d h hnd hfree
    rw [List.map_cons, List.nodup_cons] at hnd
    simp only [groups]
    by_cases ha : i.addressSpace ≠ i.name
    · rw [if_pos ha]
      have hplus : ∀ x y, (Plus r i.name i.addressSpace x y ∨ ByGroup is x y) ↔ (r x y ∨ ByGroup (i :: is) x y) := by
        intro x y
        unfold Plus ByGroup
        constructor
        · rintro ((h | ⟨h1, h2⟩) | ⟨j, hj, h⟩)
          · exact .inl h
          · exact .inr ⟨i, by simp, h1.symm, ha, h2.symm⟩
          · exact .inr ⟨j, by simp [hj], h⟩
        · rintro (h | ⟨j, hj, h1, h2, h3⟩)
          · exact .inl (.inl h)
          · rcases List.mem_cons.mp hj with rfl | hj
            · exact .inl (.inr ⟨h1.symm, h3.symm⟩)
            · exact .inr ⟨j, hj, h1, h2, h3⟩
      have hpeq : (fun x y => Plus r i.name i.addressSpace x y ∨ ByGroup is x y) = (fun x y => r x y ∨ ByGroup (i :: is) x y) := by
        funext x y; exact propext (hplus x y)
      obtain ⟨a1, a2⟩ := assign_inv h (c := i.name) (l := i.addressSpace) (hfree i (by simp))
      cases has : assign d i.name i.addressSpace with
      | error e =>
        simp only []
        refine ⟨fun d' hd => (by cases hd), ?_⟩
        intro e' _
        obtain ⟨z, hz⟩ := a2 e has
        exact ⟨z, TransGen.mono (fun a b hab => .inl hab) _ _ hz⟩
      | ok d1 =>
        simp only []
        have hi := ih (Plus r i.name i.addressSpace) d1 (a1 d1 has) hnd.2 (by
          intro j hj y hy
          rcases hy with hy | ⟨e, _⟩
          · exact hfree j (by simp [hj]) y hy
          · exact hnd.1 (e ▸ List.mem_map_of_mem (f := (·.name)) hj))
        rw [hpeq] at hi
        exact hi
    · rw [if_neg ha]
      have hpeq : (fun x y => r x y ∨ ByGroup is x y) = (fun x y => r x y ∨ ByGroup (i :: is) x y) := by
        funext x y
        apply propext
        unfold ByGroup
        constructor
        · rintro (h | ⟨j, hj, h⟩)
          · exact .inl h
          · exact .inr ⟨j, by simp [hj], h⟩
        · rintro (h | ⟨j, hj, h1, h2, h3⟩)
          · exact .inl h
          · rcases List.mem_cons.mp hj with rfl | hj
            · exact absurd h2 ha
            · exact .inr ⟨j, hj, h1, h2, h3⟩
      have hi := ih r d h hnd.2 (fun j hj => hfree j (by simp [hj]))
      rw [hpeq] at hi
      exact hi

theorem configured_inv : ∀ (is : List Inst) (r : String → String → Prop) (d : Dict),
    Inv r d → (is.map (·.name)).Nodup → (∀ i ∈ is, i.label.isSome = true → ∀ y, ¬ r i.name y) →
    (∀ d', configured is d = .ok d' → Inv (fun x y => r x y ∨ ByLabel is x y) d') ∧
    (∀ e, configured is d = .error e → ∃ z, TransGen (fun x y => r x y ∨ ByLabel is x y) z z) := by
  intro is
  induction is with
  | nil =>
    intro r d h _ _
    refine ⟨?_, fun e he => (by cases he)⟩
    intro d' he
    cases he
    exact h.congr (fun x y => by simp [ByLabel])
  | cons i is ih =>
    intro r d h hnd hfree
    rw [List.map_cons, List.nodup_cons] at hnd
    simp only [configured]
    cases hl : i.label with
    | some l =>
      simp only []
      have hpeq : (fun x y => Plus r i.name l x y ∨ ByLabel is x y) = (fun x y => r x y ∨ ByLabel (i :: is) x y) := by
        funext x y
        apply propext
        unfold Plus ByLabel
        constructor
        · rintro ((h | ⟨h1, h2⟩) | ⟨j, hj, h⟩)
          · exact .inl h
          · exact .inr ⟨i, by simp, h1.symm, h2 ▸ hl⟩
          · exact .inr ⟨j, by simp [hj], h⟩
        · rintro (h | ⟨j, hj, h1, h2⟩)
          · exact .inl (.inl h)
          · rcases List.mem_cons.mp hj with rfl | hj
            · rw [hl] at h2
              exact .inl (.inr ⟨h1.symm, (Option.some.inj h2).symm⟩)
            · exact .inr ⟨j, hj, h1, h2⟩
      obtain ⟨a1, a2⟩ := assign_inv h (c := i.name) (l := l) (hfree i (by simp) (by rw [hl]; rfl))
      cases has : assign d i.name l with
      | error e =>
        simp only []
        refine ⟨fun d' hd => (by cases hd), ?_⟩
        intro e' _
        obtain ⟨z, hz⟩ := a2 e has
        exact ⟨z, TransGen.mono (fun a b hab => .inl hab) _ _ hz⟩
      | ok d1 =>
        simp only []
        have hi := ih (Plus r i.name l) d1 (a1 d1 has) hnd.2 (by
          intro j hj hjl y hy
          rcases hy with hy | ⟨e, _⟩
          · exact hfree j (by simp [hj]) hjl y hy
          · exact hnd.1 (e ▸ List.mem_map_of_mem (f := (·.name)) hj))
        rw [hpeq] at hi
        exact hi
    | none =>
      simp only []
      have hpeq : (fun x y => r x y ∨ ByLabel is x y) = (fun x y => r x y ∨ ByLabel (i :: is) x y) := by
        funext x y
        apply propext
        unfold ByLabel
        constructor
        · rintro (h | ⟨j, hj, h⟩)
          · exact .inl h
          · exact .inr ⟨j, by simp [hj], h⟩
        · rintro (h | ⟨j, hj, h1, h2⟩)
          · exact .inl h
          · rcases List.mem_cons.mp hj with rfl | hj
            · rw [hl] at h2; cases h2
            · exact .inr ⟨j, hj, h1, h2⟩
      have hi := ih r d h hnd.2 (fun j hj => hfree j (by simp [hj]))
      rw [hpeq] at hi
      exact hi

/-! ### Connections -/

/-- `d'` is `d` with entries for connections added. -/
structure Ext (cn : String → Prop) (d d' : Dict) : Prop where
  same : ∀ x, ¬ cn x → get d' x = get d x
  nodup : (d'.map (·.1)).Nodup

theorem Ext.root {cn : String → Prop} {d d' : Dict} (h : Ext cn d d') (hval : ∀ x y, get d x = some y → ¬ cn y)
    {x : String} (hx : ¬ cn x) (l : String) : Root (Step d') x l ↔ Root (Step d) x l := by
  have f1 : ∀ y, ReflTransGen (Step d') x y → ReflTransGen (Step d) x y ∧ ¬ cn y := by
    intro y hy
    induction hy with
    | refl => exact ⟨.refl, hx⟩
    | @tail b c _ hs ih =>
      have hs' : get d b = some c := by rw [← h.same b ih.2]; exact hs
      exact ⟨ih.1.tail hs', hval b c hs'⟩
  have f2 : ∀ y, ReflTransGen (Step d) x y → ReflTransGen (Step d') x y ∧ ¬ cn y := by
    intro y hy
    induction hy with
    | refl => exact ⟨.refl, hx⟩
    | @tail b c _ hs ih =>
      have hs' : get d' b = some c := by rw [h.same b ih.2]; exact hs
      exact ⟨ih.1.tail hs', hval b c hs⟩
  constructor
  · rintro ⟨a, b⟩
    obtain ⟨a1, a2⟩ := f1 l a
    exact ⟨a1, fun y hy => b y (by rw [Step, h.same l a2]; exact hy)⟩
  · rintro ⟨a, b⟩
    obtain ⟨a1, a2⟩ := f2 l a
    exact ⟨a1, fun y hy => b y (by rw [Step, ← h.same l a2]; exact hy)⟩

theorem Ext.canon_eq {cn : String → Prop} {d d' : Dict} (h : Ext cn d d') (hval : ∀ x y, get d x = some y → ¬ cn y)
    {x : String} (hx : ¬ cn x) (l : String) : canon d' x = .ok l ↔ canon d x = .ok l := by
  rw [canon_ok, canon_ok]; exact h.root hval hx l

theorem canonAll_spec (d : Dict) : ∀ (xs gs : List String), canonAll d xs = .ok gs ↔
    xs.map (canon d) = gs.map .ok := by
  intro xs
  induction xs with
  | nil => intro gs; cases gs <;> simp [canonAll]
  | cons x xs ih =>
    intro gs
    simp only [canonAll]
    cases hc : canon d x with
    | error e => simp only []; constructor
                 · intro h; cases h
                 · intro h; cases gs <;> simp [hc] at h
    | ok g =>
      simp only []
      cases hr : canonAll d xs with
      | error e =>
        simp only []
        constructor
        · intro h; cases h
        · intro h
          cases gs with
          | nil => simp at h
          | cons g' gs =>
            simp only [List.map_cons, List.cons.injEq] at h
            have := (ih gs).mpr h.2
            rw [hr] at this; cases this
      | ok gs' =>
        simp only [Except.ok.injEq]
        have hg' := (ih gs').mp hr
        constructor
        · rintro rfl
          simp [hc, hg']
        · intro h
          cases gs with
          | nil => simp at h
          | cons g2 gs =>
            simp only [List.map_cons, List.cons.injEq, hc, Except.ok.injEq] at h
            have := (ih gs).mpr h.2
            rw [hr] at this
            cases this
            rw [h.1]

theorem canonAll_error (d : Dict) : ∀ (xs : List String) (e : String), canonAll d xs = .error e →
    ∃ x ∈ xs, ∃ e', canon d x = .error e' := by
  intro xs
  induction xs with
  | nil => intro e h; cases h
  | cons x xs ih =>
    intro e h
    simp only [canonAll] at h
    cases hc : canon d x with
    | error e' => exact ⟨x, by simp, e', hc⟩
    | ok g =>
      rw [hc] at h
      simp only [] at h
      cases hr : canonAll d xs with
      | error e' =>
        obtain ⟨y, hy, z⟩ := ih e' hr
        exact ⟨y, by simp [hy], z⟩
      | ok gs => rw [hr] at h; cases h

theorem eraseDups_singleton (gs : List String) (g : String) : gs.eraseDups = [g] ↔ gs ≠ [] ∧ ∀ x ∈ gs, x = g := by
  constructor
  · intro h
    refine ⟨by rintro rfl; simp at h, ?_⟩
    intro x hx
    have : x ∈ gs.eraseDups := List.mem_eraseDups.mpr hx
    rw [h] at this
    simpa using this
  · rintro ⟨h1, h2⟩
    cases gs with
    | nil => exact absurd rfl h1
    | cons a as =>
      have ha := h2 a (by simp)
      subst ha
      rw [List.eraseDups_cons]
      have : as.filter (fun b => !b == a) = [] := by
        rw [List.filter_eq_nil_iff]
        intro b hb
        simp [h2 b (by simp [hb])]
      rw [this]
      simp

/-- The label of an internal connection, in terms of the dictionary without connections. -/
def IntD (d : Dict) (c : Conn) (l : String) : Prop := c.ends ≠ [] ∧ ∀ e ∈ c.ends, canon d e = .ok l

theorem internal_spec (cn : String → Prop) (d : Dict) (hval : ∀ x y, get d x = some y → ¬ cn y) :
    ∀ (cs : List Conn) (d' : Dict), (cs.map (·.name)).Nodup → (∀ c ∈ cs, cn c.name ∧ ∀ e ∈ c.ends, ¬ cn e) →
    Ext cn d d' → (∀ c ∈ cs, get d' c.name = none) →
    (∀ d'', internal cs d' = .ok d'' → Ext cn d d'' ∧
      (∀ x, cn x → ∀ l, get d'' x = some l ↔ get d' x = some l ∨ ∃ c ∈ cs, c.name = x ∧ IntD d c l) ∧
      (∀ c ∈ cs, ∀ e ∈ c.ends, ∃ l, canon d e = .ok l)) ∧
    (∀ e, internal cs d' = .error e → ∃ x, TransGen (Step d) x x) := by
  intro cs
  induction cs with
  | nil =>
    intro d' _ _ hext _
    refine ⟨?_, fun e h => (by cases h)⟩
    intro d'' h
    cases h
    exact ⟨hext, fun x _ l => by simp, by simp⟩
  | cons c cs ih =>
    intro d' hnd hc hext hfresh
    rw [List.map_cons, List.nodup_cons] at hnd
    obtain ⟨hcn, hends⟩ := hc c (by simp)
    simp only [internal]
    cases hall : canonAll d' c.ends with
    | error e =>
      simp only []
      refine ⟨fun d'' h => (by cases h), ?_⟩
      intro e' _
      obtain ⟨x, hx, e2, he2⟩ := canonAll_error d' c.ends e hall
      rcases canon_spec d x with ⟨l, h1, _⟩ | ⟨e3, h1, z, _, hz⟩
      · rw [(hext.canon_eq hval (hends x hx) l).mpr h1] at he2; cases he2
      · exact ⟨z, hz⟩
    | ok gs =>
      simp only []
      have hmap := (canonAll_spec d' c.ends gs).mp hall
      have hends_ok : ∀ e ∈ c.ends, ∃ l, l ∈ gs ∧ canon d e = .ok l := by
        intro e he
        have : canon d' e ∈ c.ends.map (canon d') := List.mem_map_of_mem he
        rw [hmap] at this
        obtain ⟨l, hl, hle⟩ := List.mem_map.mp this
        exact ⟨l, hl, (hext.canon_eq hval (hends e he) l).mp hle.symm⟩
      have hgs : ∀ l ∈ gs, ∃ e ∈ c.ends, canon d e = .ok l := by
        intro l hl
        have : (.ok l : Except String String) ∈ gs.map .ok := List.mem_map_of_mem hl
        rw [← hmap] at this
        obtain ⟨e, he, hle⟩ := List.mem_map.mp this
        exact ⟨e, he, (hext.canon_eq hval (hends e he) l).mp hle⟩
      have hlen : gs.length = c.ends.length := by
        have := congrArg List.length hmap; simpa using this.symm
      have hone : ∀ g, gs.eraseDups = [g] ↔ IntD d c g := by
        intro g
        rw [eraseDups_singleton]
        unfold IntD
        constructor
        · rintro ⟨h1, h2⟩
          refine ⟨by intro h; apply h1; apply List.length_eq_zero_iff.mp; rw [hlen, h]; rfl, ?_⟩
          intro e he
          obtain ⟨l, hl, hle⟩ := hends_ok e he
          rw [h2 l hl] at hle; exact hle
        · rintro ⟨h1, h2⟩
          refine ⟨by intro h; apply h1; apply List.length_eq_zero_iff.mp; rw [← hlen, h]; rfl, ?_⟩
          intro x hx
          obtain ⟨e, he, hle⟩ := hgs x hx
          rw [h2 e he] at hle
          cases hle; rfl
      -- the two cases
      cases hdd : gs.eraseDups with
      | nil =>
        simp only []
        have hno : ∀ l, ¬ IntD d c l := by intro l hl; rw [(hone l).mpr hl] at hdd; cases hdd
        obtain ⟨i1, i2⟩ := ih d' hnd.2 (fun c' h' => hc c' (by simp [h'])) hext (fun c' h' => hfresh c' (by simp [h']))
        refine ⟨?_, i2⟩
        intro d'' h
        obtain ⟨j1, j2, j3⟩ := i1 d'' h
        refine ⟨j1, ?_, ?_⟩
        · intro x hx l
          rw [j2 x hx l]
          constructor
          · rintro (h | ⟨c', hc', h⟩)
            · exact .inl h
            · exact .inr ⟨c', by simp [hc'], h⟩
          · rintro (h | ⟨c', hc', h1, h2⟩)
            · exact .inl h
            · rcases List.mem_cons.mp hc' with rfl | hc'
              · exact absurd h2 (hno l)
              · exact .inr ⟨c', hc', h1, h2⟩
        · intro c' hc' e he
          rcases List.mem_cons.mp hc' with rfl | hc'
          · obtain ⟨l, _, hl⟩ := hends_ok e he; exact ⟨l, hl⟩
          · exact j3 c' hc' e he
      | cons g rest =>
        cases rest with
        | nil =>
          simp only []
          have hint := (hone g).mp hdd
          have hext' : Ext cn d (put d' c.name g) := by
            constructor
            · intro x hx
              rw [get_put, if_neg (by rintro rfl; exact hx hcn)]
              exact hext.same x hx
            · exact put_nodup _ _ _ hext.nodup
          obtain ⟨i1, i2⟩ := ih (put d' c.name g) hnd.2 (fun c' h' => hc c' (by simp [h'])) hext' (by
            intro c' h'
            rw [get_put, if_neg (by intro e; exact hnd.1 (e ▸ List.mem_map_of_mem (f := (·.name)) h'))]
            exact hfresh c' (by simp [h']))
          refine ⟨?_, i2⟩
          intro d'' h
          obtain ⟨j1, j2, j3⟩ := i1 d'' h
          refine ⟨j1, ?_, ?_⟩
          · intro x hx l
            rw [j2 x hx l, get_put]
            by_cases hxc : x = c.name
            · subst hxc
              rw [if_pos rfl]
              constructor
              · rintro (h | ⟨c', hc', h⟩)
                · cases h; exact .inr ⟨c, by simp, rfl, hint⟩
                · exact .inr ⟨c', by simp [hc'], h⟩
              · rintro (h | ⟨c', hc', h1, h2⟩)
                · rw [hfresh c (by simp)] at h; cases h
                · rcases List.mem_cons.mp hc' with rfl | hc'
                  · left
                    have h3 := (hone l).mpr h2
                    rw [hdd] at h3
                    simp only [List.cons.injEq, and_true] at h3
                    rw [h3]
                  · exact .inr ⟨c', hc', h1, h2⟩
            · rw [if_neg hxc]
              constructor
              · rintro (h | ⟨c', hc', h⟩)
                · exact .inl h
                · exact .inr ⟨c', by simp [hc'], h⟩
              · rintro (h | ⟨c', hc', h1, h2⟩)
                · exact .inl h
                · rcases List.mem_cons.mp hc' with rfl | hc'
                  · exact absurd h1.symm hxc
                  · exact .inr ⟨c', hc', h1, h2⟩
          · intro c' hc' e he
            rcases List.mem_cons.mp hc' with rfl | hc'
            · obtain ⟨l, _, hl⟩ := hends_ok e he; exact ⟨l, hl⟩
            · exact j3 c' hc' e he
        | cons g2 rest =>
          simp only []
          have hno : ∀ l, ¬ IntD d c l := by intro l hl; rw [(hone l).mpr hl] at hdd; cases hdd
          obtain ⟨i1, i2⟩ := ih d' hnd.2 (fun c' h' => hc c' (by simp [h'])) hext (fun c' h' => hfresh c' (by simp [h']))
          refine ⟨?_, i2⟩
          intro d'' h
          obtain ⟨j1, j2, j3⟩ := i1 d'' h
          refine ⟨j1, ?_, ?_⟩
          · intro x hx l
            rw [j2 x hx l]
            constructor
            · rintro (h | ⟨c', hc', h⟩)
              · exact .inl h
              · exact .inr ⟨c', by simp [hc'], h⟩
            · rintro (h | ⟨c', hc', h1, h2⟩)
              · exact .inl h
              · rcases List.mem_cons.mp hc' with rfl | hc'
                · exact absurd h2 (hno l)
                · exact .inr ⟨c', hc', h1, h2⟩
          · intro c' hc' e he
            rcases List.mem_cons.mp hc' with rfl | hc'
            · obtain ⟨l, _, hl⟩ := hends_ok e he; exact ⟨l, hl⟩
            · exact j3 c' hc' e he

theorem finish_spec (d : Dict) : ∀ (rest r : Dict), finish d rest = .ok r →
    ∀ c l, get r c = some l ↔ ∃ g, get rest c = some g ∧ canon d g = .ok l := by
  intro rest
  induction rest with
  | nil => intro r h; cases h; simp [get]
  | cons p rest ih =>
    obtain ⟨k, v⟩ := p
    intro r h c l
    simp only [finish] at h
    cases hc : canon d v with
    | error e => rw [hc] at h; cases h
    | ok m =>
      rw [hc] at h
      simp only [] at h
      cases hr : finish d rest with
      | error e => rw [hr] at h; cases h
      | ok r' =>
        rw [hr] at h
        cases h
        by_cases hk : k = c
        · subst hk
          simp [get, hc]
        · have e1 : get ((k, m) :: r') c = get r' c := by simp [get, hk]
          have e2 : get ((k, v) :: rest) c = get rest c := by simp [get, hk]
          rw [e1, e2]
          exact ih r' hr c l

theorem finish_error (d : Dict) : ∀ (rest : Dict) (e : String), finish d rest = .error e →
    ∃ k g, (k, g) ∈ rest ∧ ∃ e', canon d g = .error e' := by
  intro rest
  induction rest with
  | nil => intro e h; cases h
  | cons p rest ih =>
    obtain ⟨k, v⟩ := p
    intro e h
    simp only [finish] at h
    cases hc : canon d v with
    | error e' => exact ⟨k, v, by simp, e', hc⟩
    | ok m =>
      rw [hc] at h
      simp only [] at h
      cases hr : finish d rest with
      | error e' =>
        obtain ⟨k', g', hm, x⟩ := ih e' hr
        exact ⟨k', g', by simp [hm], x⟩
      | ok r => rw [hr] at h; cases h

theorem finish_ok_all (d : Dict) : ∀ (rest r : Dict), finish d rest = .ok r → ∀ k g, (k, g) ∈ rest → ∃ l, canon d g = .ok l := by
  intro rest
  induction rest with
  | nil => intro r _ k g h; cases h
  | cons p rest ih =>
    obtain ⟨k0, v⟩ := p
    intro r h k g hm
    simp only [finish] at h
    cases hc : canon d v with
    | error e' => rw [hc] at h; cases h
    | ok m =>
      rw [hc] at h
      simp only [] at h
      cases hr : finish d rest with
      | error e' => rw [hr] at h; cases h
      | ok r' =>
        rcases List.mem_cons.mp hm with e | hm
        · cases e; exact ⟨m, hc⟩
        · exact ih r' hr k g hm

/-! ### The property -/

/-- What is assumed about the names. -/
structure WellFormed (is : List Inst) (cs : List Conn) : Prop where
  /-- names of instances, and names of connections, are not used twice -/
  instances : (is.map (·.name)).Nodup
  connections : (cs.map (·.name)).Nodup
  /-- an instance of a group has no label of its own -/
  oneReason : ∀ i ∈ is, i.label.isSome = true → i.addressSpace = i.name
  /-- the name of a connection is not the name of an instance, an address space or a label -/
  separate : ∀ c ∈ cs, ∀ i ∈ is, c.name ≠ i.name ∧ c.name ≠ i.addressSpace ∧ i.label ≠ some c.name
  /-- the ends of connections are instances -/
  ends : ∀ c ∈ cs, ∀ e ∈ c.ends, e ∈ is.map (·.name)

theorem assigned_unique {is : List Inst} {cs : List Conn} (wf : WellFormed is cs) : Relator.RightUnique (Assigned is) := by
  rintro a b c ⟨i, hi, hn, h⟩ ⟨j, hj, hm, h'⟩
  have hij : i = j := List.inj_on_of_nodup_map wf.instances hi hj (hn.trans hm.symm)
  subst hij
  rcases h with h | h <;> rcases h' with h' | h'
  · rw [h] at h'; exact Option.some.inj h'
  · exact absurd (wf.oneReason i hi (by rw [h]; rfl)) h'.1
  · exact absurd (wf.oneReason i hi (by rw [h']; rfl)) h.1
  · exact h.2.symm.trans h'.2

/-- C37: labels are computed if and only if the assignments are not cyclic; then every instance
that is put under another label, and every internal connection, has the canonical label reached by
following the assignments, and nothing else has an entry. Partial: see `WellFormed`; without its
condition `oneReason` the result depends on the order of the instances (`order_matters`). -/
theorem labels_spec_partial (is : List Inst) (cs : List Conn) (wf : WellFormed is cs) :
    match labels is cs with
    | .ok m => ¬ Cyclic is ∧ ∀ x l, get m x = some l ↔
        ((∃ y, Assigned is x y) ∧ Canonical is x l) ∨ ∃ c ∈ cs, c.name = x ∧ Internal is c l
    | .error _ => Cyclic is := by
  have hu := assigned_unique wf
  have h0 : Inv (fun _ _ => False) [] := ⟨fun x => by simp [get], fun x y h => by simp [get] at h, by simp⟩
  obtain ⟨g1, g2⟩ := groups_inv is _ [] h0 wf.instances (by simp)
  have hall : (fun x y => (False ∨ ByGroup is x y) ∨ ByLabel is x y) = Assigned is := by
    funext x y; apply propext; rw [assigned_iff]; simp
  unfold labels
  cases hg : groups is [] with
  | error e =>
    simp only []
    obtain ⟨z, hz⟩ := g2 e hg
    exact ⟨z, TransGen.mono (fun a b hab => (assigned_iff is a b).mpr (.inl (by simpa using hab))) _ _ hz⟩
  | ok d1 =>
    simp only []
    obtain ⟨c1, c2⟩ := configured_inv is _ d1 (g1 d1 hg) wf.instances (by
      rintro i hi hl y (h | ⟨j, hj, hn, hne, _⟩)
      · exact h
      · have hij : i = j := List.inj_on_of_nodup_map wf.instances hi hj hn.symm
        subst hij
        exact hne (wf.oneReason i hi hl))
    rw [hall] at c1 c2
    cases hc : configured is d1 with
    | error e =>
      simp only []
      exact c2 e hc
    | ok d2 =>
      simp only []
      have hinv := c1 d2 hc
      -- names of connections
      have htarget : ∀ x y, Assigned is x y → ∀ c ∈ cs, c.name ≠ y ∧ c.name ≠ x := by
        rintro x y ⟨i, hi, hn, h⟩ c hcm
        obtain ⟨s1, s2, s3⟩ := wf.separate c hcm i hi
        refine ⟨?_, hn ▸ s1⟩
        rcases h with h | h
        · rintro rfl; exact s3 h
        · rw [← h.2]; exact s2
      have hreach : ∀ x y, ReflTransGen (Assigned is) x y → (∀ c ∈ cs, c.name ≠ x) → ∀ c ∈ cs, c.name ≠ y := by
        intro x y hr hx
        induction hr with
        | refl => exact hx
        | tail _ hs _ => intro c hcm; exact (htarget _ _ hs c hcm).1
      have hval : ∀ x y, get d2 x = some y → ¬ (∃ c ∈ cs, c.name = y) := by
        rintro x y hxy ⟨c, hcm, rfl⟩
        obtain ⟨z, hz⟩ := (hinv.keys x).mp ⟨_, hxy⟩
        exact hreach x c.name (hinv.path x _ hxy).to_reflTransGen (fun c' hc' => (htarget x z hz c' hc').2) c hcm rfl
      have hdc : ∀ x, (∃ c ∈ cs, c.name = x) → get d2 x = none := by
        rintro x ⟨c, hcm, rfl⟩
        cases hgx : get d2 c.name with
        | none => rfl
        | some y =>
          obtain ⟨z, hz⟩ := (hinv.keys c.name).mp ⟨y, hgx⟩
          exact absurd rfl (htarget _ z hz c hcm).2
      have hext0 : Ext (fun x => ∃ c ∈ cs, c.name = x) d2 d2 := ⟨fun x _ => rfl, hinv.nodup⟩
      obtain ⟨n1, n2⟩ := internal_spec (fun x => ∃ c ∈ cs, c.name = x) d2 hval cs d2 wf.connections (by
        intro c hcm
        refine ⟨⟨c, hcm, rfl⟩, ?_⟩
        rintro e he ⟨c', hc', hn⟩
        obtain ⟨i, hi, hie⟩ := List.mem_map.mp (wf.ends c hcm e he)
        exact (wf.separate c' hc' i hi).1 (hn.trans hie.symm)) hext0 (fun c hcm => hdc _ ⟨c, hcm, rfl⟩)
      -- canonical labels, for names of instances and labels
      have hcanon : ∀ x l, canon d2 x = .ok l → Canonical is x l := by
        intro x l h; exact hinv.root (canon_ok.mp h)
      cases hi : internal cs d2 with
      | error e =>
        simp only []
        obtain ⟨x, hx⟩ := n2 e hi
        exact ⟨x, hinv.cycle hx⟩
      | ok d3 =>
        simp only []
        obtain ⟨hext, j2, j3⟩ := n1 d3 hi
        -- an entry of the dictionary for a name of an instance
        cases hf : finish d3 d3 with
        | error e =>
          simp only []
          obtain ⟨k, g, hm, e', he'⟩ := finish_error d3 d3 e hf
          have hkg := get_of_mem hext.nodup hm
          by_cases hk : ∃ c ∈ cs, c.name = k
          · exfalso
            rcases (j2 k hk g).mp hkg with h | ⟨c, hcm, hcn, hint⟩
            · rw [hdc k hk] at h; cases h
            · obtain ⟨hne, hint⟩ := hint
              obtain ⟨e1, he1⟩ := List.exists_mem_of_ne_nil _ hne
              have hr := canon_ok.mp (hint e1 he1)
              have hgn : ¬ ∃ c ∈ cs, c.name = g := by
                rintro ⟨c', hc', rfl⟩
                have := hinv.reach hr.1
                obtain ⟨i, hi', hie⟩ := List.mem_map.mp (wf.ends c hcm e1 he1)
                exact hreach _ _ this (fun c'' hc'' => by rw [← hie]; exact (wf.separate c'' hc'' i hi').1) c' hc' rfl
              have : canon d3 g = .ok g := by
                rw [hext.canon_eq hval hgn]
                exact canon_ok.mpr ⟨.refl, hr.2⟩
              rw [this] at he'; cases he'
          · have hkd : get d2 k = some g := by rw [← hext.same k hk]; exact hkg
            have hgn := hval k g hkd
            rcases canon_spec d2 g with ⟨l, h1, _⟩ | ⟨e2, h1, z, _, hz⟩
            · rw [(hext.canon_eq hval hgn l).mpr h1] at he'; cases he'
            · exact ⟨z, hinv.cycle hz⟩
        | ok m =>
          simp only []
          have hokall := finish_ok_all d3 d3 m hf
          constructor
          · rintro ⟨z, hz⟩
            obtain ⟨w, hw, _⟩ := TransGen.head'_iff.mp hz
            obtain ⟨g, hg'⟩ := (hinv.keys z).mpr ⟨w, hw⟩
            have hzn : ¬ ∃ c ∈ cs, c.name = z := by
              rintro ⟨c, hcm, rfl⟩
              exact (htarget _ w hw c hcm).2 rfl
            have hg3 : get d3 z = some g := by rw [hext.same z hzn]; exact hg'
            obtain ⟨l, hl⟩ := hokall z g (get_mem hg3)
            have hroot := hcanon g l ((hext.canon_eq hval (hval z g hg') l).mp hl)
            have : Canonical is z l := ⟨(hinv.path z g hg').to_reflTransGen.trans hroot.1, hroot.2⟩
            exact cycle_no_root hu .refl hz this
          · intro x l
            rw [finish_spec d3 d3 m hf x l]
            by_cases hx : ∃ c ∈ cs, c.name = x
            · have hroot3 : ∀ g c, c ∈ cs → IntD d2 c g → canon d3 g = .ok g := by
                rintro g c hcm ⟨hne, hint⟩
                obtain ⟨e1, he1⟩ := List.exists_mem_of_ne_nil _ hne
                have hr := canon_ok.mp (hint e1 he1)
                have hgn : ¬ ∃ c ∈ cs, c.name = g := by
                  rintro ⟨c', hc', rfl⟩
                  have := hinv.reach hr.1
                  obtain ⟨i, hi', hie⟩ := List.mem_map.mp (wf.ends c hcm e1 he1)
                  exact hreach _ _ this (fun c'' hc'' => by rw [← hie]; exact (wf.separate c'' hc'' i hi').1) c' hc' rfl
                rw [hext.canon_eq hval hgn]
                exact canon_ok.mpr ⟨.refl, hr.2⟩
              constructor
              · rintro ⟨g, hg', hl⟩
                rcases (j2 x hx g).mp hg' with h | ⟨c, hcm, hcn, hint⟩
                · rw [hdc x hx] at h; cases h
                · rw [hroot3 g c hcm hint] at hl
                  cases hl
                  exact .inr ⟨c, hcm, hcn, hint.1, fun e he => hcanon e _ (hint.2 e he)⟩
              · rintro (⟨⟨y, hy⟩, _⟩ | ⟨c, hcm, hcn, hint⟩)
                · obtain ⟨c, hcm, hcn⟩ := hx
                  exact absurd hcn (htarget x y hy c hcm).2
                · have hI : IntD d2 c l := by
                    refine ⟨hint.1, ?_⟩
                    intro e he
                    obtain ⟨l', hl'⟩ := j3 c hcm e he
                    rw [hl', root_unique hu (hint.2 e he) (hcanon e l' hl')]
                  exact ⟨l, (j2 x hx l).mpr (.inr ⟨c, hcm, hcn, hI⟩), hroot3 l c hcm hI⟩
            · constructor
              · rintro ⟨g, hg', hl⟩
                have hgd : get d2 x = some g := by rw [← hext.same x hx]; exact hg'
                have hroot := hcanon g l ((hext.canon_eq hval (hval x g hgd) l).mp hl)
                exact .inl ⟨(hinv.keys x).mp ⟨g, hgd⟩, (hinv.path x g hgd).to_reflTransGen.trans hroot.1, hroot.2⟩
              · rintro (⟨hy, hcan⟩ | ⟨c, hcm, hcn, _⟩)
                · obtain ⟨g, hgd⟩ := (hinv.keys x).mpr hy
                  have hg3 : get d3 x = some g := by rw [hext.same x hx]; exact hgd
                  obtain ⟨l', hl'⟩ := hokall x g (get_mem hg3)
                  have hroot := hcanon g l' ((hext.canon_eq hval (hval x g hgd) l').mp hl')
                  have : Canonical is x l' := ⟨(hinv.path x g hgd).to_reflTransGen.trans hroot.1, hroot.2⟩
                  exact ⟨g, hg3, by rw [root_unique hu hcan this]; exact hl'⟩
                · exact absurd ⟨c, hcm, hcn⟩ hx

/-- C37: all members of a group have the same label. -/
theorem members_share (is : List Inst) (cs : List Conn) (wf : WellFormed is cs) (m : Dict) (h : labels is cs = .ok m)
    (i j : Inst) (hi : i ∈ is) (hj : j ∈ is) (g : String) (hig : i.addressSpace = g) (hjg : j.addressSpace = g)
    (hni : g ≠ i.name) (hnj : g ≠ j.name) : ∃ l, get m i.name = some l ∧ get m j.name = some l := by
  have hs := labels_spec_partial is cs wf
  rw [h] at hs
  obtain ⟨hac, hs⟩ := hs
  have hu := assigned_unique wf
  have ai : Assigned is i.name g := ⟨i, hi, rfl, .inr ⟨by rw [hig]; exact hni, hig⟩⟩
  have aj : Assigned is j.name g := ⟨j, hj, rfl, .inr ⟨by rw [hjg]; exact hnj, hjg⟩⟩
  -- the instance has an entry
  have hex : ∃ l, get m i.name = some l := by
    by_contra hc
    have hnone : ∀ l, ¬ Canonical is i.name l := by
      intro l hl
      exact hc ⟨l, (hs i.name l).mpr (.inl ⟨⟨g, ai⟩, hl⟩)⟩
    -- with no root, the path from here never ends, so it repeats a name: there are only finitely many
    have hlong : ∀ n, ∃ p : List String, p.length = n ∧ p.Nodup ∧ (∀ x ∈ p, x ∈ is.map (·.name)) ∧
        ∃ z, ReflTransGen (Assigned is) i.name z ∧ ∀ x ∈ p, TransGen (Assigned is) x z := by
      intro n
      induction n with
      | zero => exact ⟨[], rfl, by simp, by simp, i.name, .refl, by simp⟩
      | succ n ih =>
        obtain ⟨p, h1, h2, h3, z, h4, h5⟩ := ih
        have hz : ∃ w, Assigned is z w := by
          by_contra hno
          exact hnone z ⟨h4, fun y hy => hno ⟨y, hy⟩⟩
        obtain ⟨w, hw⟩ := hz
        refine ⟨z :: p, by simp [h1], ?_, ?_, w, h4.tail hw, ?_⟩
        · rw [List.nodup_cons]
          refine ⟨?_, h2⟩
          intro hzp
          exact hac ⟨z, h5 z hzp⟩
        · intro x hx
          rcases List.mem_cons.mp hx with rfl | hx
          · obtain ⟨k, hk, hkn, _⟩ := hw
            exact hkn ▸ List.mem_map_of_mem (f := (·.name)) hk
          · exact h3 x hx
        · intro x hx
          rcases List.mem_cons.mp hx with rfl | hx
          · exact .single hw
          · exact (h5 x hx).tail hw
    obtain ⟨p, h1, h2, h3, _⟩ := hlong (is.length + 1)
    have := (List.subperm_of_subset h2 h3).length_le
    rw [List.length_map] at this
    omega
  obtain ⟨l, hl⟩ := hex
  refine ⟨l, hl, ?_⟩
  rcases (hs i.name l).mp hl with ⟨_, hcan⟩ | ⟨c, hcm, hcn, _⟩
  · have hgl : Canonical is g l := by
      rcases ReflTransGen.cases_head hcan.1 with e | ⟨z, hz, hzl⟩
      · exact absurd ai (e ▸ hcan.2 g)
      · rw [hu ai hz]; exact ⟨hzl, hcan.2⟩
    exact (hs j.name l).mpr (.inl ⟨⟨g, aj⟩, ReflTransGen.head aj hgl.1, hgl.2⟩)
  · exact absurd hcn (wf.separate c hcm i hi).1

/-! ### Concrete cases -/

def demoInst : List Inst :=
  [⟨"a", "g", none⟩, ⟨"b", "g", none⟩, ⟨"c", "c", some "a"⟩, ⟨"d", "d", none⟩]
def demoConn : List Conn := [⟨"ab", ["a", "c"]⟩, ⟨"ad", ["a", "d"]⟩]

/-- The hypotheses can be met. -/
example : WellFormed demoInst demoConn := by
  constructor <;> simp [demoInst, demoConn]

example : labels demoInst demoConn = .ok [("a", "g"), ("b", "g"), ("c", "g"), ("ab", "g")] := rfl

example : labels [⟨"a", "a", some "b"⟩, ⟨"b", "b", some "a"⟩] [] = .error "cycle in group labelling" := rfl

/-- C37 does not hold in full: for instances of groups with labels of their own, an instance that is
put under the label of another one does not always get its canonical label. Here `b` is labelled
with `a`, and `a` with `x`; `b` ends up in the group `g` of `a` and not in `x`. -/
theorem order_matters :
    labels [⟨"b", "b", some "a"⟩, ⟨"a", "g", some "x"⟩] [] = .ok [("a", "x"), ("b", "g")] ∧
    labels [⟨"a", "g", some "x"⟩, ⟨"b", "b", some "a"⟩] [] = .ok [("a", "x"), ("b", "x")] := ⟨rfl, rfl⟩

end Verif.Labels
