import Verif.Integrity.Spec
import Verif.Labels.Props
import Mathlib.Data.List.Nodup

/-!
# Property C114: the statement of integrity labels what it speaks of
-/

namespace Verif.Integrity

open Labels (Inst Conn Dict)
open Spec

/-! ### Groups, names -/

theorem inGroup_iff (g : Dict) (k l : String) : InGroup g k l ↔ groupOf g k = l := by
  unfold InGroup groupOf
  cases Labels.get g k with
  | none => simp [eq_comm]
  | some x => simp

/-- Dots replaced. -/
def quote (n : String) : String := String.ofList (n.toList.map fun c => if c = '.' then '\'' else c)

theorem quote_append (a b : String) : quote (a ++ b) = quote a ++ quote b := by
  apply String.toList_injective
  simp [quote]

theorem constant_eq (n : String) : constant n = quote n ++ "_id" := rfl

theorem ident_iff (n m : String) : ident n = some m ↔ Named n ∧ m = quote n := by
  unfold ident Named quote
  cases h : n.toList with
  | nil => simp
  | cons c cs =>
    simp only [List.cons.injEq]
    by_cases hc : (c.isAlpha || c == '_') = true
    · rw [if_pos hc]
      simp only [Option.some.injEq]
      have hc' : c.isAlpha = true ∨ c = '_' := by simpa using hc
      constructor
      · intro e; exact ⟨⟨c, cs, ⟨rfl, rfl⟩, hc'⟩, e.symm⟩
      · rintro ⟨-, e⟩; exact e.symm
    · rw [if_neg hc]
      constructor
      · intro e; cases e
      · rintro ⟨⟨c', cs', ⟨rfl, rfl⟩, h'⟩, -⟩
        exact absurd (by simpa using h') hc

theorem named_append (a b : String) (h : Named a) : Named (a ++ b) := by
  obtain ⟨c, cs, h1, h2⟩ := h
  exact ⟨c, cs ++ b.toList, by simp [h1], h2⟩

theorem ident_append (a b : String) (h : Named a) : ident (a ++ b) = some (quote a ++ quote b) := by
  rw [ident_iff]
  exact ⟨named_append a b h, (quote_append a b).symm⟩

theorem root_iff (n : String) : "root_untyped_".toList.isPrefixOf n.toList = true ↔ Root n := by
  rw [List.isPrefixOf_iff_prefix]
  unfold Root
  constructor
  · rintro ⟨r, h⟩; exact ⟨r, h.symm⟩
  · rintro ⟨r, h⟩; exact ⟨r, h.symm⟩

theorem mem_mapping (s : Space) (o : Obj) (k : String) : (o, k) ∈ mapping s ↔ Under s o k := by
  unfold mapping Under
  simp only [List.mem_flatMap, List.mem_map, Prod.mk.injEq, Prod.exists]
  constructor
  · rintro ⟨k', os, h1, o', h2, rfl, rfl⟩; exact ⟨os, h1, h2⟩
  · rintro ⟨os, h1, h2⟩; exact ⟨k, os, h1, o, h2, rfl, rfl⟩

theorem collect_mem {f : α → Option (List β)} : ∀ {as : List α} {bs : List β}, collect f as = some bs →
    ∀ b, b ∈ bs ↔ ∃ a ∈ as, ∃ l, f a = some l ∧ b ∈ l := by
  intro as
  induction as with
  | nil => intro bs h b; simp only [collect, Option.some.injEq] at h; subst h; simp
  | cons a as ih =>
    intro bs h b
    unfold collect at h
    cases hf : f a with
    | none => rw [hf] at h; simp at h
    | some l =>
      rw [hf] at h
      cases hc : collect f as with
      | none => rw [hc] at h; simp at h
      | some cs =>
        rw [hc] at h
        simp only [Option.map_some, Option.some.injEq] at h
        subst h
        simp only [List.mem_append, ih hc b, List.mem_cons]
        constructor
        · rintro (h | ⟨a', h1, h2⟩)
          · exact ⟨a, .inl rfl, l, hf, h⟩
          · exact ⟨a', .inr h1, h2⟩
        · rintro ⟨a', rfl | h1, l', h2, h3⟩
          · rw [hf] at h2; cases h2; exact .inl h3
          · exact .inr ⟨a', h1, l', h2, h3⟩

theorem collect_some {f : α → Option (List β)} (as : List α) : (∃ bs, collect f as = some bs) ↔ ∀ a ∈ as, ∃ l, f a = some l := by
  induction as with
  | nil => simp [collect]
  | cons a as ih =>
    unfold collect
    cases hf : f a with
    | none => simp [hf]
    | some l =>
      constructor
      · rintro ⟨bs, h⟩
        cases hc : collect f as with
        | none => rw [hc] at h; simp at h
        | some cs =>
          intro a' ha'
          rcases List.mem_cons.mp ha' with rfl | ha'
          · exact ⟨l, hf⟩
          · exact ih.mp ⟨cs, hc⟩ a' ha'
      · intro h
        obtain ⟨cs, hc⟩ := ih.mpr (fun a' ha' => h a' (by simp [ha']))
        exact ⟨l ++ cs, by simp [hc]⟩

/-! ### Objects, interrupts, ASID pools -/

/-- **C114.** The theory is generated exactly if each object that is not a root untyped has a name that can be made a constant. -/
theorem generated_iff (g : Dict) (s : Space) :
    (∃ es, objLabels g s = some es) ↔ ∀ o k, Under s o k → ¬ Root o.name → Named o.name := by
  unfold objLabels
  rw [collect_some]
  constructor
  · intro h o k hu hr
    obtain ⟨l, hl⟩ := h (o, k) ((mem_mapping s o k).mpr hu)
    unfold entryOf at hl
    rw [if_neg (fun e => hr ((root_iff _).mp e))] at hl
    cases hi : ident o.name with
    | none => simp only at hl; rw [hi] at hl; simp at hl
    | some n => exact ((ident_iff _ _).mp hi).1
  · rintro h ⟨o, k⟩ hp
    unfold entryOf
    by_cases hr : "root_untyped_".toList.isPrefixOf o.name.toList = true
    · exact ⟨[], if_pos hr⟩
    · rw [if_neg hr]
      have := (ident_iff o.name (quote o.name)).mpr ⟨h o k ((mem_mapping s o k).mp hp) (fun e => hr ((root_iff _).mpr e)), rfl⟩
      simp only
      rw [this]
      exact ⟨_, rfl⟩

/-- **C114.** There is an entry for each object but the root untypeds and for nothing else; it has the size of the object and the label of
the group that the object was allocated under. -/
theorem objects_exact (g : Dict) (s : Space) (es : List Entry) (h : objLabels g s = some es) (e : Entry) :
    e ∈ es ↔ ∃ o k, Under s o k ∧ ¬ Root o.name ∧ e.const = constant o.name ∧ e.size = o.sizeBits.getD 0 ∧ InGroup g k e.label := by
  unfold objLabels at h
  rw [collect_mem h]
  constructor
  · rintro ⟨⟨o, k⟩, hp, l, hl, he⟩
    unfold entryOf at hl
    by_cases hr : "root_untyped_".toList.isPrefixOf o.name.toList = true
    · rw [if_pos hr] at hl; cases hl; simp at he
    · rw [if_neg hr] at hl
      simp only at hl
      cases hi : ident o.name with
      | none => rw [hi] at hl; simp at hl
      | some n =>
        rw [hi] at hl
        simp only [Option.map_some, Option.some.injEq] at hl
        subst hl
        simp only [List.mem_singleton] at he
        subst he
        refine ⟨o, k, (mem_mapping s o k).mp hp, fun e => hr ((root_iff _).mpr e), ?_, rfl, (inGroup_iff _ _ _).mpr rfl⟩
        rw [((ident_iff _ _).mp hi).2]; rfl
  · rintro ⟨o, k, hu, hr, h1, h2, h3⟩
    have hp := (mem_mapping s o k).mpr hu
    obtain ⟨l, hl⟩ := (collect_some _).mp ⟨es, h⟩ (o, k) hp
    refine ⟨(o, k), hp, l, hl, ?_⟩
    unfold entryOf at hl
    rw [if_neg (fun e => hr ((root_iff _).mp e))] at hl
    simp only at hl
    cases hi : ident o.name with
    | none => rw [hi] at hl; simp at hl
    | some n =>
      rw [hi] at hl
      simp only [Option.map_some, Option.some.injEq] at hl
      subst hl
      rw [((ident_iff _ _).mp hi).2, (inGroup_iff _ _ _).mp h3, ← h2]
      obtain ⟨c, z, l⟩ := e
      simp only at h1
      rw [h1]
      simp [constant_eq]

theorem quote_inj {a b : String} (ha : '\'' ∉ a.toList) (hb : '\'' ∉ b.toList) (h : quote a = quote b) : a = b := by
  have h' : a.toList.map (fun c => if c = '.' then '\'' else c) = b.toList.map (fun c => if c = '.' then '\'' else c) := by
    have := congrArg String.toList h
    simpa [quote] using this
  apply String.toList_injective
  revert h' ha hb
  generalize a.toList = x
  generalize b.toList = y
  intro ha hb h'
  induction x generalizing y with
  | nil => cases y <;> simp_all
  | cons c cs ih =>
    cases y with
    | nil => simp at h'
    | cons d ds =>
      simp only [List.map_cons, List.cons.injEq] at h'
      have h1 : c = d := by
        have hc : c ≠ '\'' := fun e => ha (by simp [e])
        have hd : d ≠ '\'' := fun e => hb (by simp [e])
        have := h'.1
        by_cases c1 : c = '.' <;> by_cases d1 : d = '.' <;> simp [c1, d1] at this <;> simp_all
      rw [h1, ih ds (fun e => ha (by simp [e])) (fun e => hb (by simp [e])) h'.2]

theorem constant_inj {a b : String} (ha : '\'' ∉ a.toList) (hb : '\'' ∉ b.toList) (h : constant a = constant b) : a = b := by
  rw [constant_eq, constant_eq] at h
  refine quote_inj ha hb ?_
  apply String.toList_injective
  have := congrArg String.toList h
  simpa using this

theorem under_unique {s : Space} (hd : Distinct s) {o o' : Obj} {k k' : String} (h : Under s o k) (h' : Under s o' k')
    (hn : o.name = o'.name) : InGroup g k l → InGroup g k' l := by
  have hnd := hd.1
  have key : ∀ (s : Space), (s.flatMap fun p => p.2.map Obj.name).Nodup → Under s o k → Under s o' k' → k = k' := by
    intro s
    induction s with
    | nil => rintro - ⟨os, h, -⟩; simp at h
    | cons p ps ih =>
      intro hnd ⟨os, h1, h2⟩ ⟨os', h3, h4⟩
      rw [List.flatMap_cons, List.nodup_append] at hnd
      obtain ⟨-, n2, n3⟩ := hnd
      rcases List.mem_cons.mp h1 with e1 | h1 <;> rcases List.mem_cons.mp h3 with e3 | h3
      · rw [← e1] at e3; exact (Prod.mk.inj e3).1.symm
      · exfalso
        refine n3 o.name (List.mem_map.mpr ⟨o, by rw [← e1]; exact h2, rfl⟩) o'.name ?_ hn
        exact List.mem_flatMap.mpr ⟨_, h3, List.mem_map.mpr ⟨o', h4, rfl⟩⟩
      · exfalso
        refine n3 o'.name (List.mem_map.mpr ⟨o', by rw [← e3]; exact h4, rfl⟩) o.name ?_ hn.symm
        exact List.mem_flatMap.mpr ⟨_, h1, List.mem_map.mpr ⟨o, h2, rfl⟩⟩
      · exact ih n2 ⟨os, h1, h2⟩ ⟨os', h3, h4⟩
  rw [key s hnd h h']
  exact id

/-- **C114.** Each object has one label: that of the group of the label it was allocated under. -/
theorem object_label (g : Dict) (s : Space) (hd : Distinct s) (es : List Entry) (h : objLabels g s = some es) {o : Obj} {k l : String}
    (hu : Under s o k) (hr : ¬ Root o.name) (hl : InGroup g k l) : Labels es (constant o.name) l := by
  constructor
  · exact ⟨⟨constant o.name, o.sizeBits.getD 0, l⟩, (objects_exact g s es h _).mpr ⟨o, k, hu, hr, rfl, rfl, hl⟩, rfl, rfl⟩
  · intro e he hc
    obtain ⟨o', k', hu', -, h1, -, h3⟩ := (objects_exact g s es h e).mp he
    obtain ⟨os, m1, m2⟩ := hu
    obtain ⟨os', m3, m4⟩ := hu'
    have hn : o'.name = o.name := constant_inj (hd.2 _ m3 o' m4) (hd.2 _ m1 o m2) (h1.symm.trans hc)
    have := under_unique hd ⟨os, m1, m2⟩ ⟨os', m3, m4⟩ hn.symm hl
    rw [inGroup_iff] at this h3
    exact h3.symm.trans this

/-- **C114.** The interrupts that are labelled are those of the interrupt objects, with the label of the group. -/
theorem irqs_exact (g : Dict) (s : Space) (n : Nat) (l : String) :
    (n, l) ∈ irqLabels g s ↔ ∃ o k, Under s o k ∧ o.kind = .irq n ∧ InGroup g k l := by
  unfold irqLabels
  simp only [List.mem_filterMap, Prod.exists]
  constructor
  · rintro ⟨o, k, hp, h⟩
    split at h
    · rename_i m hm
      simp only [Option.some.injEq, Prod.mk.injEq] at h
      obtain ⟨rfl, rfl⟩ := h
      exact ⟨o, k, (mem_mapping s o k).mp hp, hm, (inGroup_iff _ _ _).mpr rfl⟩
    · simp at h
  · rintro ⟨o, k, hu, hk, hl⟩
    refine ⟨o, k, (mem_mapping s o k).mpr hu, ?_⟩
    rw [hk, ← (inGroup_iff _ _ _).mp hl]

/-- **C114.** An interrupt and the object that stands for it have the same label. -/
theorem irq_agrees (g : Dict) (s : Space) (hd : Distinct s) (es : List Entry) (h : objLabels g s = some es) {o : Obj} {k : String} {n : Nat}
    (hu : Under s o k) (hr : ¬ Root o.name) (hk : o.kind = .irq n) :
    ∃ l, (n, l) ∈ irqLabels g s ∧ Labels es (constant o.name) l := by
  refine ⟨groupOf g k, (irqs_exact g s n _).mpr ⟨o, k, hu, hk, (inGroup_iff _ _ _).mpr rfl⟩, ?_⟩
  exact object_label g s hd es h hu hr ((inGroup_iff _ _ _).mpr rfl)

/-- The ASID pools that are labelled are those with a number; the label is what the pool was allocated under, not its group. -/
theorem asids_exact (s : Space) (n : Nat) (l : String) :
    (n, l) ∈ asidLabels s ↔ ∃ o, Under s o l ∧ o.kind = .asidPool (some n) := by
  unfold asidLabels
  simp only [List.mem_filterMap, Prod.exists]
  constructor
  · rintro ⟨o, k, hp, h⟩
    split at h
    · rename_i m hm
      simp only [Option.some.injEq, Prod.mk.injEq] at h
      obtain ⟨rfl, rfl⟩ := h
      exact ⟨o, (mem_mapping s o k).mp hp, hm⟩
    · simp at h
  · rintro ⟨o, hu, hk⟩
    exact ⟨o, l, (mem_mapping s o l).mpr hu, by rw [hk]⟩

/-- **C114.** The ASIDs of a pool and the pool have the same label, if what the pool was allocated under is in no group.
Missing: pools of grouped instances (`asid_group_lost`). -/
theorem asid_agrees_partial (g : Dict) (s : Space) (hd : Distinct s) (es : List Entry) (h : objLabels g s = some es) {o : Obj} {k : String}
    {n : Nat} (hu : Under s o k) (hr : ¬ Root o.name) (hk : o.kind = .asidPool (some n)) (hg : InGroup g k k) :
    (n, k) ∈ asidLabels s ∧ Labels es (constant o.name) k :=
  ⟨(asids_exact s n k).mpr ⟨o, hu, hk⟩, object_label g s hd es h hu hr hg⟩

/-! ### Stated lemmas -/

theorem keys_assign {d d' : Dict} {c l : String} (h : Labels.assign d c l = .ok d') (hd : (d.map (·.1)).Nodup) : (d'.map (·.1)).Nodup := by
  unfold Labels.assign at h
  split at h
  · simp at h
  · simp only [Except.ok.injEq] at h; subst h; exact Labels.put_nodup _ _ _ hd

theorem keys_groups : ∀ (is : List Inst) {d d' : Dict}, Labels.groups is d = .ok d' → (d.map (·.1)).Nodup → (d'.map (·.1)).Nodup := by
  intro is
  induction is with
  | nil => intro d d' h hd; simp only [Labels.groups, Except.ok.injEq] at h; subst h; exact hd
  | cons i is ih =>
    intro d d' h hd
    unfold Labels.groups at h
    split at h
    · split at h
      · simp at h
      · rename_i d1 ha; exact ih h (keys_assign ha hd)
    · exact ih h hd

theorem keys_configured : ∀ (is : List Inst) {d d' : Dict}, Labels.configured is d = .ok d' → (d.map (·.1)).Nodup →
    (d'.map (·.1)).Nodup := by
  intro is
  induction is with
  | nil => intro d d' h hd; simp only [Labels.configured, Except.ok.injEq] at h; subst h; exact hd
  | cons i is ih =>
    intro d d' h hd
    unfold Labels.configured at h
    split at h
    · split at h
      · simp at h
      · rename_i d1 ha; exact ih h (keys_assign ha hd)
    · exact ih h hd

theorem keys_internal : ∀ (cs : List Conn) {d d' : Dict}, Labels.internal cs d = .ok d' → (d.map (·.1)).Nodup → (d'.map (·.1)).Nodup := by
  intro cs
  induction cs with
  | nil => intro d d' h hd; simp only [Labels.internal, Except.ok.injEq] at h; subst h; exact hd
  | cons c cs ih =>
    intro d d' h hd
    unfold Labels.internal at h
    split at h
    · simp at h
    · split at h
      · exact ih h (Labels.put_nodup _ _ _ hd)
      · exact ih h hd

theorem keys_finish (d : Dict) : ∀ (rest : Dict) {r : Dict}, Labels.finish d rest = .ok r → r.map (·.1) = rest.map (·.1) := by
  intro rest
  induction rest with
  | nil => intro r h; simp only [Labels.finish, Except.ok.injEq] at h; subst h; rfl
  | cons p ps ih =>
    obtain ⟨c, g⟩ := p
    intro r h
    unfold Labels.finish at h
    split at h
    · simp at h
    · split at h
      · simp at h
      · rename_i r' hr
        simp only [Except.ok.injEq] at h
        subst h
        simp [ih hr]

theorem keys_labels {is : List Inst} {cs : List Conn} {g : Dict} (h : Labels.labels is cs = .ok g) : (g.map (·.1)).Nodup := by
  unfold Labels.labels at h
  split at h
  · simp at h
  · rename_i d1 h1
    split at h
    · simp at h
    · rename_i d2 h2
      split at h
      · simp at h
      · rename_i d3 h3
        rw [keys_finish _ _ h]
        exact keys_internal cs h3 (keys_configured is h2 (keys_groups is h1 (by simp)))

theorem get_perm {g p : Dict} (hp : p.Perm g) (hn : (g.map (·.1)).Nodup) (x : String) : Labels.get p x = Labels.get g x := by
  have hn' : (p.map (·.1)).Nodup := (hp.map _).nodup_iff.mpr hn
  cases hg : Labels.get g x with
  | some v => exact Labels.get_of_mem hn' (hp.mem_iff.mpr (Labels.get_mem hg))
  | none =>
    cases hp' : Labels.get p x with
    | none => rfl
    | some v =>
      have := Labels.get_of_mem hn (hp.mem_iff.mp (Labels.get_mem hp'))
      rw [hg] at this
      cases this

/-- **C114.** Each line of the lemma about group labels is true: looking a name up in the list of the architecture specification, in
whatever order it is printed, gives the label stated. There is a line for each instance and each connection. -/
theorem lookups_true (is : List Inst) (cs : List Conn) (g : Dict) (h : Labels.labels is cs = .ok g) (printed : Dict)
    (hp : printed.Perm g) :
    (∀ x l, (x, l) ∈ lookupLines g is cs → InGroup printed x l) ∧
    (∀ i ∈ is, ∃ l, (i.name, l) ∈ lookupLines g is cs) ∧ ∀ c ∈ cs, ∃ l, (c.name, l) ∈ lookupLines g is cs := by
  refine ⟨?_, fun i hi => ⟨groupOf g i.name, ?_⟩, fun c hc => ⟨groupOf g c.name, ?_⟩⟩
  · intro x l hx
    unfold lookupLines at hx
    obtain ⟨y, -, hy⟩ := List.mem_map.mp hx
    simp only [Prod.mk.injEq] at hy
    obtain ⟨rfl, rfl⟩ := hy
    unfold InGroup
    rw [get_perm hp (keys_labels h)]
    exact (inGroup_iff g _ _).mpr rfl
  · exact List.mem_map.mpr ⟨i.name, by simp only [List.mem_append, List.mem_map]; exact .inl ⟨i, hi, rfl⟩, rfl⟩
  · exact List.mem_map.mpr ⟨c.name, by simp only [List.mem_append, List.mem_map]; exact .inr ⟨c, hc, rfl⟩, rfl⟩

/-- **C114.** The lemma about additional policy edges is true if each edge is written with names that are their own groups.
Missing: other edges (`extra_group_lost`). -/
theorem extra_true_partial (g : Dict) (extra : List (String × String × String))
    (h : ∀ t ∈ extra, InGroup g t.1 t.1 ∧ InGroup g t.2.2 t.2.2) : ∀ t, t ∈ extraMeant g extra ↔ t ∈ extraStated extra := by
  have : extraMeant g extra = extra := by
    unfold extraMeant
    conv => rhs; rw [← List.map_id extra]
    apply List.map_congr_left
    intro t ht
    obtain ⟨h1, h2⟩ := h t ht
    rw [(inGroup_iff _ _ _).mp h1, (inGroup_iff _ _ _).mp h2]
    rfl
  intro t
  rw [this]
  rfl

/-! ### The objects of an instance -/

/-- In an assembly whose labels are well formed, an instance and its address space are in the same group. -/
theorem space_group (is : List Inst) (cs : List Conn) (wf : Labels.WellFormed is cs) (g : Dict) (h : Labels.labels is cs = .ok g)
    (i : Inst) (hi : i ∈ is) : groupOf g i.addressSpace = groupOf g i.name := by
  by_cases he : i.addressSpace = i.name
  · rw [he]
  · obtain ⟨l, hl, -⟩ := Labels.members_share is cs wf g h i i hi hi i.addressSpace rfl rfl he he
    have hs := Labels.labels_spec_partial is cs wf
    rw [h] at hs
    obtain ⟨-, hs⟩ := hs
    have ha : Labels.Spec.Assigned is i.name i.addressSpace := ⟨i, hi, rfl, .inr ⟨he, rfl⟩⟩
    have hcan : Labels.Spec.Canonical is i.name l := by
      rcases (hs i.name l).mp hl with ⟨-, hc⟩ | ⟨c, hc, hn, -⟩
      · exact hc
      · exact absurd hn (wf.separate c hc i hi).1
    have hcan' : Labels.Spec.Canonical is i.addressSpace l := by
      refine ⟨?_, hcan.2⟩
      rcases Relation.ReflTransGen.cases_head hcan.1 with e | ⟨y, hy, hr⟩
      · rw [e] at ha; exact absurd ha (hcan.2 _)
      · rw [← Labels.assigned_unique wf hy ha]; exact hr
    have h1 : groupOf g i.name = l := by unfold groupOf; rw [hl]; rfl
    rw [h1]
    by_cases hex : ∃ y, Labels.Spec.Assigned is i.addressSpace y
    · have := (hs i.addressSpace l).mpr (.inl ⟨hex, hcan'⟩)
      unfold groupOf; rw [this]; rfl
    · have hself : i.addressSpace = l := by
        rcases Relation.ReflTransGen.cases_head hcan'.1 with e | ⟨y, hy, -⟩
        · exact e
        · exact absurd ⟨y, hy⟩ hex
      have hnone : Labels.get g i.addressSpace = none := by
        cases hg : Labels.get g i.addressSpace with
        | none => rfl
        | some m =>
          rcases (hs _ m).mp hg with ⟨hy, -⟩ | ⟨c, hc, hn, -⟩
          · exact absurd hy hex
          · exact absurd hn (wf.separate c hc i hi).2.1
      unfold groupOf; rw [hnone]; exact hself

/-- **C114.** The control thread, the CNode and the page directory of an instance have one label: that of the group of the instance.
Missing: instances of groups with labels of their own (`grouped_label_splits`), and names that look like those of root untypeds
(`root_name_unlabelled`). -/
theorem own_labels_partial (comps : List Comp) (conns : List Conn) (wf : Labels.WellFormed (comps.map Comp.inst) conns) (g : Dict)
    (h : Labels.labels (comps.map Comp.inst) conns = .ok g) (s : Space) (hd : Distinct s)
    (ha : ∀ p ∈ ownObjects comps, Allocated s p ∧ ¬ Root p.2) (es : List Entry) (he : objLabels g s = some es)
    (c : Comp) (hc : c ∈ comps) (hw : c.hardware = false) :
    ∃ l, InGroup g c.inst.name l ∧ Labels es (constant (tcbObject c).2) l ∧
      Labels es (constant (c.inst.addressSpace ++ "_cnode")) l ∧ Labels es (constant (c.inst.addressSpace ++ "_group_bin_pd")) l := by
  have hmem : ∀ p ∈ tcbObject c :: spaceObjects c.inst.addressSpace, p ∈ ownObjects comps := by
    intro p hp
    unfold ownObjects
    exact List.mem_flatMap.mpr ⟨c, List.mem_filter.mpr ⟨hc, by simp [hw]⟩, hp⟩
  have key : ∀ p ∈ tcbObject c :: spaceObjects c.inst.addressSpace, ∀ l, groupOf g p.1 = l → Labels es (constant p.2) l := by
    intro p hp l hl
    obtain ⟨⟨o, hu, hn⟩, hr⟩ := ha p (hmem p hp)
    rw [← hn] at hr ⊢
    exact object_label g s hd es he hu hr ((inGroup_iff _ _ _).mpr hl)
  have hsp := space_group _ conns wf g h c.inst (List.mem_map.mpr ⟨c, hc, rfl⟩)
  refine ⟨groupOf g c.inst.name, (inGroup_iff _ _ _).mpr rfl, ?_, ?_, ?_⟩
  · exact key (tcbObject c) (by simp) _ rfl
  · exact key (c.inst.addressSpace, c.inst.addressSpace ++ "_cnode") (by simp [spaceObjects]) _ hsp
  · exact key (c.inst.addressSpace, c.inst.addressSpace ++ "_group_bin_pd") (by simp [spaceObjects]) _ hsp

theorem mangled_dotless (n : String) (h : Identifier n) : mangled n = dotless n := by
  unfold mangled dotless
  congr 1
  apply List.map_congr_left
  intro c hc
  rcases h.2 c hc with h | rfl | rfl
  · have : c ≠ '.' := by rintro rfl; exact absurd h (by decide)
    simp [h, this]
  · decide
  · decide

/-- The label of a group is its own group. -/
theorem group_idem (is : List Inst) (cs : List Conn) (wf : Labels.WellFormed is cs) (g : Dict) (h : Labels.labels is cs = .ok g)
    (i : Inst) (hi : i ∈ is) : groupOf g (groupOf g i.name) = groupOf g i.name := by
  cases hg : Labels.get g i.name with
  | none =>
    have : groupOf g i.name = i.name := by unfold groupOf; rw [hg]; rfl
    rw [this, this]
  | some l =>
    have h1 : groupOf g i.name = l := by unfold groupOf; rw [hg]; rfl
    rw [h1]
    have hs := Labels.labels_spec_partial is cs wf
    rw [h] at hs
    obtain ⟨-, hs⟩ := hs
    rcases (hs i.name l).mp hg with ⟨⟨y, hy⟩, hc⟩ | ⟨c, hc, hn, -⟩
    · cases hl : Labels.get g l with
      | none => unfold groupOf; rw [hl]; rfl
      | some m =>
        exfalso
        rcases (hs l m).mp hl with ⟨⟨z, hz⟩, -⟩ | ⟨c, hcm, hn, -⟩
        · exact hc.2 z hz
        · -- a label is the name of an instance, an address space or a configured label
          rcases Relation.ReflTransGen.cases_tail hc.1 with e | ⟨z, -, j, hj, -, hz⟩
          · rw [e] at hc; exact hc.2 y hy
          · rcases hz with hz | ⟨-, hz⟩
            · exact (wf.separate c hcm j hj).2.2 (by rw [hz, hn])
            · exact (wf.separate c hcm j hj).2.1 (hn.trans hz.symm)
    · exact absurd hn (wf.separate c hc i hi).1

/-- **C114.** Each conjunct of the lemma about control threads that speaks of one object is true, if the label of each group is the name
of an address space. Missing: other labels (`unknown_label_named`). -/
theorem sanity_true_partial (comps : List Comp) (conns : List Conn) (wf : Labels.WellFormed (comps.map Comp.inst) conns) (g : Dict)
    (h : Labels.labels (comps.map Comp.inst) conns = .ok g) (s : Space) (hd : Distinct s)
    (hid : ∀ c ∈ comps, Identifier c.inst.name) (hex : ∀ c ∈ comps, c.control = true → c.hardware = false)
    (ha : ∀ p ∈ ownObjects comps, Allocated s p ∧ ¬ Root p.2) (es : List Entry) (he : objLabels g s = some es)
    (hl : ∀ c ∈ comps, c.control = true → ∀ l, InGroup g c.inst.name l → ∃ d ∈ comps, d.hardware = false ∧ d.inst.addressSpace = l)
    (lines : List (String × String)) (hs : sanityLines g comps = some lines) :
    ∀ n l, (n, l) ∈ lines → Labels es n l := by
  intro n l hn
  unfold sanityLines at hs
  obtain ⟨c, hc, ls, hls, hmem⟩ := (collect_mem hs _).mp hn
  by_cases hctl : c.control = true
  · rw [if_pos hctl] at hls
    simp only at hls
    split at hls
    · rename_i a t p hia hit hip
      simp only [Option.some.injEq] at hls
      subst hls
      obtain ⟨d, hdm, hdw, hda⟩ := hl c hc hctl (groupOf g c.inst.name) ((inGroup_iff _ _ _).mpr rfl)
      have hci : c.inst ∈ comps.map Comp.inst := List.mem_map.mpr ⟨c, hc, rfl⟩
      obtain ⟨lc, hlc, ht, -, -⟩ := own_labels_partial comps conns wf g h s hd ha es he c hc (hex c hc hctl)
      rw [inGroup_iff] at hlc
      obtain ⟨ld, hld, -, hcn, hpd⟩ := own_labels_partial comps conns wf g h s hd ha es he d hdm hdw
      rw [inGroup_iff] at hld
      have hsp := space_group _ conns wf g h d.inst (List.mem_map.mpr ⟨d, hdm, rfl⟩)
      rw [hda, group_idem _ conns wf g h c.inst hci, hld] at hsp
      obtain ⟨-, rfl⟩ := (ident_iff _ _).mp hia
      obtain ⟨-, rfl⟩ := (ident_iff _ _).mp hit
      obtain ⟨-, rfl⟩ := (ident_iff _ _).mp hip
      simp only [List.mem_cons, Prod.mk.injEq, List.not_mem_nil, or_false] at hmem
      rcases hmem with ⟨rfl, rfl⟩ | ⟨rfl, rfl⟩ | ⟨rfl, rfl⟩
      · rw [hda, constant_eq, quote_append, ← hsp] at hcn
        have : quote (groupOf g c.inst.name) ++ "_cnode_id" = quote (groupOf g c.inst.name) ++ quote "_cnode" ++ "_id" := by
          rw [String.append_assoc]; congr 1
        rw [this]; exact hcn
      · rw [← hlc] at ht
        have : quote (c.inst.name ++ "_" ++ dotless c.inst.name ++ "_0_control_tcb_id") = constant (tcbObject c).2 := by
          unfold tcbObject
          rw [constant_eq, mangled_dotless _ (hid c hc)]
          simp only [quote_append, String.append_assoc]
          congr 3
        rw [this]; exact ht
      · rw [hda, constant_eq, quote_append, ← hsp] at hpd
        have : quote (groupOf g c.inst.name ++ "_group_bin_pd_id") = quote (groupOf g c.inst.name) ++ quote "_group_bin_pd" ++ "_id" := by
          rw [quote_append, String.append_assoc]; congr 1
        rw [this]; exact hpd
    · simp at hls
  · rw [if_neg hctl] at hls
    cases hls
    simp at hmem

/-- **C114.** The lemma speaks of each instance with a control thread: its thread is mentioned with the label of its group. -/
theorem sanity_mentions (g : Dict) (comps : List Comp) (lines : List (String × String)) (hs : sanityLines g comps = some lines)
    (c : Comp) (hc : c ∈ comps) (hid : Identifier c.inst.name) (hctl : c.control = true) :
    ∃ l, InGroup g c.inst.name l ∧ (constant (tcbObject c).2, l) ∈ lines := by
  unfold sanityLines at hs
  obtain ⟨ls, hls⟩ := (collect_some _).mp ⟨lines, hs⟩ c hc
  refine ⟨groupOf g c.inst.name, (inGroup_iff _ _ _).mpr rfl, (collect_mem hs _).mpr ⟨c, hc, ls, hls, ?_⟩⟩
  rw [if_pos hctl] at hls
  simp only at hls
  split at hls
  · rename_i a t p hia hit hip
    simp only [Option.some.injEq] at hls
    subst hls
    obtain ⟨-, rfl⟩ := (ident_iff _ _).mp hit
    have : quote (c.inst.name ++ "_" ++ dotless c.inst.name ++ "_0_control_tcb_id") = constant (tcbObject c).2 := by
      unfold tcbObject
      rw [constant_eq, mangled_dotless _ hid]
      simp only [quote_append, String.append_assoc]
      congr 3
    rw [this]
    simp
  · simp at hls

/-- **C114.** The lemma that policies are well formed is stated for the label of the group of each instance, and for no other subject. -/
theorem subjects_exact (g : Dict) (is : List Inst) (l : String) :
    l ∈ wellformedSubjects g is ↔ ∃ i ∈ is, InGroup g i.name l := by
  simp only [wellformedSubjects, List.mem_map, inGroup_iff]

/-- **C114.** If no instance is in a group, each subject that is allowed is one for which policies are well formed. Missing: instances in
groups (`subject_group_lost`). -/
theorem subjects_agree_partial (g : Dict) (is : List Inst) (h : ∀ i ∈ is, Labels.get g i.name = none) (l : String) :
    l ∈ admissibleSubjects is ↔ ∃ i ∈ is, InGroup g i.name l := by
  simp only [admissibleSubjects, List.mem_map]
  constructor
  · rintro ⟨i, hi, rfl⟩; exact ⟨i, hi, .inr ⟨h i hi, rfl⟩⟩
  · rintro ⟨i, hi, hl⟩
    rcases hl with hl | hl
    · rw [h i hi] at hl; cases hl
    · exact ⟨i, hi, hl.2.symm⟩

/-! ### Concrete cases -/

def demoComps : List Comp :=
  [⟨⟨"a", "g", none⟩, true, false⟩, ⟨⟨"b.x", "g", none⟩, false, false⟩, ⟨⟨"c", "c", some "g"⟩, true, false⟩, ⟨⟨"dev", "dev", none⟩, false, true⟩]

def demoConns : List Conn := [⟨"ac", ["a", "c"]⟩, ⟨"ad", ["a", "dev"]⟩]

def demoGroups : Dict := [("a", "g"), ("b.x", "g"), ("c", "g"), ("ac", "g")]

def demoSpace : Space :=
  [("g", [⟨"g_cnode", some 8, .other⟩, ⟨"g_group_bin_pd", none, .other⟩]),
   ("a", [⟨"a_a_0_control_tcb", none, .other⟩, ⟨"root_untyped_0", some 20, .other⟩]),
   ("b.x", [⟨"b.x_b_x_0_control_tcb", none, .other⟩]),
   ("c", [⟨"c_cnode", some 4, .other⟩, ⟨"c_group_bin_pd", none, .other⟩, ⟨"c_c_0_control_tcb", none, .other⟩, ⟨"pool", none, .asidPool (some 1)⟩]),
   ("ad", [⟨"ad_irq", none, .irq 33⟩, ⟨"pool2", none, .asidPool (some 2)⟩])]

/-- The hypotheses of the theorems can be met: labels, names, allocation. -/
theorem demo_wellFormed : Labels.WellFormed (demoComps.map Comp.inst) demoConns := by
  constructor <;> simp [demoComps, demoConns]

theorem demo_groups : Labels.labels (demoComps.map Comp.inst) demoConns = .ok demoGroups := by decide +kernel

theorem demo_distinct : Distinct demoSpace := by
  constructor
  · decide +kernel
  · have : ∀ p ∈ demoSpace, ∀ o ∈ p.2, ('\'' ∈ o.name.toList) = False := by
      intro p hp o ho
      simp only [eq_iff_iff, iff_false]
      revert p o
      decide +kernel
    intro p hp o ho h
    rw [this p hp o ho] at h
    exact h

theorem demo_allocated : ∀ p ∈ ownObjects demoComps, Allocated demoSpace p ∧ ¬ Root p.2 := by
  have h1 : ∀ p ∈ ownObjects demoComps, ∃ q ∈ demoSpace, q.1 = p.1 ∧ ∃ o ∈ q.2, o.name = p.2 := by decide +kernel
  have h2 : ∀ p ∈ ownObjects demoComps, "root_untyped_".toList.isPrefixOf p.2.toList = false := by decide +kernel
  intro p hp
  obtain ⟨⟨k, os⟩, hq, hk, o, ho, hn⟩ := h1 p hp
  refine ⟨⟨o, ⟨os, ?_, ho⟩, hn⟩, fun hr => ?_⟩
  · have : k = p.1 := hk
    rw [← this]; exact hq
  · rw [← root_iff, h2 p hp] at hr; cases hr

theorem demo_entries : objLabels demoGroups demoSpace = some
    [⟨"g_cnode_id", 8, "g"⟩, ⟨"g_group_bin_pd_id", 0, "g"⟩, ⟨"a_a_0_control_tcb_id", 0, "g"⟩, ⟨"b'x_b_x_0_control_tcb_id", 0, "g"⟩,
     ⟨"c_cnode_id", 4, "g"⟩, ⟨"c_group_bin_pd_id", 0, "g"⟩, ⟨"c_c_0_control_tcb_id", 0, "g"⟩, ⟨"pool_id", 0, "g"⟩,
     ⟨"ad_irq_id", 0, "ad"⟩, ⟨"pool2_id", 0, "ad"⟩] := by decide +kernel

theorem demo_lines : irqLabels demoGroups demoSpace = [(33, "ad")] ∧
    lookupLines demoGroups (demoComps.map Comp.inst) demoConns =
      [("a", "g"), ("b.x", "g"), ("c", "g"), ("dev", "dev"), ("ac", "g"), ("ad", "ad")] ∧
    sanityLines demoGroups demoComps = some
      [("g_cnode_id", "g"), ("a_a_0_control_tcb_id", "g"), ("g_group_bin_pd_id", "g"),
       ("g_cnode_id", "g"), ("c_c_0_control_tcb_id", "g"), ("g_group_bin_pd_id", "g")] := by decide +kernel

/-- The hypothesis about the labels of groups can be met. -/
theorem demo_spaces : ∀ c ∈ demoComps.filter Comp.control, ∃ d ∈ demoComps, d.hardware = false ∧
    d.inst.addressSpace = groupOf demoGroups c.inst.name := by decide +kernel

/-- Names of the demo are identifiers. -/
theorem demo_identifiers : ∀ c ∈ demoComps, Identifier c.inst.name := by
  intro c hc
  have : c.inst.name = "a" ∨ c.inst.name = "b.x" ∨ c.inst.name = "c" ∨ c.inst.name = "dev" := by
    revert c; decide +kernel
  rcases this with h | h | h | h <;> rw [h]
  · exact ⟨⟨'a', [], by decide +kernel, by decide⟩, by decide +kernel⟩
  · exact ⟨⟨'b', ['.', 'x'], by decide +kernel, by decide⟩, by decide +kernel⟩
  · exact ⟨⟨'c', [], by decide +kernel, by decide⟩, by decide +kernel⟩
  · exact ⟨⟨'d', ['e', 'v'], by decide +kernel, by decide⟩, by decide +kernel⟩

/-- All the hypotheses of `sanity_true_partial` hold at once. -/
theorem demo_sanity : ∀ lines, sanityLines demoGroups demoComps = some lines → ∀ n l, (n, l) ∈ lines → Labels
    [⟨"g_cnode_id", 8, "g"⟩, ⟨"g_group_bin_pd_id", 0, "g"⟩, ⟨"a_a_0_control_tcb_id", 0, "g"⟩, ⟨"b'x_b_x_0_control_tcb_id", 0, "g"⟩,
     ⟨"c_cnode_id", 4, "g"⟩, ⟨"c_group_bin_pd_id", 0, "g"⟩, ⟨"c_c_0_control_tcb_id", 0, "g"⟩, ⟨"pool_id", 0, "g"⟩,
     ⟨"ad_irq_id", 0, "ad"⟩, ⟨"pool2_id", 0, "ad"⟩] n l := by
  intro lines h
  refine sanity_true_partial demoComps demoConns demo_wellFormed demoGroups demo_groups demoSpace demo_distinct demo_identifiers
    (by decide) demo_allocated _ demo_entries ?_ lines h
  intro c hc hctl l hl
  obtain ⟨d, h1, h2, h3⟩ := demo_spaces c (List.mem_filter.mpr ⟨hc, hctl⟩)
  exact ⟨d, h1, h2, h3.trans ((inGroup_iff _ _ _).mp hl)⟩

/-- **Disagreement with C114.** The pool that a grouped instance owns is labelled `g`, its ASIDs are labelled `c`. -/
theorem asid_group_lost : ∃ es, objLabels demoGroups demoSpace = some es ∧ ⟨"pool_id", 0, "g"⟩ ∈ es ∧ (1, "c") ∈ asidLabels demoSpace ∧
    (1, "g") ∉ asidLabels demoSpace := ⟨_, demo_entries, by decide +kernel, by decide +kernel, by decide +kernel⟩

/-- **Disagreement with C114.** An additional edge from a grouped instance: the lemma states an edge from the instance, while the
policy that it is stated of has an edge from the group. -/
theorem extra_group_lost : ("a", "Read", "ad") ∈ extraStated [("a", "Read", "ad")] ∧
    ("a", "Read", "ad") ∉ extraMeant demoGroups [("a", "Read", "ad")] := by decide +kernel

/-- **Disagreement with C114.** The subject of an admissible policy may be a grouped instance, whose name labels no object, and cannot be
the group, whose label they have. -/
theorem subject_group_lost : "a" ∈ admissibleSubjects (demoComps.map Comp.inst) ∧ "g" ∉ admissibleSubjects (demoComps.map Comp.inst) ∧
    "a" ∉ wellformedSubjects demoGroups (demoComps.map Comp.inst) ∧ "g" ∈ wellformedSubjects demoGroups (demoComps.map Comp.inst) ∧
    ∃ es, objLabels demoGroups demoSpace = some es ∧ ∀ e ∈ es, e.label ≠ "a" :=
  ⟨by decide +kernel, by decide +kernel, by decide +kernel, by decide +kernel, _, demo_entries, by decide +kernel⟩

/-- **Disagreement with C114.** An instance of a group with a label of its own: its thread is labelled with it, its CNode and its page
directory with the group, and the lemma speaks of a CNode that does not exist. -/
theorem grouped_label_splits :
    let comps : List Comp := [⟨⟨"a", "g", some "x"⟩, true, false⟩]
    let space : Space := [("g", [⟨"g_cnode", some 8, .other⟩, ⟨"g_group_bin_pd", none, .other⟩]), ("a", [⟨"a_a_0_control_tcb", none, .other⟩])]
    (ownObjects comps).all (fun p => space.any fun q => q.1 == p.1 && q.2.any fun o => o.name == p.2) = true ∧
    Labels.labels (comps.map Comp.inst) [] = .ok [("a", "x")] ∧
    objLabels [("a", "x")] space = some [⟨"g_cnode_id", 8, "g"⟩, ⟨"g_group_bin_pd_id", 0, "g"⟩, ⟨"a_a_0_control_tcb_id", 0, "x"⟩] ∧
    sanityLines [("a", "x")] comps = some [("x_cnode_id", "x"), ("a_a_0_control_tcb_id", "x"), ("x_group_bin_pd_id", "x")] := by
  decide +kernel

/-- **Disagreement with C114.** A label that is no address space: the lemma speaks of a CNode that does not exist. -/
theorem unknown_label_named :
    let comps : List Comp := [⟨⟨"a", "a", some "trusted"⟩, true, false⟩]
    let space : Space := [("a", [⟨"a_cnode", some 8, .other⟩, ⟨"a_group_bin_pd", none, .other⟩, ⟨"a_a_0_control_tcb", none, .other⟩])]
    Labels.labels (comps.map Comp.inst) [] = .ok [("a", "trusted")] ∧
    (ownObjects comps).all (fun p => space.any fun q => q.1 == p.1 && q.2.any fun o => o.name == p.2) = true ∧
    (∃ lines, sanityLines [("a", "trusted")] comps = some lines ∧ ("trusted_cnode_id", "trusted") ∈ lines) ∧
    (objLabels [("a", "trusted")] space).map (List.map Entry.const) = some ["a_cnode_id", "a_group_bin_pd_id", "a_a_0_control_tcb_id"] := by
  refine ⟨by decide +kernel, by decide +kernel, ⟨_, rfl, by decide +kernel⟩, by decide +kernel⟩

/-- **Disagreement with C114.** The objects of an instance called `root_untyped_a` are taken for root untypeds. -/
theorem root_name_unlabelled :
    let comps : List Comp := [⟨⟨"root_untyped_a", "root_untyped_a", none⟩, true, false⟩]
    let space : Space := (ownObjects comps).map fun p => (p.1, [⟨p.2, none, .other⟩])
    Labels.labels (comps.map Comp.inst) [] = .ok [] ∧ objLabels [] space = some [] ∧
    ∃ lines, sanityLines [] comps = some lines ∧ ("root_untyped_a_cnode_id", "root_untyped_a") ∈ lines := by
  refine ⟨by decide +kernel, by decide +kernel, _, rfl, by decide +kernel⟩

/-- Names that cannot be made constants are refused. -/
theorem demo_refused : objLabels [] [("a", [⟨"0a", none, .other⟩])] = none ∧ objLabels [] [("a", [⟨"", none, .other⟩])] = none ∧
    objLabels [] [("a", [⟨"_a.b", some 12, .other⟩])] = some [⟨"_a'b_id", 12, "a"⟩] := by decide +kernel

end Verif.Integrity
